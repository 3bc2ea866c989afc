/-
  Lowering of kernel calls to LLVM: src/compiler/lowering/LowerToLLVMPass.cpp (`CallKernelOpLowering`, `CreateVariadicPackOpLowering`, `StoreVariadicPackOpLowering`).

  A function is a tree of statements; SSA values and operations have numbers. All memory for results and packs is allocated at the beginning of the function (LowerToLLVMPass.cpp:50-62), one `AllocaOp` after the
  other; the kernels are arbitrary relations that read and write the memory they are given pointers to.
  Simplifications: one memory cell holds one value of any type (the element types of `GEPOp` agree); control flow stays structured (it is lowered by MLIR's own patterns).
-/
import Mathlib.Data.List.Basic

namespace Verif.Lower

/-- An operand of a kernel call: an SSA value, or a pack with its number of elements. -/
inductive Arg where
  | val (x : Nat)
  | pack (p n : Nat)
  deriving DecidableEq

/-- A kernel call: the operation, the kernel, the results (with whether their type is lowered to a pointer), the operands, and whether it has the attribute `hasVariadicResults`. -/
structure Call where
  op : Nat
  kernel : Nat
  outs : List (Nat × Bool)
  args : List Arg
  variadic : Bool

/-- The code of a function before this pass. -/
inductive Stmt where
  | skip
  | create (p n : Nat)
  | store (p i x : Nat)
  | call (c : Call)
  | seq (a b : Stmt)
  | ifte (x : Nat) (a b : Stmt)
  | loop (x : Nat) (a : Stmt)

/-- What memory is allocated for: a pack, the only result array of a call, or a single result of a call. -/
inductive Site where
  | pack (p : Nat)
  | array (op : Nat)
  | slot (op i : Nat)
  deriving DecidableEq

/-- The memory allocated for a call — LowerToLLVMPass.cpp:341-419. -/
def callSites (c : Call) : List (Site × Nat) :=
  if c.variadic then [(.array c.op, c.outs.length)] else (List.range c.outs.length).map fun i => (.slot c.op i, 1)

/-- The memory allocated in a function: `AllocaOp`s with their number of elements — LowerToLLVMPass.cpp:341-419, 446-462. -/
def sites : Stmt → List (Site × Nat)
  | .skip | .store .. => []
  | .create p n => [(.pack p, n)]
  | .call c => callSites c
  | .seq a b | .ifte _ a b => sites a ++ sites b
  | .loop _ a => sites a

/-- The address of an allocation: the allocations lie one behind the other. -/
def addr : List (Site × Nat) → Site → Nat
  | [], _ => 0
  | q :: r, s => if q.1 = s then 0 else q.2 + addr r s

/-- Parameters of a call in the lowered program: the address of a result, the address of an array of results, a constant, a value, and the address of a pack. -/
inductive Param where
  | slot (a : Nat)
  | array (a : Nat)
  | const (n : Nat)
  | val (x : Nat)
  | pack (a n : Nat)
  deriving DecidableEq

/-- The code of a function behind this pass. -/
inductive LStmt where
  | skip
  | storeNull (a : Nat)
  | storeVal (a x : Nat)
  | call (kernel : Nat) (ps : List Param)
  | load (x a : Nat)
  | seq (a b : LStmt)
  | ifte (x : Nat) (a b : LStmt)
  | loop (x : Nat) (a : LStmt)

def LStmt.all : List LStmt → LStmt
  | [] => .skip
  | a :: r => .seq a (LStmt.all r)

/-- The address of result `i` of a call — LowerToLLVMPass.cpp:299-326, 355-419. -/
def outAddr (at' : Site → Nat) (c : Call) (i : Nat) : Nat := if c.variadic then at' (.array c.op) + i else at' (.slot c.op i)

def lowerArg (at' : Site → Nat) : Arg → Param
  | .val x => .val x
  | .pack p n => .pack (at' (.pack p)) n

/-- The initialization of results, for types that are lowered to pointers only — LowerToLLVMPass.cpp:369-382, 411-418. -/
def nulls (at' : Site → Nat) (c : Call) : Nat → List (Nat × Bool) → List LStmt
  | _, [] => []
  | i, o :: r => (if o.2 then [.storeNull (outAddr at' c i)] else []) ++ nulls at' c (i + 1) r

/-- `dereferenceOutputs` — LowerToLLVMPass.cpp:299-328. -/
def loads (at' : Site → Nat) (c : Call) : Nat → List (Nat × Bool) → List LStmt
  | _, [] => []
  | i, o :: r => .load o.1 (outAddr at' c i) :: loads at' c (i + 1) r

/-- The parameters of the call, as returned by `allocOutputReferences` — LowerToLLVMPass.cpp:330-437. -/
def params (at' : Site → Nat) (c : Call) : List Param :=
  (if c.variadic then [.array (at' (.array c.op)), .const c.outs.length] else (List.range c.outs.length).map fun i => .slot (at' (.slot c.op i))) ++
  c.args.map (lowerArg at')

/-- `CallKernelOpLowering::matchAndRewrite` — LowerToLLVMPass.cpp:258-296. -/
def lowerCall (at' : Site → Nat) (c : Call) : LStmt :=
  .seq (.all (nulls at' c 0 c.outs)) (.seq (.call c.kernel (params at' c)) (.all (loads at' c 0 c.outs)))

/-- The patterns of the pass, on a function. -/
def lower (at' : Site → Nat) : Stmt → LStmt
  | .skip => .skip
  | .create _ _ => .skip
  | .store p i x => .storeVal (at' (.pack p) + i) x
  | .call c => lowerCall at' c
  | .seq a b => .seq (lower at' a) (lower at' b)
  | .ifte x a b => .ifte x (lower at' a) (lower at' b)
  | .loop x a => .loop x (lower at' a)

/-- The lowered function. -/
def lowerFunc (s : Stmt) : LStmt := lower (addr (sites s)) s

/-! ### What the lowered program does -/

section
variable {V : Type} (null : V) (truth : V → Bool)

/-- What a kernel sees of an operand: a value, or the elements of a pack. -/
inductive In (V : Type) where
  | val (v : V)
  | arr (vs : List V)

/-- The kernels: operands, contents of the memory for the results before and after. -/
abbrev Kernels (V : Type) := Nat → List (In V) → List V → List V → Prop

/-- The signatures the kernels are compiled with: whether the results are an array (with their number as the next parameter), and the number of results otherwise. -/
abbrev Sigs := Nat → Bool × Nat

/-- The memory and the SSA values. -/
structure Mem (V : Type) where
  env : Nat → V
  mem : Nat → V

def Mem.read (m : Mem V) (a n : Nat) : List V := (List.range n).map fun i => m.mem (a + i)

/-- The remaining parameters of a kernel. -/
def operands (m : Mem V) : List Param → Option (List (In V))
  | [] => some []
  | .val x :: r => (operands m r).map (.val (m.env x) :: ·)
  | .pack a n :: r => (operands m r).map (.arr (m.read a n) :: ·)
  | _ => none

/-- The addresses of the leading `n` parameters for results. -/
def slots : Nat → List Param → Option (List Nat × List Param)
  | 0, ps => some ([], ps)
  | n + 1, .slot a :: ps => (slots n ps).map fun q => (a :: q.1, q.2)
  | _, _ => none

/-- How the code of a kernel interprets its parameters: the addresses of the results, and the operands. -/
def decode (sig : Bool × Nat) (m : Mem V) (ps : List Param) : Option (List Nat × List (In V)) :=
  if sig.1 then
    match ps with
    | .array a :: .const n :: r => (operands m r).map fun ins => ((List.range n).map (a + ·), ins)
    | _ => none
  else (slots sig.2 ps).bind fun q => (operands m q.2).map fun ins => (q.1, ins)

def write (mem : Nat → V) : List Nat → List V → Nat → V
  | a :: as, v :: vs => write (fun b => if b = a then v else mem b) as vs
  | _, _ => mem

/-- Execution of a lowered function. -/
inductive LExec (K : Kernels V) (sigs : Sigs) : LStmt → Mem V → Mem V → Prop where
  | skip (m) : LExec K sigs .skip m m
  | storeNull (a m) : LExec K sigs (.storeNull a) m { m with mem := fun b => if b = a then null else m.mem b }
  | storeVal (a x m) : LExec K sigs (.storeVal a x) m { m with mem := fun b => if b = a then m.env x else m.mem b }
  | call (k ps m as ins fin) : decode (sigs k) m ps = some (as, ins) → fin.length = as.length → K k ins (as.map m.mem) fin →
      LExec K sigs (.call k ps) m { m with mem := write m.mem as fin }
  | load (x a m) : LExec K sigs (.load x a) m { m with env := fun y => if y = x then m.mem a else m.env y }
  | seq (a b m m' m'') : LExec K sigs a m m' → LExec K sigs b m' m'' → LExec K sigs (.seq a b) m m''
  | ifTrue (x a b m m') : truth (m.env x) = true → LExec K sigs a m m' → LExec K sigs (.ifte x a b) m m'
  | ifFalse (x a b m m') : truth (m.env x) = false → LExec K sigs b m m' → LExec K sigs (.ifte x a b) m m'
  | loopDone (x a m) : truth (m.env x) = false → LExec K sigs (.loop x a) m m
  | loopStep (x a m m' m'') : truth (m.env x) = true → LExec K sigs a m m' → LExec K sigs (.loop x a) m' m'' → LExec K sigs (.loop x a) m m''

/-! ### What the program means -/

/-- The state of a program: SSA values, and packs whose elements may be undefined. -/
structure St (V : Type) where
  env : Nat → V
  packs : Nat → Nat → Option V

/-- What a kernel may see of an operand. -/
def Sees (s : St V) : Arg → In V → Prop
  | .val x, .val v => v = s.env x
  | .pack p n, .arr vs => vs.length = n ∧ ∀ i v, i < n → s.packs p i = some v → vs[i]? = some v
  | _, _ => False

/-- The results of a call become the values of its results. -/
def bind (env : Nat → V) : List (Nat × Bool) → List V → Nat → V
  | o :: os, v :: vs => bind (fun y => if y = o.1 then v else env y) os vs
  | _, _ => env

/-- A run of a program: a kernel is called with its operands in their order and with null for each result that is an object (anything for scalars); the results are what the kernel made of
them. -/
inductive Exec (K : Kernels V) : Stmt → St V → St V → Prop where
  | skip (s) : Exec K .skip s s
  | create (p n s) : Exec K (.create p n) s { s with packs := fun q => if q = p then fun _ => none else s.packs q }
  | store (p i x s) : Exec K (.store p i x) s { s with packs := fun q => if q = p then fun j => if j = i then some (s.env x) else s.packs q j else s.packs q }
  | call (c : Call) (s ins init fin) : List.Forall₂ (Sees s) c.args ins → init.length = c.outs.length →
      (∀ (i : Nat) o, c.outs[i]? = some o → o.2 = true → init[i]? = some null) → fin.length = c.outs.length → K c.kernel ins init fin →
      Exec K (.call c) s { s with env := bind s.env c.outs fin }
  | seq (a b s s' s'') : Exec K a s s' → Exec K b s' s'' → Exec K (.seq a b) s s''
  | ifTrue (x a b s s') : truth (s.env x) = true → Exec K a s s' → Exec K (.ifte x a b) s s'
  | ifFalse (x a b s s') : truth (s.env x) = false → Exec K b s s' → Exec K (.ifte x a b) s s'
  | loopDone (x a s) : truth (s.env x) = false → Exec K (.loop x a) s s
  | loopStep (x a s s' s'') : truth (s.env x) = true → Exec K a s s' → Exec K (.loop x a) s' s'' → Exec K (.loop x a) s s''

end

end Verif.Lower
