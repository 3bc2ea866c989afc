/-
  The reference-management pass of the compiler (src/compiler/lowering/ManageObjRefsPass.cpp) on structured SSA code, and the execution
  of that code on a machine with reference counters.
-/
namespace Verif.Ref

/-! ### The code the pass works on -/

/-- The type of an SSA value as far as the pass looks at it (ManageObjRefsPass.cpp:80-112, 180-188): a matrix, frame or list; a string;
anything else. (The pass throws when it meets a value of unknown type; that is not modelled.) -/
inductive Ty where
  | obj
  | str
  | sca
  deriving DecidableEq, Repr

/-- Has the value a reference counter that the pass manages (ManageObjRefsPass.cpp:108)? -/
def Ty.managed : Ty → Bool
  | .sca => false
  | _ => true

/-- A block of code after the last canonicalisation. Values are numbered, `F` are the operations that become kernel calls. Each
operation carries the rest of its block; a block ends with a terminator.
* `cast` is a daphne.cast that is trivial or only removes properties (DaphneOps.td:1539-1581): no kernel is called.
* `sel` is arith.select, `lit` a daphne.constant of type string (`s` is the string object), `call` is func.call / daphne.generic_call.
* `whil`: inits, block arguments and block "before" (its terminator scf.condition hands out the condition and values), block arguments and
  block "after". `loop`: lower bound, upper bound, step, inits, induction variable and block arguments, body.
Vectorized pipelines are kernel calls here; their bodies are treated like the bodies of functions by the pass. -/
inductive Ir (F : Type) where
  | term (vs : List Nat)
  | op (rs : List Nat) (f : F) (as : List Nat) (k : Ir F)
  | cast (r a : Nat) (k : Ir F)
  | sel (r c a b : Nat) (k : Ir F)
  | lit (r s : Nat) (k : Ir F)
  | call (rs : List Nat) (g : Nat) (as : List Nat) (k : Ir F)
  | ite (rs : List Nat) (c : Nat) (t e : Ir F) (k : Ir F)
  | whil (rs is bs : List Nat) (before : Ir F) (aas : List Nat) (after : Ir F) (k : Ir F)
  | loop (rs : List Nat) (l u s : Nat) (is : List Nat) (iv : Nat) (it : List Nat) (body : Ir F) (k : Ir F)
  | inc (v : Nat) (k : Ir F)
  | dec (v : Nat) (k : Ir F)
  deriving DecidableEq, Repr

namespace Ir
variable {F : Type}

/-- All operands in the block and in the regions of its operations. -/
def uses : Ir F → List Nat
  | term vs => vs
  | op _ _ as k => as ++ k.uses
  | cast _ a k => a :: k.uses
  | sel _ c a b k => [c, a, b] ++ k.uses
  | lit _ _ k => k.uses
  | call _ _ as k => as ++ k.uses
  | ite _ c t e k => (c :: (t.uses ++ e.uses)) ++ k.uses
  | whil _ is _ before _ after k => (is ++ before.uses ++ after.uses) ++ k.uses
  | loop _ l u s is _ _ body k => (l :: u :: s :: (is ++ body.uses)) ++ k.uses
  | inc v k => v :: k.uses
  | dec v k => v :: k.uses

/-- Insert IncRefOps. -/
def incs : List Nat → Ir F → Ir F
  | [], k => k
  | v :: vs, k => inc v (incs vs k)

/-- Insert DecRefOps. -/
def decs : List Nat → Ir F → Ir F
  | [], k => k
  | v :: vs, k => dec v (decs vs k)

end Ir

/-! ### The pass -/

section
variable {F : Type} (ty : Nat → Ty)

/-- Those values whose counters are managed. -/
def managedOf (vs : List Nat) : List Nat := vs.filter fun v => (ty v).managed

/-- The DecRefOps inserted behind an operation (processValue, ManageObjRefsPass.cpp:72-170 with findLastUseOfSSAValue,
LoweringUtils.cpp:119-135): for the values of this block (`own`, in the order of their definition) whose last user in this block is the
operation, where `used` are the operands of the operation and of everything in its regions; and for the results `rs` that are never used.
`k` is the rest of the block. A value whose last user is the terminator is not among them. Each DecRefOp is inserted directly behind the
operation, hence the one inserted last comes first. -/
def dies (own rs used : List Nat) (k : Ir F) : List Nat :=
  ((own.filter (fun v => used.contains v) ++ rs).filter fun v => (ty v).managed && !k.uses.contains v).reverse

/-- The DecRefOps at the beginning of a block: for its arguments that are never used (ManageObjRefsPass.cpp:113-120, 153-166). -/
def deadArgs (bs : List Nat) (c : Ir F) : List Nat := (bs.filter fun v => (ty v).managed && !c.uses.contains v).reverse

/-- The IncRefOps before a terminator that is not the yield of an scf.if (ManageObjRefsPass.cpp:247-259): for each operand one for every
equal operand before it. `pre` are the operands before. -/
def dupIncs (pre : List Nat) : List Nat → List Nat
  | [] => []
  | v :: vs => List.replicate (if (ty v).managed then pre.count v else 0) v ++ dupIncs (pre ++ [v]) vs

/-- processBlock (ManageObjRefsPass.cpp:212-276) for the operations of a block. `ifb`: the block belongs to an scf.if. `own`: block
arguments and results of the operations before. For string literals directly in a function the IncRefOp really is inserted behind the
creation of the context at the top of the function instead of behind the literal. -/
def pass (ifb : Bool) : List Nat → Ir F → Ir F
  | own, .term vs =>
    if ifb then Ir.incs ((managedOf ty vs).filter fun v => !own.contains v) (.term vs) else Ir.incs (dupIncs ty [] vs) (.term vs)
  | own, .op rs f as k => .op rs f as (Ir.decs (dies ty own rs as k) (pass ifb (own ++ rs) k))
  | own, .cast r a k => Ir.incs (managedOf ty [a]) (.cast r a (Ir.decs (dies ty own [r] [a] k) (pass ifb (own ++ [r]) k)))
  | own, .sel r c a b k =>
    .sel r c a b (Ir.incs (if ty r = .str then [r] else []) (Ir.decs (dies ty own [r] [c, a, b] k) (pass ifb (own ++ [r]) k)))
  | own, .lit r s k => .lit r s (Ir.incs (if ty r = .str then [r] else []) (Ir.decs (dies ty own [r] [] k) (pass ifb (own ++ [r]) k)))
  | own, .call rs g as k => Ir.incs (managedOf ty as) (.call rs g as (Ir.decs (dies ty own rs as k) (pass ifb (own ++ rs) k)))
  | own, .ite rs c t e k =>
    .ite rs c (pass true [] t) (pass true [] e) (Ir.decs (dies ty own rs (c :: (t.uses ++ e.uses)) k) (pass ifb (own ++ rs) k))
  | own, .whil rs is bs before aas after k =>
    Ir.incs (managedOf ty is) (.whil rs is bs (Ir.decs (deadArgs ty bs before) (pass false bs before)) aas
      (Ir.decs (deadArgs ty aas after) (pass false aas after))
      (Ir.decs (dies ty own rs (is ++ before.uses ++ after.uses) k) (pass ifb (own ++ rs) k)))
  | own, .loop rs l u s is iv it body k =>
    Ir.incs (managedOf ty (l :: u :: s :: is)) (.loop rs l u s is iv it
      (Ir.decs (deadArgs ty (iv :: it) body) (pass false (iv :: it) body))
      (Ir.decs (dies ty own rs (l :: u :: s :: (is ++ body.uses)) k) (pass ifb (own ++ rs) k)))
  | own, .inc v k => .inc v (pass ifb own k)
  | own, .dec v k => .dec v (pass ifb own k)

/-- The pass on a function (ManageObjRefsPass.cpp:278-282). -/
def passFn (fn : List Nat × Ir F) : List Nat × Ir F := (fn.1, Ir.decs (deadArgs ty fn.1 fn.2) (pass ty false fn.1 fn.2))

end

/-! ### Execution -/

/-- Runtime values: a pointer to a data object or string, or a scalar. -/
inductive RVal (V : Type) where
  | obj (o : Nat)
  | sca (x : V)

/-- Why an execution stops without a result: the budget of steps is used up; an object is touched that was freed; or something else that is
not defined (an unknown value or function, a kernel that returns the wrong number or kind of results). -/
inductive Stop where
  | fuel
  | freed
  | undef
  deriving DecidableEq, Repr

abbrev Run (α : Type) := Except Stop α

/-- A machine the code runs on: kernels, the two reference-counting operations, conditions and the induction variables of scf.for. -/
structure Machine (F V S : Type) where
  op : F → List (RVal V) → S → Run (List (RVal V) × S)
  inc : RVal V → S → Run S
  dec : RVal V → S → Run S
  toBool : V → Bool
  ivs : V → V → V → Run (List V)

abbrev Env (V : Type) := Nat → Option (RVal V)

def Env.get {V : Type} (ρ : Env V) (v : Nat) : Run (RVal V) :=
  match ρ v with
  | some x => .ok x
  | none => .error .undef

def Env.getAll {V : Type} (ρ : Env V) : List Nat → Run (List (RVal V))
  | [] => .ok []
  | v :: vs => do
    let x ← ρ.get v
    let xs ← getAll ρ vs
    .ok (x :: xs)

def Env.upd {V : Type} (ρ : Env V) (r : Nat) (x : RVal V) : Env V := fun v => if v = r then some x else ρ v

/-- A runtime value fits the type of the SSA value. -/
def Ty.fits {V : Type} : Ty → RVal V → Bool
  | t, .obj _ => t.managed
  | t, .sca _ => !t.managed

/-- Define SSA values; the runtime values must be as many and of the right types. -/
def Env.bind {V : Type} (ty : Nat → Ty) (ρ : Env V) : List Nat → List (RVal V) → Run (Env V)
  | [], [] => .ok ρ
  | r :: rs, x :: xs => if (ty r).fits x then Env.bind ty (ρ.upd r x) rs xs else .error .undef
  | _, _ => .error .undef

/-- Repeat `f` until it delivers a result; at most `fuel` times. -/
def iterate {α β : Type} (f : α → Run (α ⊕ β)) : Nat → α → Run β
  | 0, _ => .error .fuel
  | n + 1, a => do
    match ← f a with
    | .inl a => iterate f n a
    | .inr b => .ok b

/-- A left fold that can stop. -/
def foldRun {α β : Type} (f : β → α → Run β) : β → List α → Run β
  | b, [] => .ok b
  | b, a :: l => f b a >>= fun b => foldRun f b l

section
variable {F V S : Type} (M : Machine F V S) (ty : Nat → Ty)

/-- A condition must be a scalar. -/
def Machine.test : RVal V → Run Bool
  | .sca x => .ok (M.toBool x)
  | .obj _ => .error .undef

/-- The values of the induction variable. -/
def Machine.range : RVal V → RVal V → RVal V → Run (List V)
  | .sca l, .sca u, .sca s => M.ivs l u s
  | _, _, _ => .error .undef

/-- Run a block: the values its terminator hands out, and the state. `callee` runs the functions. -/
def Ir.exec (callee : Nat → List (RVal V) → S → Run (List (RVal V) × S)) (fuel : Nat) : Ir F → Env V → S → Run (List (RVal V) × S)
  | .term vs, ρ, s => ρ.getAll vs >>= fun xs => .ok (xs, s)
  | .op rs f as k, ρ, s => ρ.getAll as >>= fun xs => M.op f xs s >>= fun q => ρ.bind ty rs q.1 >>= fun ρ' => k.exec callee fuel ρ' q.2
  | .cast r a k, ρ, s => ρ.get a >>= fun x => ρ.bind ty [r] [x] >>= fun ρ' => k.exec callee fuel ρ' s
  | .sel r c a b k, ρ, s =>
    ρ.get c >>= fun x => M.test x >>= fun t => ρ.get a >>= fun y => ρ.get b >>= fun z =>
      ρ.bind ty [r] [if t then y else z] >>= fun ρ' => k.exec callee fuel ρ' s
  | .lit r o k, ρ, s => ρ.bind ty [r] [.obj o] >>= fun ρ' => k.exec callee fuel ρ' s
  | .call rs g as k, ρ, s => ρ.getAll as >>= fun xs => callee g xs s >>= fun q => ρ.bind ty rs q.1 >>= fun ρ' => k.exec callee fuel ρ' q.2
  | .ite rs c t e k, ρ, s =>
    ρ.get c >>= fun x => M.test x >>= fun b => (if b then t.exec callee fuel ρ s else e.exec callee fuel ρ s) >>= fun q =>
      ρ.bind ty rs q.1 >>= fun ρ' => k.exec callee fuel ρ' q.2
  | .whil rs is bs before aas after k, ρ, s =>
    ρ.getAll is >>= fun xs =>
      iterate (fun (st : List (RVal V) × S) =>
        ρ.bind ty bs st.1 >>= fun ρb => before.exec callee fuel ρb st.2 >>= fun p =>
          match p.1 with
          | [] => .error .undef
          | c :: ys => M.test c >>= fun b =>
            if b then ρ.bind ty aas ys >>= fun ρa => after.exec callee fuel ρa p.2 >>= fun q => .ok (.inl q)
            else .ok (.inr (ys, p.2))) fuel (xs, s) >>= fun q =>
      ρ.bind ty rs q.1 >>= fun ρ' => k.exec callee fuel ρ' q.2
  | .loop rs l u st is iv it body k, ρ, s =>
    ρ.get l >>= fun lx => ρ.get u >>= fun ux => ρ.get st >>= fun sx => ρ.getAll is >>= fun xs => M.range lx ux sx >>= fun zs =>
      foldRun (fun (st : List (RVal V) × S) z =>
        ρ.bind ty (iv :: it) (.sca z :: st.1) >>= fun ρb => body.exec callee fuel ρb st.2) (xs, s) zs >>= fun q =>
      ρ.bind ty rs q.1 >>= fun ρ' => k.exec callee fuel ρ' q.2
  | .inc v k, ρ, s => ρ.get v >>= fun x => M.inc x s >>= fun s' => k.exec callee fuel ρ s'
  | .dec v k, ρ, s => ρ.get v >>= fun x => M.dec x s >>= fun s' => k.exec callee fuel ρ s'

/-- Call the function `g` of a program; `fuel` bounds the depth of calls and the iterations of each while-loop. -/
def runFn (fns : Nat → Option (List Nat × Ir F)) : Nat → Nat → List (RVal V) → S → Run (List (RVal V) × S)
  | 0, _, _, _ => .error .fuel
  | n + 1, g, xs, s =>
    match fns g with
    | none => .error .undef
    | some (ps, body) => Env.bind ty (fun _ => none) ps xs >>= fun ρ => body.exec M ty (runFn fns n) n ρ s

end

/-! ### The two machines -/

/-- What kernels do: `W` is the state of everything else. A kernel may return new objects, or objects that exist already. -/
structure Sem (F V W : Type) where
  op : F → List (RVal V) → W → List (RVal V) × W
  toBool : V → Bool
  ivs : V → V → V → Option (List V)

/-- The values of an induction variable, if they are defined. -/
def Sem.ivsRun {F V W : Type} (S : Sem F V W) (l u s : V) : Run (List V) :=
  match S.ivs l u s with
  | some zs => .ok zs
  | none => .error .undef

/-- A machine with unlimited memory, on which nothing is ever freed. -/
def Sem.plain {F V W : Type} (S : Sem F V W) : Machine F V W where
  op f xs w := .ok (S.op f xs w)
  inc _ w := .ok w
  dec _ w := .ok w
  toBool := S.toBool
  ivs := S.ivsRun

/-- Reference counters; the counter of an object that was freed, or does not exist yet, is 0. References held by lists and by C++ code are
counted separately, they are not touched by compiled code (see `Verif.Obj`). -/
abbrev Heap := Nat → Nat

/-- How often the object is among the values. -/
def cnt {V : Type} (xs : List (RVal V)) (o : Nat) : Nat :=
  xs.countP fun x => match x with
    | .obj p => p == o
    | .sca _ => false

/-- All objects among the values exist. -/
def alive {V : Type} (h : Heap) (xs : List (RVal V)) : Bool :=
  xs.all fun x => match x with
    | .obj o => h o != 0
    | .sca _ => true

/-- The machine with reference counters. A kernel must not be given a freed object; each object it returns comes with one reference
(a new object has counter 1, Structure.h; an existing one is returned with its counter increased). IncRef.h, DecRef.h:
increaseRefCounter and DataObjectFactory::destroy / StringRefCounter::inc and dec; both touch the object. -/
def Sem.counting {F V W : Type} (S : Sem F V W) : Machine F V (W × Heap) where
  op f xs s :=
    if alive s.2 xs then .ok ((S.op f xs s.1).1, ((S.op f xs s.1).2, fun o => s.2 o + cnt (S.op f xs s.1).1 o)) else .error .freed
  inc x s :=
    match x with
    | .obj o => if s.2 o = 0 then .error .freed else .ok (s.1, fun p => if p = o then s.2 p + 1 else s.2 p)
    | .sca _ => .error .undef
  dec x s :=
    match x with
    | .obj o => if s.2 o = 0 then .error .freed else .ok (s.1, fun p => if p = o then s.2 p - 1 else s.2 p)
    | .sca _ => .error .undef
  toBool := S.toBool
  ivs := S.ivsRun

/-! ### Well-formed code -/

/-- SSA code: every operand is visible (defined before, in the same block or around it), and nothing visible is defined again. `vis` are
the values visible at the beginning. -/
def Ir.WF {F : Type} : Ir F → (Nat → Prop) → Prop
  | .term vs, vis => ∀ v ∈ vs, vis v
  | .op rs _ as k, vis => (∀ v ∈ as, vis v) ∧ rs.Nodup ∧ (∀ v ∈ rs, ¬ vis v) ∧ k.WF fun v => vis v ∨ v ∈ rs
  | .cast r a k, vis => vis a ∧ ¬ vis r ∧ k.WF fun v => vis v ∨ v ∈ [r]
  | .sel r c a b k, vis => (∀ v ∈ [c, a, b], vis v) ∧ ¬ vis r ∧ k.WF fun v => vis v ∨ v ∈ [r]
  | .lit r _ k, vis => ¬ vis r ∧ k.WF fun v => vis v ∨ v ∈ [r]
  | .call rs _ as k, vis => (∀ v ∈ as, vis v) ∧ rs.Nodup ∧ (∀ v ∈ rs, ¬ vis v) ∧ k.WF fun v => vis v ∨ v ∈ rs
  | .ite rs c t e k, vis => vis c ∧ t.WF vis ∧ e.WF vis ∧ rs.Nodup ∧ (∀ v ∈ rs, ¬ vis v) ∧ k.WF fun v => vis v ∨ v ∈ rs
  | .whil rs is bs before aas after k, vis => (∀ v ∈ is, vis v) ∧ bs.Nodup ∧ (∀ v ∈ bs, ¬ vis v) ∧ before.WF (fun v => vis v ∨ v ∈ bs) ∧
    aas.Nodup ∧ (∀ v ∈ aas, ¬ vis v) ∧ after.WF (fun v => vis v ∨ v ∈ aas) ∧
    rs.Nodup ∧ (∀ v ∈ rs, ¬ vis v) ∧ k.WF fun v => vis v ∨ v ∈ rs
  | .loop rs l u s is iv it body k, vis => (∀ v ∈ l :: u :: s :: is, vis v) ∧ (iv :: it).Nodup ∧ (∀ v ∈ iv :: it, ¬ vis v) ∧
    body.WF (fun v => vis v ∨ v ∈ iv :: it) ∧ rs.Nodup ∧ (∀ v ∈ rs, ¬ vis v) ∧ k.WF fun v => vis v ∨ v ∈ rs
  | .inc _ _, _ => False
  | .dec _ _, _ => False

/-- What the code must look like for the counters to come out right. `ifb`: the block belongs to an scf.if; `own`: the values of the
block so far.
* The yield of an scf.if hands out no managed value of its own block twice.
* Any other terminator (of loops, of functions) hands out managed values of its own block only, and none of them more than twice.
* arith.select is used on strings and scalars only. -/
def Ir.Tame {F : Type} (ty : Nat → Ty) (ifb : Bool) : Ir F → List Nat → Prop
  | .term vs, own => if ifb then ∀ v ∈ own, (ty v).managed → vs.count v ≤ 1
      else ∀ v ∈ vs, (ty v).managed → v ∈ own ∧ vs.count v ≤ 2
  | .op rs _ _ k, own => k.Tame ty ifb (own ++ rs)
  | .cast r _ k, own => k.Tame ty ifb (own ++ [r])
  | .sel r _ _ _ k, own => ty r ≠ .obj ∧ k.Tame ty ifb (own ++ [r])
  | .lit r _ k, own => ty r = .str ∧ k.Tame ty ifb (own ++ [r])
  | .call rs _ _ k, own => k.Tame ty ifb (own ++ rs)
  | .ite rs _ t e k, own => t.Tame ty true [] ∧ e.Tame ty true [] ∧ k.Tame ty ifb (own ++ rs)
  | .whil rs _ bs before aas after k, own => before.Tame ty false bs ∧ after.Tame ty false aas ∧ k.Tame ty ifb (own ++ rs)
  | .loop rs _ _ _ _ iv it body k, own => body.Tame ty false (iv :: it) ∧ k.Tame ty ifb (own ++ rs)
  | .inc _ k, own => k.Tame ty ifb own
  | .dec _ k, own => k.Tame ty ifb own

/-- The string literals of the code. -/
def Ir.lits {F : Type} : Ir F → List Nat
  | .term _ => []
  | .op _ _ _ k => k.lits
  | .cast _ _ k => k.lits
  | .sel _ _ _ _ k => k.lits
  | .lit _ s k => s :: k.lits
  | .call _ _ _ k => k.lits
  | .ite _ _ t e k => t.lits ++ e.lits ++ k.lits
  | .whil _ _ _ before _ after k => before.lits ++ after.lits ++ k.lits
  | .loop _ _ _ _ _ _ _ body k => body.lits ++ k.lits
  | .inc _ k => k.lits
  | .dec _ k => k.lits

end Verif.Ref
