/-
  Recording data properties of intermediate results and inserting them in a later compilation:
  src/runtime/local/kernels/RecordProperties.h, src/compiler/explanation/RecordPropertiesPass.cpp,
  src/compiler/explanation/InsertPropertiesPass.cpp.
-/
import Verif.Sp.Model
import Verif.Csr.Model

namespace Verif.DataProp
open Verif Verif.Dense Verif.Csr

variable {α : Type} [DecidableEq α]

/-! ### The kernel -/

/-- `static_cast<double>(nnz) / (numRows * numCols)` — RecordProperties.h:58 and 83; exact, `none` for a division by zero (0/0, which is not a number). The
product does not wrap (simplification). -/
def ratio (nnz rows cols : Nat) : Option ℚ := if rows * cols = 0 then none else some ((nnz : ℚ) / ((rows * cols : Nat) : ℚ))

/-- The value recorded for a `DenseMatrix` — RecordProperties.h:48-60. -/
def recordDense (zero : α) (x : DM α) : Res (Option ℚ) := do
  let n ← forLoop 0 x.h.numRows 0 fun r n =>
    forLoop 0 x.h.numCols n fun c n => do
      let v ← x.get r c
      .ok (if v ≠ zero then n + 1 else n)
  .ok (ratio n x.h.numRows x.h.numCols)

/-- The value recorded for a `CSRMatrix` — RecordProperties.h:68-86. `getValues()` is the start of the array (CSRMatrix.h:197-199), also for a view. -/
def recordCsr (zero : α) (x : CM α) : Res (Option ℚ) := do
  let nnz ← x.h.numNonZeros x.mem
  let n ← forLoop 0 nnz 0 fun i n => do
    let v ← x.mem.vals.read i
    .ok (if v ≠ zero then n + 1 else n)
  .ok (ratio n x.h.numRows x.h.numCols)

/-! ### The log -/

/-- A JSON value: the sparsity of a matrix (not a number is written as `null`), or something else. -/
inductive Json where
  | null
  | num (q : ℚ)
  | other
  deriving DecidableEq

/-- nlohmann's conversion of a `double`. -/
def toJson : Option ℚ → Json
  | none => .null
  | some q => .num q

/-! ### Programs -/

/-- The type of a value: a matrix type (everything but the sparsity is in `rest`), or another one. -/
inductive Ty where
  | mat (rest : Nat) (sp : ℚ)
  | other (t : Nat)
  deriving DecidableEq

/-- `llvm::isa<daphne::MatrixType>`. -/
def Ty.isMat : Ty → Bool
  | .mat _ _ => true
  | .other _ => false

/-- `MatrixType::withSparsity` — DaphneTypes.td. -/
def Ty.withSparsity (t : Ty) (s : ℚ) : Ty :=
  match t with
  | .mat r _ => .mat r s
  | t => t

/-- An SSA value: a result of an operation of the program, a block argument, the result of a cast inserted behind an operation, or in front of the user of a
value. -/
inductive Val where
  | res (op idx : Nat)
  | arg (n : Nat)
  | behind (op idx : Nat)
  | before (op idx user : Nat)
  deriving DecidableEq

/-- The operations the passes tell apart: the function `main`, other functions, loops and branches, operations that are skipped (`RecordPropertiesOp`s, operations that
already have identifiers, casts that only remove properties), all others, and
the casts inserted behind an operation or in front of one (their results are the values `Val.behind` and `Val.before` for their argument). -/
inductive Kind where
  | main
  | udf
  | ctrl
  | skip
  | plain
  | behind
  | front
  deriving DecidableEq

/-- An operation without its regions; `uid` stands for its address. -/
structure Op where
  uid : Nat
  kind : Kind
  args : List (Val × Ty)
  res : List Ty
  deriving DecidableEq

/-- The operations of a block with those of their regions (of all regions of the operation, one after the other). -/
inductive Ops where
  | nil
  | cons (o : Op) (body rest : Ops)

/-- Whether a pass handles the results of the operation. -/
def Kind.handled : Kind → Bool
  | .ctrl | .plain => true
  | _ => false

/-- Whether the walk goes into the regions of the operation. -/
def Kind.entered : Kind → Bool
  | .ctrl | .udf => false
  | _ => true

/-! ### Recording -/

/-- `recordResults` — RecordPropertiesPass.cpp:52-65: the results with their identifiers, from the counter; and the counter behind. -/
def recordResults (o : Op) : Nat → List Ty → Nat → List (Val × Nat) × Nat
  | _, [], id => ([], id)
  | i, t :: ts, id =>
    if t.isMat then
      let q := recordResults o (i + 1) ts (id + 1)
      ((.res o.uid i, id) :: q.1, q.2)
    else recordResults o (i + 1) ts id

/-- The walk in pre-order — RecordPropertiesPass.cpp:67-91. The inserted operations follow the visited one immediately and are not visited (the walk has already
determined its next operation). -/
def recordWalk : Ops → Nat → List (Val × Nat) × Nat
  | .nil, id => ([], id)
  | .cons o body rest, id =>
    let a := if o.kind.handled then recordResults o 0 o.res id else ([], id)
    let b := if o.kind.entered then recordWalk body a.2 else ([], a.2)
    let c := recordWalk rest b.2
    (a.1 ++ b.1 ++ c.1, c.2)

/-- The whole pass; the counter starts at 1 — RecordPropertiesPass.cpp:29-32 (it is 32 bit wide, which is ignored here). -/
def record (p : Ops) : List (Val × Nat) := (recordWalk p 1).1

/-! ### Inserting -/

/-- An entry of the file: an identifier and the value for the key "sparsity", if the object has it (other keys are ignored by the pass). -/
abbrev Entry := Nat × Option Json

/-- `std::sort(properties.begin(), properties.end())` by identifier — InsertPropertiesPass.cpp:85-90. -/
def sortEntries (f : List Entry) : List Entry := f.mergeSort fun a b => decide (a.1 ≤ b.1)

/-- What the pass does for the results of one operation — InsertPropertiesPass.cpp:93-145; `l` are the entries from `propertyIndex` on. Returns the casts behind the
operation (for loops and branches) in the order of their creation, the results whose uses are treated (for other operations), and the remaining entries. -/
def insertResults (o : Op) : Nat → List Ty → List Entry → List (Nat × Ty) × List Nat × List Entry
  | _, [], l => ([], [], l)
  | _, _ :: _, [] => ([], [], [])
  | i, t :: ts, e :: l =>
    match e.2 with
    | some (.num s) =>
      if t.isMat then
        let q := insertResults o (i + 1) ts l
        if o.kind = .ctrl then ((i, t.withSparsity s) :: q.1, q.2.1, q.2.2) else (q.1, i :: q.2.1, q.2.2)
      else insertResults o (i + 1) ts (e :: l)
    | _ => insertResults o (i + 1) ts (e :: l)

/-- The cast created behind a loop or branch for the result `i` — InsertPropertiesPass.cpp:117-118. -/
def castBehind (o : Op) (q : Nat × Ty) : Op :=
  ⟨0, .behind, [(.res o.uid q.1, o.res.getD q.1 (.other 0))], [q.2]⟩

/-- The casts end up in reverse order (each is inserted immediately behind the operation). -/
def putBehind (o : Op) : List (Nat × Ty) → Ops → Ops
  | [], r => r
  | q :: qs, r => putBehind o qs (.cons (castBehind o q) .nil r)

/-- The treated results, with their types. -/
def treated (o : Op) (l : List Nat) : List (Val × Ty) := l.map fun i => (.res o.uid i, o.res.getD i (.other 0))

/-- The walk — InsertPropertiesPass.cpp:147-174; returns the program with the casts behind loops and branches, the treated results of other operations with their
types, and the remaining entries. If there is no entry left, nothing is done any more (148-149). -/
def insertWalk : Ops → List Entry → Ops × List (Val × Ty) × List Entry
  | .nil, l => (.nil, [], l)
  | .cons o body rest, l =>
    let a := if o.kind.handled then insertResults o 0 o.res l else ([], [], l)
    let b := if o.kind.entered then insertWalk body a.2.2 else (body, [], a.2.2)
    let c := insertWalk rest b.2.2
    (.cons o b.1 (putBehind o a.1 c.1), treated o a.2.1 ++ b.2.1 ++ c.2.1, c.2.2)

/-- The uses of the treated results in loops and branches are redirected to a cast in front of the user, *of the same type* — InsertPropertiesPass.cpp:119-137. `sel user i`
tells whether the iteration over the uses reaches the `i`-th operand of the operation `user`: each redirection changes the list that is being iterated. -/
def redirect (tr : List (Val × Ty)) (sel : Nat → Nat → Bool) (user : Nat) : Nat → List (Val × Ty) → List (Val × Ty)
  | _, [] => []
  | i, a :: as =>
    (match a.1, tr.lookup a.1 with
      | .res d j, some t => if sel user i then (.before d j user, t) else a
      | _, _ => a) :: redirect tr sel user (i + 1) as

/-- The casts created in front of the user `o`, one per value — InsertPropertiesPass.cpp:123-132. -/
def castsBefore (tr : List (Val × Ty)) (o : Op) (args' : List (Val × Ty)) : List Op :=
  (args'.filterMap fun a => match a.1 with
    | .before d j _ => (tr.lookup (.res d j)).map fun t => ⟨0, .front, [(.res d j, t)], [t]⟩
    | _ => none).dedup

/-- Puts operations in front of a list of operations. -/
def putFront : List Op → Ops → Ops
  | [], r => r
  | o :: os, r => .cons o .nil (putFront os r)

/-- The redirections in the whole program (also in regions the walk does not enter). -/
def redirectAll (tr : List (Val × Ty)) (sel : Nat → Nat → Bool) : Ops → Ops
  | .nil => .nil
  | .cons o body rest =>
    let o' := if o.kind = .ctrl then { o with args := redirect tr sel o.uid 0 o.args } else o
    putFront (if o.kind = .ctrl then castsBefore tr o o'.args else []) (.cons o' (redirectAll tr sel body) (redirectAll tr sel rest))

/-- The whole pass. -/
def insertPass (sel : Nat → Nat → Bool) (p : Ops) (f : List Entry) : Ops :=
  let q := insertWalk p (sortEntries f)
  redirectAll q.2.1 sel q.1

end Verif.DataProp
