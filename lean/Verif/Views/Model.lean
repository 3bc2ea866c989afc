/-
  Model of src/compiler/lowering/RewriteSqlOpPass.cpp: views are resolved while the program is compiled, by means of a map
  from names to IR values that the pass fills while it visits the operations in the order in which they are written
  (`applyPartialConversion` visits operations in pre-order).

  Simplification: the translation of the query itself (Verif/Sql) is represented by the function `f` of the frames of the
  mentioned views; control flow is structured, and the results of branches and loops are variables assigned in their bodies.
-/
import Verif.Views.Spec

namespace Verif.Views

variable {F : Type}

/-- The program after the pass: no registrations, and queries that read IR values. -/
inductive Code (F : Type) where
  | skip
  | seq (p q : Code F)
  | op (dst : Nat) (f : (Nat → F) → F)
  | rel (dst : Nat) (vars : List Nat) (f : List F → F)
  | ite (c : (Nat → F) → Bool) (p q : Code F)
  | loop (n : (Nat → F) → Nat) (p : Code F)

/-- `tables`, the map from names to values (RewriteSqlOpPass.cpp:38). -/
abbrev Tables := String → Option Nat

/-- RewriteSqlOpPass.cpp:44-77 `SqlReplacement::matchAndRewrite`, for all operations in the order of the text. A
`RegisterViewOp` sets `tables[view] = arg` and is erased (45-52), a `SqlOp` is replaced by operations on the values found
in `tables` (53-75); an unknown table is an error of the SQL parser (`none`). -/
def rewrite : Prog F → Tables → Option (Code F × Tables)
  | .skip, t => some (.skip, t)
  | .seq p q, t => do
      let (p', t) ← rewrite p t
      let (q', t) ← rewrite q t
      some (.seq p' q', t)
  | .op d f, t => some (.op d f, t)
  | .reg nm v, t => some (.skip, fun x => if x = nm then some v else t x)
  | .query d ns f, t => do
      let vs ← ns.mapM t
      some (.rel d vs f, t)
  | .ite c p q, t => do
      let (p', t) ← rewrite p t
      let (q', t) ← rewrite q t
      some (.ite c p' q', t)
  | .loop n p, t => do
      let (p', t) ← rewrite p t
      some (.loop n p', t)

/-- `n` repetitions. -/
def iter {α : Type} (step : α → α) : Nat → α → α
  | 0, s => s
  | n + 1, s => iter step n (step s)

/-- Execution of the program after the pass: relational operations read the values of their operands. -/
def Code.run : Code F → (Nat → F) → (Nat → F)
  | .skip, e => e
  | .seq p q, e => q.run (p.run e)
  | .op d f, e => fun x => if x = d then f e else e x
  | .rel d vs f, e => fun x => if x = d then f (vs.map e) else e x
  | .ite c p q, e => if c e then p.run e else q.run e
  | .loop n p, e => iter p.run (n e) e

/-- One compilation: the pass starts with what `tables`, a variable of the process, contains (initially nothing), and
leaves it for the next compilation. RewriteSqlOpPass.cpp:38, 88-101. -/
def compile (p : Prog F) (t : Tables) : Option (Code F × Tables) := rewrite p t

end Verif.Views
