import Verif.Dist.Model
/-
  Specification vocabulary for the distributed runtime.
-/
namespace Verif.Dist
open Verif Verif.Dense Verif.Sched

variable {V : Type}

/-- Rows `[a, b)` of a matrix; a scalar stays as it is. -/
def Val.rowsOf (a b : Nat) : Val V → Val V
  | .mat m => .mat (m.window a b 0 m.cols)
  | .scalar v => .scalar v

/-- The inputs of a pipeline that processes rows `[a, b)` only: inputs with a row split are cut (unless they have a single row: such
an input goes to all workers), the others are passed as they are. -/
def chunk (ins : List (Val V × Split)) (a b : Nat) : List (Val V) :=
  ins.map fun x => if x.2 = .rows ∧ x.1.rows ≠ 1 then x.1.rowsOf a b else x.1

/-- The pipeline function `f` can be evaluated piece by piece: on rows `[a, b)` of the row-split inputs, `g a b o` is its `o`-th result, and
the results of the pieces are the pieces of the result (or, for `ADD`, sum up to it). This is what the compiler claims when it
marks the inputs with a row split and the outputs with these combines. -/
structure Splittable [Add V] (f : List (Val V) → Res (List (Mat V))) (ins : List (Val V × Split)) (R : Nat) (combs : List Combine)
    (g : Nat → Nat → Nat → Mat V) : Prop where
  rows : ∀ v, (v, Split.rows) ∈ ins → (∃ m, v = .mat m) ∧ (v.rows = R ∨ v.rows = 1)
  eval : ∀ a b, a < b → b ≤ R → f (chunk ins a b) = .ok ((List.range combs.length).map (g a b))
  byRows : ∀ o, combs[o]? = some .rows → (g 0 R o).rows = R ∧
    ∀ a b, a < b → b ≤ R → (g a b o).Same ((g 0 R o).window a b 0 (g 0 R o).cols)
  byCols : ∀ o, combs[o]? = some .cols → (g 0 R o).cols = R ∧
    ∀ a b, a < b → b ≤ R → (g a b o).Same ((g 0 R o).window 0 (g 0 R o).rows a b)
  byAdd : ∀ o, combs[o]? = some .add →
    (∀ a b, a < b → b ≤ R → (g a b o).rows = (g 0 R o).rows ∧ (g a b o).cols = (g 0 R o).cols) ∧
    ∀ a b c, a < b → b < c → c ≤ R → ∀ i j, i < (g 0 R o).rows → j < (g 0 R o).cols →
      (g a c o).cell i j = (g a b o).cell i j + (g b c o).cell i j
  combs : ∀ c ∈ combs, c = .rows ∨ c = .cols ∨ c = .add

/-- The contents of an input in a world. -/
def In.Holds (w : World V) : In V → Val V → Prop
  | .obj ref, v => ∃ o, w.objs ref = some o ∧ o.val = v
  | .scalar s, v => v = .scalar s

/-- Reference `ref` points to a matrix with contents `m`. -/
def World.HasMat (w : World V) (ref : Nat) (m : Mat V) : Prop :=
  ∃ m' pls, w.objs ref = some ⟨.mat m', pls⟩ ∧ m'.Same m

/-- Views that the distributed runtime treats correctly: those that start in the first row and have all columns, and those of
matrices that are not marked as stored at some worker. -/
def SafeOp (w : World V) : Op V → Prop
  | .view ref rl _ cl cu => ∀ o, w.objs ref = some o →
      (rl = 0 ∧ cl = 0 ∧ cu = o.val.cols) ∨ ∀ p ∈ o.pls, p.placed = false
  | _ => True

/-- The states reached by programs whose views are safe. Any operations that return normally, in any number; the workers may have stored
anything for earlier programs. -/
inductive Reachable [Add V] [Zero V] [DecidableEq V] (ws : List Nat) : World V → Prop where
  | init (W : Nat → Worker V) (h : ∀ a i, (W a).counter ≤ i → (W a).data i = none) : Reachable ws (World.init W)
  | step (op : Op V) (w w' : World V) : Reachable ws w → (∀ ord junk p, op = .pipe ord junk p → ord.Valid) → SafeOp w op →
      Dist.step ws op w = .ok w' → Reachable ws w'

end Verif.Dist
