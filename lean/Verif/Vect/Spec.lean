/-
  Specification side of the vectorized-execution properties C08, C09: what a pipeline computes, and what it means that it
  can be split by rows, in terms of plain matrices.
-/
import Verif.Dense.Ew
import Verif.Sched.Spec

namespace Verif.Vect
open Verif

/-- `VectorSplit`: how an input is split. -/
inductive Split | none | rows
  deriving DecidableEq, Repr

/-- `VectorCombine`: how the partial results of an output are put together. -/
inductive Combine | rows | cols | add | min | max
  deriving DecidableEq, Repr

/-- An input of a pipeline: matrix and split. -/
structure Inp (α : Type) where
  mat : Mat α
  split : Split

/-- The part of an input that belongs to the rows `[r, r2)`: broadcast inputs (not split, or one row) are passed whole. -/
def Inp.part {α : Type} (i : Inp α) (r r2 : Nat) : Mat α :=
  if i.split = .none ∨ i.mat.rows = 1 then i.mat else i.mat.window r r2 0 i.mat.cols

/-- A pipeline as a mathematical function: inputs to outputs (numbered). -/
abbrev PipeSpec (α : Type) := List (Mat α) → Nat → Mat α

variable {α : Type}

/-- The outputs for the rows `[r, r2)` of the inputs. -/
def onRows (F : PipeSpec α) (ins : List (Inp α)) (r r2 : Nat) (o : Nat) : Mat α := F (ins.map (·.part r r2)) o

/-- Output `o` works row by row: on some of the rows it yields exactly these rows of the whole result. -/
def RowWise (F : PipeSpec α) (ins : List (Inp α)) (len o : Nat) : Prop :=
  (F (ins.map (·.mat)) o).rows = len ∧
  ∀ r r2, r < r2 → r2 ≤ len →
    (onRows F ins r r2 o).Same ((F (ins.map (·.mat)) o).window r r2 0 (F (ins.map (·.mat)) o).cols)

/-- Output `o` yields one column per row: on some of the rows it yields exactly these columns of the whole result. -/
def ColWise (F : PipeSpec α) (ins : List (Inp α)) (len o : Nat) : Prop :=
  (F (ins.map (·.mat)) o).cols = len ∧
  ∀ r r2, r < r2 → r2 ≤ len →
    (onRows F ins r r2 o).Same ((F (ins.map (·.mat)) o).window 0 (F (ins.map (·.mat)) o).rows r r2)

/-- Output `o` is an aggregate over the rows: the aggregate of two adjacent row blocks is the cell-wise combination of the two
aggregates, and the aggregate of all rows is the whole result. -/
def Aggregates (F : PipeSpec α) (ins : List (Inp α)) (len o : Nat) (op : α → α → α) : Prop :=
  (onRows F ins 0 len o).Same (F (ins.map (·.mat)) o) ∧
  (∀ r r2, r < r2 → r2 ≤ len → (onRows F ins r r2 o).rows = (F (ins.map (·.mat)) o).rows ∧
    (onRows F ins r r2 o).cols = (F (ins.map (·.mat)) o).cols) ∧
  ∀ r r2 r3, r < r2 → r2 < r3 → r3 ≤ len →
    (onRows F ins r r3 o).Same (Mat.zip op (onRows F ins r r2 o) (onRows F ins r2 r3 o))

end Verif.Vect
