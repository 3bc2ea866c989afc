/-
  Specification side of the matrix properties: matrices as plain two-dimensional tables, independent of any
  representation (no strides, buffers or offsets).
-/
namespace Verif

/-- A mathematical matrix: only the cells `cell r c` with `r < rows`, `c < cols` are meaningful. -/
structure Mat (α : Type _) where
  rows : Nat
  cols : Nat
  cell : Nat → Nat → α

namespace Mat
variable {α : Type _}

/-- Same shape and same cells. -/
def Same (a b : Mat α) : Prop :=
  a.rows = b.rows ∧ a.cols = b.cols ∧ ∀ r c, r < a.rows → c < a.cols → a.cell r c = b.cell r c

/-- Rows `[rl, ru)` and columns `[cl, cu)`. -/
def window (a : Mat α) (rl ru cl cu : Nat) : Mat α := ⟨ru - rl, cu - cl, fun r c => a.cell (rl + r) (cl + c)⟩

/-- `a` above `b`. -/
def vcat (a b : Mat α) : Mat α :=
  ⟨a.rows + b.rows, a.cols, fun r c => if r < a.rows then a.cell r c else b.cell (r - a.rows) c⟩

/-- `a` left of `b`. -/
def hcat (a b : Mat α) : Mat α :=
  ⟨a.rows, a.cols + b.cols, fun r c => if c < a.cols then a.cell r c else b.cell r (c - a.cols)⟩

/-- Transposed matrix. -/
def transpose (a : Mat α) : Mat α := ⟨a.cols, a.rows, fun r c => a.cell c r⟩

/-- The rows at the given positions, in the given order. -/
def pickRows (a : Mat α) (l : List Nat) : Mat α := ⟨l.length, a.cols, fun r c => a.cell (l.getD r 0) c⟩

/-- The columns at the given positions, in the given order. -/
def pickCols (a : Mat α) (l : List Nat) : Mat α := ⟨a.rows, l.length, fun r c => a.cell r (l.getD c 0)⟩

/-- `a` with rows `[rl, ru)` replaced by `b`. -/
def replaceRows (a b : Mat α) (rl ru : Nat) : Mat α :=
  ⟨a.rows, a.cols, fun r c => if rl ≤ r ∧ r < ru then b.cell (r - rl) c else a.cell r c⟩

/-- `a` with columns `[cl, cu)` replaced by `b`. -/
def replaceCols (a b : Mat α) (cl cu : Nat) : Mat α :=
  ⟨a.rows, a.cols, fun r c => if cl ≤ c ∧ c < cu then b.cell r (c - cl) else a.cell r c⟩

end Mat

/-- The positions `i < n` with `p i`, in increasing order. -/
def positions (n : Nat) (p : Nat → Bool) : List Nat := (List.range n).filter p

end Verif
