/-
  Inference of the sparsity and the symmetry of results: `src/ir/daphneir/DaphneInferSparsityOpInterface.cpp`,
  `DaphneInferSymmetricOpInterface.cpp` and the traits in `DaphneOps.td`.

  Simplification: sparsities are rationals instead of doubles; `-1` means unknown, as in the code. A non-finite result (division by zero) is `none`.
-/
import Verif.Dense.Lemmas
import Mathlib.Algebra.Order.Field.Rat
import Mathlib.Data.Finset.Card
import Mathlib.Data.Finset.Prod

namespace Verif.Sp
open Verif Verif.Dense

/-- The operations with sparsity inference, with what the inference looks at: sparsities of the arguments, extents (`-1`: unknown), constants. -/
inductive Op where
  /-- `EwAddOp`, `EwSubOp`: trait `EwSparseIfBoth` (DaphneOps.td:351-354) -/
  | ewBoth (l r : ℚ)
  /-- `EwMulOp`: trait `EwSparseIfEither` (DaphneOps.td:357) -/
  | ewEither (l r : ℚ)
  /-- `MatMulOp`, with the number of columns of the left and of rows of the right argument -/
  | matMul (l r : ℚ) (kl kr : ℤ)
  /-- `TriOp` -/
  | tri (s : ℚ)
  /-- `TransposeOp`, `ReshapeOp`: trait `SparsityFromArg` (DaphneOps.td:751, 760) -/
  | fromArg (s : ℚ)
  /-- `DiagMatrixOp`, with the number of rows of the argument -/
  | diag (s : ℚ) (k : ℤ)
  /-- `SeqOp`: trait `CompletelyDense` (DaphneOps.td:190) -/
  | dense
  /-- `RandMatrixOp`: trait `SparsityFromIthScalar<4>` (DaphneOps.td:173), with the constant, if it is one -/
  | rand (s : Option ℚ)
  /-- `ReadOp`, with the number of non-zeros (`-1`: unknown), rows and columns in the meta data -/
  | read (nnz rows cols : ℤ)

/-- Division of doubles. -/
def quot (a b : ℚ) : Option ℚ := if b = 0 then none else some (a / b)

/-- `inferSparsity` of the operations and `tryInferSparsity` — DaphneInferSparsityOpInterface.cpp:101-158 and 186-217. -/
def infer : Op → Option ℚ
  | .ewBoth l r => if l ≠ -1 ∧ r ≠ -1 then some (l + r - l * r) else some (-1)
  | .ewEither l r => if l ≠ -1 ∧ r ≠ -1 then some (l * r) else if l ≠ -1 then some l else if r ≠ -1 then some r else some (-1)
  | .matMul l r kl kr =>
    if l = -1 ∨ r = -1 then some (-1)
    else
      let k := if kl = -1 then kr else kl
      if k = -1 then some (-1) else some (1 - (1 - l * r) ^ k.toNat)
  | .tri s => if s = -1 then some (-1) else some (s / 2)
  | .fromArg s => some s
  | .diag s k => quot (if s = -1 then 1 else s) k
  | .dense => some 1
  | .rand none => some (-1)
  | .rand (some s) => some s
  | .read nnz rows cols => if nnz = -1 then some (-1) else (quot nnz rows).bind fun q => quot q cols

/-- `getSparsity` — DaphneInferSparsityOpInterface.cpp:60-73: the sparsity of a matrix literal. -/
def countConst {α : Type} (nz : α → Bool) (x : DM α) : Res Nat :=
  forLoop 0 x.h.numRows 0 fun r n =>
    forLoop 0 x.h.numCols n fun c n => do
      let v ← x.mem.read (x.h.start + r * x.h.rowSkip + c)
      .ok (if nz v then n + 1 else n)

/-- The same, with the division. -/
def constSparsity {α : Type} (nz : α → Bool) (x : DM α) : Res (Option ℚ) := do
  let n ← countConst nz x
  .ok (quot n ((x.h.numRows * x.h.numCols : Nat) : ℚ))

/-- `BoolOrUnknown`. -/
inductive Sym where
  | unknown | false | true
  deriving DecidableEq, Repr

/-- `FillOp::inferSymmetric` — DaphneInferSymmetricOpInterface.cpp:34-42, with the constants, if they are known. -/
def fillSym (rows cols : Option ℤ) : Sym :=
  match rows, cols with
  | some r, some c => if r = c then .true else .false
  | _, _ => .unknown

/-- `TransposeOp::inferSymmetric` — DaphneInferSymmetricOpInterface.cpp:44-49. -/
def transposeSym (s : Sym) : Sym := s

end Verif.Sp
