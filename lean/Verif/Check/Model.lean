/-
  Model of src/runtime/local/kernels/IsSymmetric.h and HasSpecialValue.h (dense and sparse). Properties C230-C233.
  `!=`, `==` and `std::isnan` of the value type are parameters (so that NaN is covered).
-/
import Verif.Csr.Eq
import Verif.Dense.KernelProps

namespace Verif.Check
open Verif Verif.Csr Verif.Dense
variable {α : Type}

/-- The positions above the diagonal in the order of the loops of IsSymmetric.h:57-58. -/
def upper (n : Nat) : List (Nat × Nat) := (List.range n).flatMap fun r => (List.range' (r + 1) (n - (r + 1))).map fun c => (r, c)

/-- IsSymmetric.h:57-64. -/
def symScan (ne : α → α → Bool) (x : DM α) : List (Nat × Nat) → Res Bool
  | [] => .ok true
  | (r, c) :: ps => do
    let a ← x.h.get x.mem r c
    let b ← x.h.get x.mem c r
    if ne a b then .ok false else symScan ne x ps

/-- `IsSymmetric<DenseMatrix>` — IsSymmetric.h:48-66. -/
def isSymmetricDense (ne : α → α → Bool) (x : DM α) : Res Bool :=
  if x.h.numRows ≠ x.h.numCols then .error (.throw "the provided matrix is not square")
  else symScan ne x (upper x.h.numRows)

/-- The loop over the entries of row `r`, which begin at `b` — IsSymmetric.h:91-117. `pos` is the vector `positions` with all elements one
larger (`0` for `static_cast<size_t>(-1)`); no element gets so large that it wraps. `none` is `return false`. -/
def symRow (ne : α → α → Bool) (x : CM α) (r b : Nat) : List Nat → Buf Nat → Res (Option (Buf Nat))
  | [], pos => .ok (some pos)
  | i :: is, pos => do
    let c ← x.mem.cols.read (b + i)
    if c ≤ r then symRow ne x r b is pos
    else do
      let pos ← pos.write r (i + 1)
      let v ← x.mem.vals.read (b + i)
      let bB ← x.h.rowPtr x.mem c
      let nB ← x.h.rowNumNonZeros x.mem c
      let old ← pos.read c
      let pos ← pos.write c (old + 1)
      if nB ≤ old then .ok none
      else do
        let cB ← x.mem.cols.read (bB + old)
        let vB ← x.mem.vals.read (bB + old)
        if cB ≠ r ∨ ne v vB = true then .ok none else symRow ne x r b is pos

/-- The loop over the rows — IsSymmetric.h:86-125. -/
def symRows (ne : α → α → Bool) (x : CM α) : List Nat → Buf Nat → Res Bool
  | [], _ => .ok true
  | r :: rs, pos => do
    let b ← x.h.rowPtr x.mem r
    let n ← x.h.rowNumNonZeros x.mem r
    let res ← symRow ne x r b (List.range n) pos
    match res with
    | none => .ok false
    | some pos => do
      let l ← pos.read r
      if l = 0 ∧ n ≠ 0 then .ok false else symRows ne x rs pos

/-- `IsSymmetric<CSRMatrix>` — IsSymmetric.h:73-128. -/
def isSymmetricCsr (ne : α → α → Bool) (x : CM α) : Res Bool :=
  if x.h.numRows ≠ x.h.numCols then .error (.throw "the provided matrix is not square")
  else if x.h.numRows ≤ 1 then .ok true
  else symRows ne x (List.range x.h.numRows) ⟨x.h.numRows, fun _ => 0⟩

/-- A cell has the value that is searched for: NaN if this is NaN (HasSpecialValue.h:67, 98). -/
def Matches (eq : α → α → Bool) (isNan : α → Bool) (val v : α) : Bool := if isNan val then isNan v else eq v val

/-- HasSpecialValue.h:68-78. -/
def hasScan (p : α → Bool) (x : DM α) : List (Nat × Nat) → Res Bool
  | [] => .ok false
  | (r, c) :: ps => do
    let a ← x.h.get x.mem r c
    if p a then .ok true else hasScan p x ps

/-- `HasSpecialValue<DenseMatrix>` — HasSpecialValue.h:62-81. -/
def hasSpecialDense (eq : α → α → Bool) (isNan : α → Bool) (x : DM α) (val : α) : Res Bool :=
  hasScan (Matches eq isNan val) x ((List.range x.h.numRows).flatMap fun r => (List.range x.h.numCols).map fun c => (r, c))

/-- `for (it = vBegin; it != vEnd; it++)` — HasSpecialValue.h:99-101, 105-107. -/
def hasScanVals (p : α → Bool) (vals : Buf α) : List Nat → Res Bool
  | [] => .ok false
  | i :: is => do
    let a ← vals.read i
    if p a then .ok true else hasScanVals p vals is

/-- `HasSpecialValue<CSRMatrix>` — HasSpecialValue.h:87-110. -/
def hasSpecialCsr (eq : α → α → Bool) (isNan : α → Bool) (zero : α) (x : CM α) (val : α) : Res Bool := do
  let nnz ← x.h.numNonZeros x.mem
  let b ← x.h.rowPtr x.mem 0
  let e ← x.h.rowPtr x.mem x.h.numRows
  if isNan val = false ∧ nnz < x.h.numRows * x.h.numCols ∧ eq zero val = true then .ok true
  else hasScanVals (Matches eq isNan val) x.mem.vals (List.range' b (e - b))

end Verif.Check
