/-
  Model of sparse kernels: Transpose.h:82-131, RowBind.h:125-172, ColBind.h:107-147, and of the collection of sparse partial
  results, src/runtime/local/vectorized/VectorizedDataSink.h.  All with `res == nullptr` on entry.
-/
import Verif.Csr.Eq

namespace Verif.Csr
open Verif
variable {α : Type}

/-- Transpose.h:104-108: number of entries per column (row offsets of the result array are used as counters). -/
def countCols (x : CM α) (offs : Buf Nat) : Res (Buf Nat) :=
  forLoop 0 x.h.numRows offs fun row offs => do
    let b ← x.h.off x.mem row
    let e ← x.h.off x.mem (row + 1)
    forLoop b e offs fun j offs => do
      let c ← x.mem.cols.read j
      let k ← offs.read c
      offs.write c (k + 1)

/-- Transpose.h:110-114: exclusive prefix sum. -/
def prefixSum (n : Nat) (offs : Buf Nat) : Res (Buf Nat × Nat) :=
  forLoop 0 n (offs, 0) fun col (offs, cumsum) => do
    let tmp ← offs.read col
    let offs ← offs.write col cumsum
    .ok (offs, cumsum + tmp)

/-- Transpose.h:117-125: place each entry. -/
def placeEntries (x : CM α) (m : CMem α) : Res (CMem α) :=
  forLoop 0 x.h.numRows m fun row m => do
    let b ← x.h.off x.mem row
    let e ← x.h.off x.mem (row + 1)
    forLoop b e m fun j m => do
      let col ← x.mem.cols.read j
      let dest ← m.offs.read col
      let cs ← m.cols.write dest row
      let v ← x.mem.vals.read j
      let vs ← m.vals.write dest v
      let d ← m.offs.read col
      let os ← m.offs.write col (d + 1)
      .ok ⟨vs, cs, os⟩

/-- Transpose.h:127-131: shift the row offsets back. -/
def shiftOffsets (n : Nat) (offs : Buf Nat) : Res (Buf Nat × Nat) :=
  forLoop 0 n (offs, 0) fun col (offs, last) => do
    let tmp ← offs.read col
    let offs ← offs.write col last
    .ok (offs, tmp)

/-- Transpose.h:82-131: `transpose` of a sparse matrix. -/
def transpose (x : CM α) (jv : Nat → α) (jc jo : Nat → Nat) : Res (CM α) := do
  let nnz ← x.h.numNonZeros x.mem
  let res := CM.create x.h.numCols x.h.numRows nnz jv jc jo
  let offs ← res.mem.offs.fill 0 x.h.numCols 0
  let offs ← countCols x offs
  let (offs, _) ← prefixSum x.h.numCols offs
  let offs ← offs.write x.h.numCols nnz
  let m ← placeEntries x ⟨res.mem.vals, res.mem.cols, offs⟩
  let (offs, _) ← shiftOffsets (x.h.numCols + 1) m.offs
  .ok ⟨res.h, ⟨m.vals, m.cols, offs⟩⟩

/-- RowBind.h:150-155: the row offsets of the upper operand (`su` is its first offset). -/
def rowBindUpper (x : CM α) (su : Nat) (offs : Buf Nat) : Res (Buf Nat) :=
  if x.h.isView then
    forLoop 0 x.h.numRows offs fun r offs => do
      let o ← x.h.off x.mem r
      offs.write r (o - su)
  else x.mem.offs.copy x.h.rowOff offs 0 x.h.numRows

/-- RowBind.h:125-172: `rowBind` of sparse matrices. -/
def rowBind (x y : CM α) (jv : Nat → α) (jc jo : Nat → Nat) : Res (CM α) :=
  if x.h.numCols ≠ y.h.numCols then .error (.throw "the two operands must have the same number of columns")
  else do
    let nu ← x.h.numNonZeros x.mem
    let nl ← y.h.numNonZeros y.mem
    let res := CM.create (x.h.numRows + y.h.numRows) x.h.numCols (nu + nl) jv jc jo
    let su ← x.h.off x.mem 0
    let offs ← rowBindUpper x su res.mem.offs
    let vals ← x.mem.vals.copy su res.mem.vals 0 nu
    let cols ← x.mem.cols.copy su res.mem.cols 0 nu
    let sl ← y.h.off y.mem 0
    let offs ← forLoop 0 y.h.numRows offs fun r offs => do
      let o ← y.h.off y.mem r
      offs.write (r + x.h.numRows) (o - sl + nu)
    let vals ← y.mem.vals.copy sl vals nu nl
    let cols ← y.mem.cols.copy sl cols nu nl
    let offs ← offs.write (x.h.numRows + y.h.numRows) (nu + nl)
    .ok ⟨res.h, ⟨vals, cols, offs⟩⟩

/-- ColBind.h:107-147: `colBind` of sparse matrices. -/
def colBind (x y : CM α) (jv : Nat → α) (jc jo : Nat → Nat) : Res (CM α) :=
  if x.h.numRows ≠ y.h.numRows then .error (.throw "ColBind - the two operands must have the same number of rows")
  else do
    let nl ← x.h.numNonZeros x.mem
    let nr ← y.h.numNonZeros y.mem
    let res := CM.create x.h.numRows (x.h.numCols + y.h.numCols) (nl + nr) jv jc jo
    let sl ← x.h.off x.mem 0
    let sr ← y.h.off y.mem 0
    let (m, _) ← forLoop 0 x.h.numRows (res.mem, 0) fun r (m, rhsPrevEnd) => do
      let lb ← x.h.off x.mem r
      let le ← x.h.off x.mem (r + 1)
      let rb ← y.h.off y.mem r
      let re ← y.h.off y.mem (r + 1)
      let lhsOffset := rhsPrevEnd
      let rhsOffset := lhsOffset + (le - lb)
      let vals ← x.mem.vals.copy lb m.vals lhsOffset (le - lb)
      let vals ← y.mem.vals.copy rb vals rhsOffset (re - rb)
      let cols ← x.mem.cols.copy lb m.cols lhsOffset (le - lb)
      let cols ← forLoop 0 (re - rb) cols fun c cols => do
        let k ← y.mem.cols.read (rb + c)
        cols.write (rhsOffset + c) (k + x.h.numCols)
      let offs ← m.offs.write r (lb - sl + rb - sr)
      .ok (⟨vals, cols, offs⟩, rhsOffset + (re - rb))
    let offs ← m.offs.write x.h.numRows (nl + nr)
    .ok ⟨res.h, ⟨m.vals, m.cols, offs⟩⟩

end Verif.Csr
