/-
  Model of src/runtime/local/datastructures/CSRMatrix.h: sparse matrices as three arrays, views of row ranges sharing them,
  element access, in-order append, and comparison.

  A matrix object is a header `CHdr` (scalar fields; `rowOff` is the distance of its `rowOffsets` pointer from the start of the
  allocation) plus the shared arrays `CMem`.  Simplification: `size_t` arithmetic does not wrap, except where noted.
-/
import Verif.Basic.Copy
import Verif.Dense.Spec

namespace Verif.Csr
open Verif

/-- The three arrays. CSRMatrix.h:73-75. -/
structure CMem (α : Type) where
  vals : Buf α
  cols : Buf Nat
  offs : Buf Nat

/-- Scalar fields. CSRMatrix.h:51-77. -/
structure CHdr where
  numRows : Nat
  numCols : Nat
  /-- `numRowsAllocated` -/
  alloc : Nat
  /-- `isRowAllocatedBefore` -/
  before : Bool
  /-- position of `rowOffsets.get()` in the allocation -/
  rowOff : Nat
  /-- `lastAppendedRowIdx` -/
  lastApp : Nat
  deriving DecidableEq, Repr

/-- A matrix object with its arrays. -/
structure CM (α : Type) where
  h : CHdr
  mem : CMem α

variable {α : Type}

namespace CHdr

/-- CSRMatrix.h:94-105 (constructor). -/
def new (rows cols : Nat) : CHdr := ⟨rows, cols, rows, false, 0, 0⟩

/-- CSRMatrix.h:134-152 (view constructor), reached through `sliceRow` (CSRMatrix.h:411-413). The checks run after the
initialiser list, whose `size_t` subtractions wrap without effect if a check fails. -/
def sliceRow (src : CHdr) (rl ru : Nat) : Res CHdr :=
  if src.numRows ≤ rl then .error (.throw "rowLowerIncl is out of bounds")
  else if src.numRows < ru then .error (.throw "rowUpperExcl is out of bounds")
  else if ru ≤ rl then .error (.throw "rowLowerIncl must be lower than rowUpperExcl")
  else .ok ⟨ru - rl, src.numCols, src.alloc - rl, decide (0 < rl), src.rowOff + rl, 0⟩

/-- CSRMatrix.h:181-186: `shrinkNumRows`. -/
def shrinkNumRows (h : CHdr) (n : Nat) : Res CHdr :=
  if h.numRows < n then .error (.throw "numRows can only be shrunk") else .ok { h with numRows := n }

/-- CSRMatrix.h:353: `isView()`. -/
def isView (h : CHdr) : Bool := decide (h.numRows < h.alloc) || h.before

/-- `rowOffsets.get()[i]`. -/
def off (h : CHdr) (m : CMem α) (i : Nat) : Res Nat := m.offs.read (h.rowOff + i)

/-- CSRMatrix.h:188: `getNumNonZeros()`. -/
def numNonZeros (h : CHdr) (m : CMem α) : Res Nat := do
  let e ← h.off m h.numRows
  let b ← h.off m 0
  .ok (e - b)

/-- CSRMatrix.h:190-194: `getNumNonZeros(rowIdx)`. -/
def rowNumNonZeros (h : CHdr) (m : CMem α) (r : Nat) : Res Nat :=
  if h.numRows ≤ r then .error (.throw "rowIdx is out of bounds")
  else do
    let e ← h.off m (r + 1)
    let b ← h.off m r
    .ok (e - b)

/-- CSRMatrix.h:212-217 and 231-236: `getValues(rowIdx)` / `getColIdxs(rowIdx)`, as a position in the arrays. -/
def rowPtr (h : CHdr) (m : CMem α) (r : Nat) : Res Nat :=
  if h.numRows < r then .error (.throw "rowIdx is out of bounds") else h.off m r

end CHdr

/-- `std::lower_bound(b + first, b + first + len, c)` (libstdc++'s binary search); the first argument bounds the number of
iterations (`len` suffices). -/
def lowerBound (b : Buf Nat) (c : Nat) : Nat → Nat → Nat → Res Nat
  | 0, first, _ => .ok first
  | fuel + 1, first, len =>
    if len = 0 then .ok first
    else do
      let x ← b.read (first + len / 2)
      if x < c then lowerBound b c fuel (first + len / 2 + 1) (len - len / 2 - 1)
      else lowerBound b c fuel first (len / 2)

namespace CHdr

/-- CSRMatrix.h:248-264: `get`. -/
def get (zero : α) (h : CHdr) (m : CMem α) (r c : Nat) : Res α :=
  if h.numRows ≤ r then .error (.throw "rowIdx is out of bounds")
  else if h.numCols ≤ c then .error (.throw "colIdx is out of bounds")
  else do
    let b ← h.rowPtr m r
    let e ← h.rowPtr m (r + 1)
    let p ← lowerBound m.cols c (e - b) b (e - b)
    if p = e then .ok zero
    else do
      let x ← m.cols.read p
      if x ≠ c then .ok zero else m.vals.read (b + (p - b))

/-- CSRMatrix.h:287-291: `for (pos = posEnd; pos > posExpected; pos--)` shift by one to the right, both arrays; here with
absolute positions, `k` counting from 0. -/
def shiftRight (v : Buf α) (c : Buf Nat) (p e : Nat) : Res (Buf α × Buf Nat) :=
  forLoop 0 (e - p) (v, c) fun k (v, c) => do
    let pos := e - k
    let a ← v.read (pos - 1)
    let v ← v.write pos a
    let x ← c.read (pos - 1)
    let c ← c.write pos x
    .ok (v, c)

/-- CSRMatrix.h:303-306: shift by one to the left; reads one element past the valid ones. -/
def shiftLeft (v : Buf α) (c : Buf Nat) (p e : Nat) : Res (Buf α × Buf Nat) :=
  forLoop p e (v, c) fun pos (v, c) => do
    let a ← v.read (pos + 1)
    let v ← v.write pos a
    let x ← c.read (pos + 1)
    let c ← c.write pos x
    .ok (v, c)

/-- CSRMatrix.h:281: negation of `ptrExpected == rowColIdxsEnd || *ptrExpected != colIdx`. -/
def hit (m : CMem α) (p e c : Nat) : Res Bool :=
  if p = e then .ok false
  else do
    let x ← m.cols.read p
    .ok (decide (x = c))

/-- CSRMatrix.h:266-317: `set`. -/
def set [DecidableEq α] (zero : α) (h : CHdr) (m : CMem α) (r c : Nat) (v : α) : Res (CMem α) :=
  if h.numRows ≤ r then .error (.throw "rowIdx is out of bounds")
  else if h.numCols ≤ c then .error (.throw "colIdx is out of bounds")
  else do
    let b ← h.rowPtr m r
    let e ← h.rowPtr m (r + 1)
    let p ← lowerBound m.cols c (e - b) b (e - b)
    let last ← h.off m h.alloc
    let present ← hit m p e c
    if present = false then
      if v = zero then .ok m
      else do
        -- `if (posEnd)` only skips an empty loop
        let (vs, cs) ← shiftRight m.vals m.cols p last
        let vs ← vs.write p v
        let cs ← cs.write p c
        let os ← forLoop (r + 1) (h.alloc + 1) m.offs fun k os => do
          let x ← os.read (h.rowOff + k)
          os.write (h.rowOff + k) (x + 1)
        .ok ⟨vs, cs, os⟩
    else if v = zero then do
      let (vs, cs) ← shiftLeft m.vals m.cols p last
      let os ← forLoop (r + 1) (h.alloc + 1) m.offs fun k os => do
        let x ← os.read (h.rowOff + k)
        os.write (h.rowOff + k) (x - 1)
      .ok ⟨vs, cs, os⟩
    else do
      let vs ← m.vals.write p v
      .ok ⟨vs, m.cols, m.offs⟩

/-- CSRMatrix.h:171-177: `fillNextPosUntil`. -/
def fillNextPosUntil (h : CHdr) (offs : Buf Nat) (nextPos r : Nat) : Res (CHdr × Buf Nat) :=
  if h.lastApp < r then do
    let offs ← forLoop (h.lastApp + 2) (r + 2) offs fun k offs => offs.write (h.rowOff + k) nextPos
    .ok ({ h with lastApp := r }, offs)
  else .ok (h, offs)

/-- CSRMatrix.h:319-327: `prepareAppend`. -/
def prepareAppend (h : CHdr) (m : CMem α) : Res (CHdr × CMem α) :=
  if h.before then do
    let x ← m.offs.read h.rowOff
    let offs ← m.offs.write (h.rowOff + 1) x
    .ok ({ h with lastApp := 0 }, { m with offs := offs })
  else do
    let offs ← m.offs.write h.rowOff 0
    let offs ← offs.write (h.rowOff + 1) 0
    .ok ({ h with lastApp := 0 }, { m with offs := offs })

/-- CSRMatrix.h:332-347: `append`. -/
def append [DecidableEq α] (zero : α) (h : CHdr) (m : CMem α) (r c : Nat) (v : α) : Res (CHdr × CMem α) :=
  if h.numRows ≤ r then .error (.throw "rowIdx is out of bounds")
  else if h.numCols ≤ c then .error (.throw "colIdx is out of bounds")
  else if v = zero then .ok (h, m)
  else do
    let nextPos ← m.offs.read (h.rowOff + (h.lastApp + 1))
    let (h, offs) ← h.fillNextPosUntil m.offs nextPos r
    let vs ← m.vals.write nextPos v
    let cs ← m.cols.write nextPos c
    let x ← offs.read (h.rowOff + (r + 1))
    let offs ← offs.write (h.rowOff + (r + 1)) (x + 1)
    .ok (h, ⟨vs, cs, offs⟩)

/-- CSRMatrix.h:349: `finishAppend`. For `numRows = 0` the code's `numRows - 1` wraps to 2^64-1 and the loop bound to 0. -/
def finishAppend (h : CHdr) (m : CMem α) : Res (CHdr × CMem α) := do
  let nextPos ← m.offs.read (h.rowOff + (h.lastApp + 1))
  if h.numRows = 0 then .ok ({ h with lastApp := 2 ^ 64 - 1 }, m)
  else do
    let (h, offs) ← h.fillNextPosUntil m.offs nextPos (h.numRows - 1)
    .ok (h, { m with offs := offs })

end CHdr

/-- `DataObjectFactory::create<CSRMatrix<VT>>(rows, cols, maxNnz, false)`: arrays with arbitrary contents. CSRMatrix.h:94-100. -/
def CM.create (rows cols maxNnz : Nat) (jv : Nat → α) (jc jo : Nat → Nat) : CM α :=
  ⟨CHdr.new rows cols, ⟨⟨maxNnz, jv⟩, ⟨maxNnz, jc⟩, ⟨rows + 1, jo⟩⟩⟩

/-- Same with `zero = true`. CSRMatrix.h:101-105. -/
def CM.createZero (rows cols maxNnz : Nat) (zero : α) : CM α :=
  ⟨CHdr.new rows cols, ⟨⟨maxNnz, fun _ => zero⟩, ⟨maxNnz, fun _ => 0⟩, ⟨rows + 1, fun _ => 0⟩⟩⟩

/-- Comparison of `n` elements of two arrays (`memcmp(..) == 0`, for types whose equality is bitwise). -/
def memEq {β : Type} [DecidableEq β] (a : Buf β) (i : Nat) (b : Buf β) (j n : Nat) : Res Bool :=
  forLoop 0 n true fun k ok =>
    if ok then do
      let x ← a.read (i + k)
      let y ← b.read (j + k)
      .ok (decide (x = y))
    else .ok false

/-- CSRMatrix.h:427-472: `operator==` of two different objects; `sameAlloc` says that both use the same arrays (then equal
positions are equal pointers and the comparison is skipped). -/
def CM.eq [DecidableEq α] (sameAlloc : Bool) (x y : CM α) : Res Bool :=
  if x.h.numRows ≠ y.h.numRows ∨ x.h.numCols ≠ y.h.numCols then .ok false
  else do
    let bl ← x.h.rowPtr x.mem 0
    let el ← x.h.rowPtr x.mem x.h.numRows
    let br ← y.h.rowPtr y.mem 0
    let er ← y.h.rowPtr y.mem x.h.numRows
    if el - bl ≠ er - br then .ok false
    else do
      let v ← if sameAlloc ∧ bl = br then .ok true else memEq x.mem.vals bl y.mem.vals br (el - bl)
      if v = false then .ok false
      else if sameAlloc ∧ bl = br then .ok true
      else memEq x.mem.cols bl y.mem.cols br (el - bl)

end Verif.Csr
