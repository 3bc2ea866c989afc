/-
  Model of src/runtime/local/datastructures/DenseMatrix.{h,cpp}: dense matrices, views on them (which share the
  allocation of the original), and element access, append construction and comparison.

  A matrix object is a header `Hdr` (the scalar fields of the C++ object) plus the allocation `Buf α` it points into.
  Several headers may refer to one allocation.  Simplifications: host memory only (the MetaDataObject then always finds a
  host placement with a null range, so `getValues()` is `startAddress()`); `size_t` arithmetic does not wrap.
-/
import Verif.Basic.Copy
import Verif.Dense.Spec

namespace Verif.Dense
open Verif

/-- The scalar fields of a `DenseMatrix<VT>` object. DenseMatrix.h:43-56, Structure.h (row_offset, col_offset). -/
structure Hdr where
  numRows : Nat
  numCols : Nat
  rowSkip : Nat
  /-- `values.get()`, relative to the start of the allocation -/
  base : Nat
  rowOff : Nat
  colOff : Nat
  /-- `bufferSize`, in elements instead of bytes -/
  bufElems : Nat
  isView : Bool
  lastR : Nat
  lastC : Nat
  deriving DecidableEq, Repr

namespace Hdr

/-- DenseMatrix.cpp:69-92 (constructor of a new matrix; the allocation has `maxNumRows * numCols` elements). -/
def new (maxNumRows numCols : Nat) : Hdr :=
  ⟨maxNumRows, numCols, numCols, 0, 0, 0, maxNumRows * numCols, false, 0, 0⟩

/-- DenseMatrix.h:184: `offset()`. -/
def offset (h : Hdr) : Nat := h.rowOff * h.rowSkip + h.colOff

/-- DenseMatrix.h:193-195: `isPartialBuffer()`. -/
def isPartial (h : Hdr) : Bool := h.bufElems != h.numRows * h.rowSkip

/-- DenseMatrix.h:186: `startAddress()`; this is what `getValues()` returns for host memory (DenseMatrix.cpp:184-204). -/
def start (h : Hdr) : Nat := if h.isPartial then h.base + h.offset else h.base

/-- DenseMatrix.h:113-119: `pos`. -/
def pos (h : Hdr) (r c : Nat) (rowSkipOverride : Bool) : Res Nat :=
  if h.numRows ≤ r then .error (.throw "rowIdx is out of bounds")
  else if h.numCols ≤ c then .error (.throw "colIdx is out of bounds")
  else .ok (r * (if rowSkipOverride then h.numCols else h.rowSkip) + c)

/-- DenseMatrix.h:197-203: `shrinkNumRows`. -/
def shrinkNumRows (h : Hdr) (n : Nat) : Res Hdr :=
  if h.numRows < n then .error (.throw "number of rows can only be shrunk") else .ok { h with numRows := n }

/-- DenseMatrix.cpp:31-62: `validateArgs`, one dimension: the condition under which it does not throw. -/
def validRange (lo hi : Int) (n : Nat) : Bool :=
  !(decide (lo < 0) || decide (hi < lo) || decide ((n : Int) < hi) || (decide (lo = n) && decide (lo ≠ 0)))

/-- DenseMatrix.cpp:103-121: the view constructor, reached from `slice`, `sliceRow` and `sliceCol`
(DenseMatrix.h:294-300). -/
def view (src : Hdr) (rl ru cl cu : Int) : Res Hdr :=
  if !(validRange rl ru src.numRows) then .error (.throw "invalid row range")
  else if !(validRange cl cu src.numCols) then .error (.throw "invalid column range")
  else
    let rowOff := rl.toNat
    let colOff := cl.toNat
    let numRows := (ru - rl).toNat
    let numCols := (cu - cl).toNat
    .ok ⟨numRows, numCols, src.rowSkip, src.base + (rowOff * src.rowSkip + colOff), rowOff, colOff,
      numRows * src.rowSkip, true, 0, 0⟩

/-- DenseMatrix.h:294: `sliceRow`. -/
def sliceRow (src : Hdr) (rl ru : Int) : Res Hdr := view src rl ru 0 src.numCols

/-- DenseMatrix.h:296: `sliceCol`. -/
def sliceCol (src : Hdr) (cl cu : Int) : Res Hdr := view src 0 src.numRows cl cu

variable {α : Type _}

/-- DenseMatrix.h:250-252: `get`. -/
def get (h : Hdr) (m : Buf α) (r c : Nat) : Res α := do
  let p ← h.pos r c h.isPartial
  m.read (h.start + p)

/-- DenseMatrix.h:254-257: `set`. -/
def set (h : Hdr) (m : Buf α) (r c : Nat) (v : α) : Res (Buf α) := do
  let p ← h.pos r c false
  m.write (h.start + p) v

/-- DenseMatrix.h:121-143: `fillZeroUntil`. -/
def fillZeroUntil (h : Hdr) (m : Buf α) (zero : α) (r c : Nat) : Res (Buf α) :=
  if h.rowSkip = h.numCols ∨ h.lastR = r then do
    let s ← h.pos h.lastR h.lastC false
    let e ← h.pos r c false
    if s + 1 < e then m.fill (h.base + (s + 1)) (h.base + e) zero else .ok m
  else do
    let v := h.base + h.lastR * h.rowSkip
    let m ← m.fill (v + h.lastC + 1) (v + h.numCols) zero
    let m ← forLoop (h.lastR + 1) r m (fun r' m =>
      m.fill (h.base + r' * h.rowSkip) (h.base + r' * h.rowSkip + h.numCols) zero)
    -- here the code's `v` is `base + max(lastR+1, r) * rowSkip`
    let v := h.base + (max (h.lastR + 1) r) * h.rowSkip
    if c ≠ 0 then m.fill v (v + c - 1) zero else .ok m

/-- DenseMatrix.h:259-265: `prepareAppend`. -/
def prepareAppend (h : Hdr) (m : Buf α) (zero : α) : Res (Hdr × Buf α) := do
  let m ← if h.numRows ≠ 0 ∧ h.numCols ≠ 0 then m.write h.base zero else .ok m
  .ok ({ h with lastR := 0, lastC := 0 }, m)

/-- DenseMatrix.h:267-275: `append`. -/
def append (h : Hdr) (m : Buf α) (zero : α) (r c : Nat) (v : α) : Res (Hdr × Buf α) := do
  let m ← h.fillZeroUntil m zero r c
  let p ← h.pos r c false
  let m ← m.write (h.base + p) v
  .ok ({ h with lastR := r, lastC := c }, m)

/-- DenseMatrix.h:277-282: `finishAppend`. -/
def finishAppend (h : Hdr) (m : Buf α) (zero : α) : Res (Hdr × Buf α) :=
  if (h.numRows ≠ 0 ∧ h.numCols ≠ 0) ∧ (h.lastR + 1 < h.numRows ∨ h.lastC + 1 < h.numCols) then
    h.append m zero (h.numRows - 1) (h.numCols - 1) zero
  else .ok (h, m)

/-- The comparison loop of `operator==`, DenseMatrix.h:328-335 (early exit modelled by the flag). -/
def eqLoop [DecidableEq α] (h1 : Hdr) (m1 : Buf α) (h2 : Hdr) (m2 : Buf α) : Res Bool :=
  forLoop 0 h1.numRows true fun r ok =>
    forLoop 0 h1.numCols ok fun c ok =>
      if ok then do
        let a ← m1.read (h1.start + r * h1.rowSkip + c)
        let b ← m2.read (h2.start + r * h2.rowSkip + c)
        .ok (decide (a = b))
      else .ok false

/-- DenseMatrix.h:304-337: `operator==`; `sameAlloc` says whether the two objects point into one allocation (pointers
into different allocations are never equal). -/
def eq [DecidableEq α] (sameAlloc : Bool) (h1 : Hdr) (m1 : Buf α) (h2 : Hdr) (m2 : Buf α) : Res Bool :=
  if h1.numRows ≠ h2.numRows ∨ h1.numCols ≠ h2.numCols then .ok false
  else if sameAlloc ∧ h1.start = h2.start ∧ h1.rowSkip = h2.rowSkip then .ok true
  else eqLoop h1 m1 h2 m2

end Hdr

/-- A dense matrix object together with its allocation. -/
structure DM (α : Type _) where
  h : Hdr
  mem : Buf α

namespace DM
variable {α : Type _}

/-- `DataObjectFactory::create<DenseMatrix<VT>>(rows, cols, false)`: contents uninitialised (`junk`).
DenseMatrix.cpp:69-92. -/
def create (rows cols : Nat) (junk : Nat → α) : DM α := ⟨Hdr.new rows cols, ⟨rows * cols, junk⟩⟩

/-- Same with `zero = true`. DenseMatrix.cpp:86-87. -/
def createZero (rows cols : Nat) (zero : α) : DM α := ⟨Hdr.new rows cols, ⟨rows * cols, fun _ => zero⟩⟩

def numRows (x : DM α) : Nat := x.h.numRows
def numCols (x : DM α) : Nat := x.h.numCols
/-- `x->get(r, c)` -/
def get (x : DM α) (r c : Nat) : Res α := x.h.get x.mem r c
/-- `x->getValues() + r * x->getRowSkip() + c`, relative to the allocation -/
def addr (x : DM α) (r c : Nat) : Nat := x.h.start + r * x.h.rowSkip + c

end DM

end Verif.Dense
