/-
  Models of dense-matrix kernels in src/runtime/local/kernels: SliceRow, SliceCol, RowBind, ColBind, FilterRow, FilterCol,
  ExtractRow, ExtractCol, InsertRow, InsertCol, Transpose (the `DenseMatrix` specialisations), with `res == nullptr` on entry.

  Simplifications: a value pointer that the code advances by the row skip once per iteration is written as
  `start + r * rowSkip`; the freshly allocated result has arbitrary contents `junk`; index values are exact integers
  (`VTSel = int64_t` without overflow) unless stated otherwise.
-/
import Verif.Dense.Lemmas

namespace Verif.Dense
open Verif
variable {α : Type _}

/-! ### Slicing -/

/-- SliceRow.h:78-83 and SliceCol.h:77-82: resolution of negative bounds. -/
def resolveSlice (l u : Int) (n : Nat) : Int × Int :=
  if l < 0 then (l + n, if u ≤ 0 then u + n else u)
  else if u < 0 then (l, u + n)
  else (l, u)

/-- SliceRow.h:55-64 / SliceCol.h:55-63: `validateArgsSliceRow` / `validateArgsSliceCol`; true if it throws. -/
def sliceInvalid (l u : Int) (n : Nat) : Bool :=
  decide (l < 0) || decide ((n : Int) ≤ l) || decide (u < l) || decide ((n : Int) < u)

/-- SliceRow.h:74-87. -/
def sliceRow (x : DM α) (l u : Int) : Res (DM α) := do
  let (l, u) := resolveSlice l u x.numRows
  if sliceInvalid l u x.numRows then .error (.throw "invalid arguments passed to SliceRow")
  else
    let v ← x.h.sliceRow l u
    .ok ⟨v, x.mem⟩

/-- SliceCol.h:73-86. -/
def sliceCol (x : DM α) (l u : Int) : Res (DM α) := do
  let (l, u) := resolveSlice l u x.numCols
  if sliceInvalid l u x.numCols then .error (.throw "invalid arguments passed to SliceCol")
  else
    let v ← x.h.sliceCol l u
    .ok ⟨v, x.mem⟩

/-! ### Binding -/

/-- RowBind.h:58-84 (`memcpy` of each operand as one contiguous block). -/
def rowBind (junk : Nat → α) (ups lows : DM α) : Res (DM α) :=
  if ups.numCols ≠ lows.numCols then .error (.throw "the two operands must have the same number of columns")
  else do
    let res := DM.create (ups.numRows + lows.numRows) ups.numCols junk
    let m ← ups.mem.copy ups.h.start res.mem res.h.start (ups.numCols * ups.numRows)
    let m ← lows.mem.copy lows.h.start m (res.h.start + ups.numRows * ups.numCols) (lows.numCols * lows.numRows)
    .ok ⟨res.h, m⟩

/-- ColBind.h:58-91. -/
def colBind (junk : Nat → α) (lhs rhs : DM α) : Res (DM α) :=
  if lhs.numRows ≠ rhs.numRows then .error (.throw "the two operands must have the same number of rows")
  else do
    let res := DM.create lhs.numRows (lhs.numCols + rhs.numCols) junk
    let m ← forLoop 0 lhs.numRows res.mem fun r m => do
      let m ← lhs.mem.copy (lhs.addr r 0) m (res.addr r 0) lhs.numCols
      rhs.mem.copy (rhs.addr r 0) m (res.addr r 0 + lhs.numCols) rhs.numCols
    .ok ⟨res.h, m⟩

/-! ### Filtering -/

/-- FilterRow.h:68-70, FilterCol.h:65-67: sum of the selection values (a negative total would wrap in the code). -/
def selSum (sel : DM Int) (n : Nat) : Res Int :=
  forLoop 0 n 0 fun r acc => do
    let v ← sel.get r 0
    .ok (acc + v)

/-- FilterRow.h:58-87. The second component of the loop state counts how often `valuesRes` was advanced. -/
def filterRow (junk : Nat → α) (arg : DM α) (sel : DM Int) : Res (DM α) :=
  if sel.numRows ≠ arg.numRows then .error (.throw "sel must have exactly one entry (row) for each row in arg")
  else if sel.numCols ≠ 1 then .error (.throw "sel must be a single-column matrix")
  else do
    let n ← selSum sel arg.numRows
    let res := DM.create n.toNat arg.numCols junk
    let (m, _) ← forLoop 0 arg.numRows (res.mem, 0) fun r (m, k) => do
      let s ← sel.get r 0
      if s ≠ 0 then do
        let m ← arg.mem.copy (arg.addr r 0) m (res.addr k 0) arg.numCols
        .ok (m, k + 1)
      else .ok (m, k)
    .ok ⟨res.h, m⟩

/-- FilterCol.h:55-110 (approach 2). -/
def filterCol (junk : Nat → α) (arg : DM α) (sel : DM Int) : Res (DM α) :=
  if sel.numRows ≠ arg.numCols then .error (.throw "sel must have exactly one entry (row) for each column in arg")
  else if sel.numCols ≠ 1 then .error (.throw "sel must be a single-column matrix")
  else do
    let n ← selSum sel arg.numCols
    let res := DM.create arg.numRows n.toNat junk
    let pos ← forLoop 0 arg.numCols ([] : List Nat) fun c l => do
      let s ← sel.get c 0
      if s ≠ 0 then .ok (l ++ [c]) else .ok l
    let m ← forLoop 0 arg.numRows res.mem fun r m =>
      forLoop 0 pos.length m fun i m => do
        let v ← arg.mem.read (arg.addr r (pos.getD i 0))
        m.write (res.addr r i) v
    .ok ⟨res.h, m⟩

/-! ### Positional extraction -/

/-- ExtractRow.h:187-204, ExtractCol.h:98-107: resolution and check of one position. -/
def resolvePos (v : Int) (n : Nat) : Res Nat :=
  let v := if v < 0 then v + n else v
  if v < 0 ∨ (n : Int) ≤ v then .error (.throw "out of bounds") else .ok v.toNat

/-- ExtractRow.h:156-214. The selection is read as `valuesSel[r]`, that is, with stride 1. -/
def extractRow (junk : Nat → α) (arg : DM α) (sel : DM Int) : Res (DM α) :=
  if sel.numCols ≠ 1 then .error (.throw "selection must be given as column matrix")
  else do
    let res := DM.create sel.numRows arg.numCols junk
    let m ← forLoop 0 sel.numRows res.mem fun r m => do
      let v ← sel.mem.read (sel.h.start + r)
      let p ← resolvePos v arg.numRows
      forLoop 0 arg.numCols m fun c m => do
        let a ← arg.mem.read (arg.addr p c)
        m.write (res.addr r c) a
    .ok ⟨res.h, m⟩

/-- ExtractCol.h:74-115. -/
def extractCol (junk : Nat → α) (arg : DM α) (sel : DM Int) : Res (DM α) :=
  if sel.numCols ≠ 1 then .error (.throw "selection must be given as column matrix")
  else do
    let res := DM.create arg.numRows sel.numRows junk
    let m ← forLoop 0 arg.numRows res.mem fun r m =>
      forLoop 0 sel.numRows m fun c m => do
        let v ← sel.mem.read (sel.h.start + c)
        let p ← resolvePos v arg.numCols
        let a ← arg.mem.read (arg.addr r p)
        m.write (res.addr r c) a
    .ok ⟨res.h, m⟩

/-! ### Range insertion -/

/-- `static_cast<size_t>` of a signed integer. -/
def sizeT (i : Int) : Nat := (i % (2 ^ 64 : Int)).toNat

/-- InsertRow.h:108-119 / InsertCol.h:104-116: resolution of negative bounds (signed `VTSel`). -/
def resolveInsert (l u : Int) (n : Nat) : Nat × Nat :=
  let lo := if l < 0 then sizeT (n + l) else sizeT l
  let hi := if u < 0 then sizeT (n + u) else sizeT u
  let hi := if l < 0 ∧ u = 0 then (lo + 1) % 2 ^ 64 else hi
  (lo, hi)

/-- InsertRow.h:56-88 / InsertCol.h:54-86: true if the validation throws; `n` addressed dimension of arg, `nIns` the same
dimension of ins, `o`, `oIns` the other dimension. -/
def insertInvalid (lo hi n o nIns oIns : Nat) : Bool :=
  (decide (hi < lo) || decide (n < hi) || (decide (lo = n) && decide (lo ≠ 0))) ||
  decide (nIns ≠ hi - lo) || decide (oIns ≠ o)

/-- InsertRow.h:98-151. -/
def insertRow (junk : Nat → α) (arg ins : DM α) (l u : Int) : Res (DM α) := do
  let (lo, hi) := resolveInsert l u arg.numRows
  if insertInvalid lo hi arg.numRows arg.numCols ins.numRows ins.numCols then
    .error (.throw "invalid arguments passed to InsertRow")
  else
    let res := DM.create arg.numRows arg.numCols junk
    let m ← forLoop 0 lo res.mem fun r m => arg.mem.copy (arg.addr r 0) m (res.addr r 0) arg.numCols
    let m ← forLoop lo hi m fun r m => ins.mem.copy (ins.addr (r - lo) 0) m (res.addr r 0) arg.numCols
    let m ← forLoop hi arg.numRows m fun r m => arg.mem.copy (arg.addr r 0) m (res.addr r 0) arg.numCols
    .ok ⟨res.h, m⟩

/-- InsertCol.h:96-141. -/
def insertCol (junk : Nat → α) (arg ins : DM α) (l u : Int) : Res (DM α) := do
  let (lo, hi) := resolveInsert l u arg.numCols
  if insertInvalid lo hi arg.numCols arg.numRows ins.numCols ins.numRows then
    .error (.throw "invalid arguments passed to InsertCol")
  else
    let res := DM.create arg.numRows arg.numCols junk
    let m ← forLoop 0 arg.numRows res.mem fun r m => do
      let m ← arg.mem.copy (arg.addr r 0) m (res.addr r 0) lo
      let m ← ins.mem.copy (ins.addr r 0) m (res.addr r 0 + lo) ins.numCols
      arg.mem.copy (arg.addr r 0 + hi) m (res.addr r 0 + hi) (arg.numCols - hi)
    .ok ⟨res.h, m⟩

/-! ### Transposition -/

/-- Transpose.h:51-76. For vectors that are not views the result shares the allocation (DenseMatrix.cpp:123-130). -/
def transpose (junk : Nat → α) (arg : DM α) : Res (DM α) :=
  if (arg.numRows = 1 ∨ arg.numCols = 1) ∧ arg.h.isView = false then
    .ok ⟨⟨arg.numCols, arg.numRows, arg.numRows, arg.h.base, 0, 0, arg.numCols * arg.numRows, false, 0, 0⟩, arg.mem⟩
  else do
    let res := DM.create arg.numCols arg.numRows junk
    let m ← forLoop 0 arg.numRows res.mem fun r m =>
      forLoop 0 arg.numCols m fun c m => do
        let v ← arg.mem.read (arg.addr r c)
        m.write (res.h.start + r + c * res.h.rowSkip) v
    .ok ⟨res.h, m⟩

end Verif.Dense
