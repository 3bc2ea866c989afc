/-
  Byte-level model of the two row-selection kernels on frames: `FilterRow.h` and `ExtractRow.h`, `Frame <- Frame`.

  Column arrays are arrays of bytes (of an arbitrary type `β`; uninitialized contents are arbitrary). A `std::string`
  column is an array of 32-byte objects; assigning one object to another is modelled as copying its 32 bytes (the deep
  copy of the characters is not visible in the bytes: simplification). The selection is a `DenseMatrix<int64_t>`.
-/
import Verif.Rel.Frame
import Verif.Dense.Kernels

namespace Verif.Rel
open Verif Verif.Dense

/-- `ValueTypeUtils::sizeOf` — ValueTypeUtils.cpp:26-51 (`sizeof(std::string) = 32`, `sizeof(FixedStr16) = 16`). -/
def VTC.size : VTC → Nat
  | .si8 | .ui8 => 1
  | .si32 | .ui32 | .f32 => 4
  | .si64 | .ui64 | .f64 => 8
  | .str => 32
  | .fixedStr16 => 16

/-- One column with its array of bytes — Frame.h:50-86. -/
structure BCol (β : Type) where
  vt : VTC
  label : String
  data : Buf β

/-- A frame with byte arrays as columns — Frame.h:45-86 (`labels2idxs` is left out: see `Frame` in `Rel/Frame.lean`). -/
structure BFrame (β : Type) where
  numRows : Nat
  cols : List (BCol β)

variable {β : Type}

def BFrame.labels (f : BFrame β) : List String := f.cols.map (·.label)
def BFrame.schema (f : BFrame β) : List VTC := f.cols.map (·.vt)

/-- How many bytes are copied for one element: a whole `std::string`, and 8 bytes for every other value type —
    FilterRow.h:133-146, ExtractRow.h:117-133. -/
def VTC.load (vt : VTC) : Nat := if vt = .str then vt.size else 8

/-- The inner loop over the columns: element `i` of each argument column is copied to position `k` of the corresponding
    result column — FilterRow.h:132-147, ExtractRow.h:116-134 (the pointers `argCols[c]`, `resCols[c]` have been advanced by
    `i` and `k` elements). -/
def copyCols : List (BCol β) → List (Buf β) → Nat → Nat → Res (List (Buf β))
  | c :: cs, d :: ds, i, k => do
    let d' ← c.data.copy (i * c.vt.size) d (k * c.vt.size) c.vt.load
    let ds' ← copyCols cs ds i k
    .ok (d' :: ds')
  | _, _, _, _ => .ok []

/-- The uninitialized column arrays of the result: `n` elements each — Frame.h:136-158; `junk c` is the content of the
    `c`-th. -/
def allocCols (cols : List (BCol β)) (n : Nat) (junk : Nat → Nat → β) : List (Buf β) :=
  cols.mapIdx fun c col => ⟨n * col.vt.size, junk c⟩

/-- The result frame made of the result arrays. -/
def resFrame (f : BFrame β) (n : Nat) (ds : List (Buf β)) : BFrame β :=
  ⟨n, (f.cols.zip ds).map fun p => ⟨p.1.vt, p.1.label, p.2⟩⟩

/-- One iteration of the row loop of `FilterRow` — FilterRow.h:130-150; the state is the number of rows copied so far and
    the result arrays. -/
def filterStep (f : BFrame β) (sel : DM Int) (r : Nat) (s : Nat × List (Buf β)) : Res (Nat × List (Buf β)) := do
  let v ← sel.mem.read (sel.h.start + r)
  if v ≠ 0 then do
    let ds ← copyCols f.cols s.2 r s.1
    .ok (s.1 + 1, ds)
  else .ok s

/-- `numRowsRes`, computed from how far the pointer of column 0 has moved — FilterRow.h:151-152. -/
def movedRows (f : BFrame β) (k : Nat) : Res Nat :=
  match f.cols with
  | [] => .error (.ub "resCols[0] of a frame without columns")
  | c :: _ => .ok (k * c.vt.size / c.vt.size)

/-- `FilterRow<Frame, Frame, VTSel>::apply` — FilterRow.h:96-163. -/
def filterRowB (junk : Nat → Nat → β) (f : BFrame β) (sel : DM Int) : Res (BFrame β) :=
  if sel.numRows ≠ f.numRows then .error (.throw "sel must have exactly one entry (row) for each row in arg")
  else if sel.numCols ≠ 1 then .error (.throw "sel must be a single-column matrix")
  else do
    let _ ← initL 0 f.labels []
    let s ← forLoop 0 f.numRows (0, allocCols f.cols (f.numRows + 7) junk) (filterStep f sel)
    let n ← movedRows f s.1
    .ok (resFrame f n s.2)

/-- `ExtractRow<Frame, Frame, VTSel>::apply` — ExtractRow.h:76-143. -/
def extractRowB (junk : Nat → Nat → β) (f : BFrame β) (sel : DM Int) : Res (BFrame β) :=
  if sel.numCols ≠ 1 then .error (.throw "selection must be given as column matrix")
  else do
    let _ ← initL 0 f.labels []
    let ds ← forLoop 0 sel.numRows (allocCols f.cols (sel.numRows + 7) junk) fun r ds => do
      let v ← sel.mem.read (sel.h.start + r)
      let p ← resolvePos v f.numRows
      copyCols f.cols ds p r
    .ok (resFrame f sel.numRows ds)

/-! ## Specification -/

/-- The bytes of one value, by the value type's name: an 8-bit integer has one byte, and so on. -/
def VTC.cellSize (vt : VTC) : Nat :=
  match vt with
  | .si8 => 8 / 8
  | .ui8 => 8 / 8
  | .si32 => 32 / 8
  | .ui32 => 32 / 8
  | .f32 => 32 / 8
  | .si64 => 64 / 8
  | .ui64 => 64 / 8
  | .f64 => 64 / 8
  | .str => 32
  | .fixedStr16 => 16

/-- The bytes of the cell in row `r` of column `c`, if there is such a cell. -/
def BFrame.cell (f : BFrame β) (c r : Nat) : Option (List β) :=
  if r < f.numRows then
    (f.cols[c]?).map fun col => (List.range col.vt.cellSize).map fun b => col.data.data (r * col.vt.cellSize + b)
  else none

theorem VTC.cellSize_eq (vt : VTC) : vt.cellSize = vt.size := by cases vt <;> rfl

theorem BFrame.cell_eq (f : BFrame β) (c r : Nat) : f.cell c r =
    if r < f.numRows then (f.cols[c]?).map fun col => (List.range col.vt.size).map fun b => col.data.data (r * col.vt.size + b)
    else none := by
  unfold BFrame.cell
  simp only [VTC.cellSize_eq]

/-- Every column array holds all rows of the frame. -/
def BFrame.WF (f : BFrame β) : Prop := ∀ c ∈ f.cols, f.numRows * c.vt.size ≤ c.data.size

/-- The array of column `c` has, after the beginning of element `i`, at least as many bytes as are loaded for one
    element. This is so for every element if the value type has 8 bytes or is `std::string`, and for every element if the
    array has 7 bytes of padding. -/
def BCol.Loadable (c : BCol β) (i : Nat) : Prop := i * c.vt.size + c.vt.load ≤ c.data.size

/-- `g` consists of the rows of `f` at the positions `q`, in this order: same labels and value types, and the cells of
    these rows. -/
def BFrame.IsRowsOf (g f : BFrame β) (q : List Nat) : Prop :=
  g.labels = f.labels ∧ g.schema = f.schema ∧ g.numRows = q.length ∧
  ∀ c k, k < q.length → g.cell c k = f.cell c (q.getD k 0)

end Verif.Rel
