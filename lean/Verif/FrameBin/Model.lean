/-
  Model of binary files of frames: the frame parts of src/runtime/local/io/{WriteDaphne,ReadDaphne}.h, with DaphneFile.h.
  A file is the list of its bytes. The cells of a column are byte strings, as the code copies them with `f.write`/`f.read`.
  Reading beyond the end of the file leaves the destination uninitialized (the stream state is never checked); using it is `ub`.
  Properties C283-C286.
-/
import Verif.Ser.Lemmas
import Verif.FileMeta.Model

namespace Verif.FrameBin
open Verif Verif.Ser
open Verif.FileMeta (VTC defaultLabel)

/-- ValueTypeCode.h:29-44: the number of a code. -/
def num : VTC → Nat
  | .si8 => 0 | .si32 => 1 | .si64 => 2 | .ui8 => 3 | .ui32 => 4 | .ui64 => 5 | .f32 => 6 | .f64 => 7 | .str => 8 | .fixedStr16 => 9 | .invalid => 10

/-- The code with the given number; numbers without a code are treated by the `default` branches like `INVALID`. -/
def ofNum : Nat → VTC
  | 0 => .si8 | 1 => .si32 | 2 => .si64 | 3 => .ui8 | 4 => .ui32 | 5 => .ui64 | 6 => .f32 | 7 => .f64 | 8 => .str | 9 => .fixedStr16 | _ => .invalid

/-- The branches of the switches, WriteDaphne.h:148-175 and ReadDaphne.h:139-183: the size of a cell, if there is a branch. -/
def cellSize : VTC → Option Nat
  | .si8 => some 1 | .si32 => some 4 | .si64 => some 8 | .ui8 => some 1 | .ui32 => some 4 | .ui64 => some 8 | .f32 => some 4 | .f64 => some 8
  | _ => none

/-- Frame.h: dimensions, schema, labels and columns; the bytes of each cell. -/
structure Frame where
  numRows : Nat
  numCols : Nat
  schema : List VTC
  labels : List String
  cols : Nat → Buf (List Byte)

/-- The memory of the `labels` array: `numCols` objects of 32 bytes (`sizeof(std::string)`). What is in there (pointers, sizes, short strings)
is left open. -/
abbrev LabelMem := Buf Byte

/-- WriteDaphne.h:123-125. -/
def schemaBytes (schema : List VTC) : List Byte := schema.flatMap fun v => le 1 (num v)

/-- WriteDaphne.h:128: `uint16_t len = labels[c].length()`. -/
def labelLen (f : Frame) (c : Nat) : Nat := (f.labels.getD c "").utf8ByteSize % 2 ^ 16

/-- `f.write((const char *)&(labels[c]), len)`: `len` bytes of memory from the start of the string object. -/
def labelObject (mem : LabelMem) (c len : Nat) : Res (List Byte) :=
  if 32 * c + len ≤ mem.size then .ok (bytesAt mem (32 * c) len) else .error (.ub "out-of-bounds read")

/-- WriteDaphne.h:127-131. -/
def writeLabels (f : Frame) (mem : LabelMem) (out : List Byte) : Res (List Byte) :=
  forLoop 0 f.numCols out fun c out => do
    let b ← labelObject mem c (labelLen f c)
    .ok (out ++ le 2 (labelLen f c) ++ b)

/-- WriteDaphne.h:148-175: one cell. -/
def writeCell (f : Frame) (r c : Nat) : Res (List Byte) :=
  match cellSize (f.schema.getD c .invalid) with
  | none => .error (.throw "WriteDaphne::apply: unknown value type code")
  | some _ => (f.cols c).read r

/-- WriteDaphne.h:146-177. -/
def writeCells (f : Frame) (out : List Byte) : Res (List Byte) :=
  forLoop 0 f.numRows out fun r out =>
    forLoop 0 f.numCols out fun c out => do
      let b ← writeCell f r c
      .ok (out ++ b)

/-- WriteDaphne.h:105-181. -/
def write (f : Frame) (mem : LabelMem) : Res (List Byte) := do
  let out ← writeLabels f mem (dfHeader 3 f.numRows f.numCols ++ schemaBytes f.schema)
  writeCells f (out ++ dfBody)

/-- `f.read(ptr, n)` -/
def take (n : Nat) (rest : List Byte) : Res (List Byte × List Byte) :=
  if n ≤ rest.length then .ok (rest.take n, rest.drop n) else .error (.ub "uninitialized value")

/-- ReadDaphne.h:110-113. -/
def readSchema (n : Nat) (rest : List Byte) : Res (List VTC × List Byte) :=
  forLoop 0 n ([], rest) fun _ (s, rest) => do
    let (b, rest) ← take 1 rest
    .ok (s ++ [ofNum (unle b)], rest)

/-- ReadDaphne.h:115-120: the bytes are written to the string objects. -/
def readLabels (n : Nat) (rest : List Byte) : Res (List Byte) :=
  forLoop 0 n rest fun c rest => do
    let (l, rest) ← take 2 rest
    let (_, rest) ← take (unle l) rest
    if 32 * c + unle l ≤ 32 * n then .ok rest else .error (.ub "out-of-bounds write")

/-- ReadDaphne.h:139-183: one cell. -/
def readCell (v : VTC) (rest : List Byte) : Res (List Byte × List Byte) :=
  match cellSize v with
  | none => .error (.throw "ReadDaphne::apply: unknown value type code")
  | some n => take n rest

/-- ReadDaphne.h:136-185. -/
def readCells (schema : List VTC) (numRows numCols : Nat) (rest : List Byte) (cols : Nat → Buf (List Byte)) : Res (List Byte × (Nat → Buf (List Byte))) :=
  forLoop 0 numRows (rest, cols) fun r st =>
    forLoop 0 numCols st fun c (rest, cols) => do
      let (b, rest) ← readCell (schema.getD c .invalid) rest
      let col ← (cols c).write r b
      .ok (rest, fun j => if j = c then col else cols j)

/-- ReadDaphne.h:127-129: `DataObjectFactory::create<Frame>(nbrows, nbcols, schema, nullptr, false)`: default labels, contents `junk`. -/
def create (numRows numCols : Nat) (schema : List VTC) (junk : Nat → Nat → List Byte) : Res Frame :=
  if .invalid ∈ schema then .error (.throw "ValueTypeUtils::sizeOf: unknown value type code")
  else .ok ⟨numRows, numCols, schema, (List.range numCols).map defaultLabel, fun c => ⟨numRows, junk c⟩⟩

/-- ReadDaphne.h:98-194 with `res == nullptr`; `none`: `res` stays a null pointer. -/
def read (file : List Byte) (junk : Nat → Nat → List Byte) : Res (Option Frame) := do
  let (h, rest) ← take 18 file
  if unle ((h.drop 1).take 1) = 3 then do
    let numRows := unle ((h.drop 2).take 8)
    let numCols := unle ((h.drop 10).take 8)
    let (schema, rest) ← readSchema numCols rest
    let rest ← readLabels numCols rest
    let (_, rest) ← take 16 rest
    let f ← create numRows numCols schema junk
    let (_, cols) ← readCells schema numRows numCols rest f.cols
    .ok (some { f with cols := cols })
  else .ok none

end Verif.FrameBin
