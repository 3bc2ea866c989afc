/-
  Model of the meta data of files and of the kernels that read and write files by name:
  src/parser/metadata/MetaDataParser.{h,cpp}, JsonKeys.h, src/runtime/local/io/FileMetaData.h, src/runtime/local/kernels/{Read,Write}.h.
  A JSON text is represented by the value it denotes; that `nlohmann::json::parse` inverts `dump` is trusted (labels are valid UTF-8).
  The contents of data files are modelled in `Verif/Io` (CSV). Not modelled: .mtx, .parquet, .dbdf, .hdfs behind these kernels (the readers
  of .mtx and .dbdf have their own models), floating-point cells, `FixedStr16`. Properties C273-C281.
-/
import Verif.Io.CsvProps

namespace Verif.FileMeta
open Verif

/-! ### JSON -/

/-- A JSON value. `real t`: a number with fraction or exponent whose truncation towards zero is `t`. -/
inductive Json where
  | null
  | bool (b : Bool)
  | num (v : Int)
  | real (t : Int)
  | str (s : String)
  | arr (l : List Json)
  | obj (l : List (String × Json))

namespace Json

/-- `json::find` / `json::at`: only objects have keys. -/
def get? : Json → String → Option Json
  | .obj l, k => l.lookup k
  | _, _ => none

/-- `j.at(k)` -/
def atKey (j : Json) (k : String) : Res Json :=
  match j.get? k with
  | some v => .ok v
  | none => .error (.throw "json.exception")

/-- `get<size_t>()`: any number, converted by `static_cast`. -/
def getSize : Json → Res Nat
  | .num v => .ok (v % 2 ^ 64).toNat
  | .real t => if 0 ≤ t ∧ t < 2 ^ 64 then .ok t.toNat else .error (.ub "floating-point value out of range")
  | _ => .error (.throw "type must be number")

/-- `get<ssize_t>()` -/
def getSSize : Json → Res Int
  | .num v => .ok (Io.wrapS 64 v)
  | .real t => if -2 ^ 63 ≤ t ∧ t < 2 ^ 63 then .ok t else .error (.ub "floating-point value out of range")
  | _ => .error (.throw "type must be number")

/-- `get<std::string>()` -/
def getStr : Json → Res String
  | .str s => .ok s
  | _ => .error (.throw "type must be string")

/-- `get<bool>()` -/
def getBool : Json → Res Bool
  | .bool b => .ok b
  | _ => .error (.throw "type must be boolean")

/-- `get<std::vector<…>>()`: the elements. -/
def getArr : Json → Res (List Json)
  | .arr l => .ok l
  | _ => .error (.throw "type must be array")

end Json

/-! ### Value types -/

/-- ValueTypeCode.h:29-44. -/
inductive VTC where
  | si8 | si32 | si64 | ui8 | ui32 | ui64 | f32 | f64 | str | fixedStr16 | invalid
  deriving DecidableEq

/-- MetaDataParser.h:27-36: the table given to `NLOHMANN_JSON_SERIALIZE_ENUM`; the first entry is `{INVALID, nullptr}`. -/
def table : List (VTC × String) :=
  [(.si8, "si8"), (.si32, "si32"), (.si64, "si64"), (.ui8, "ui8"), (.ui32, "ui32"), (.ui64, "ui64"), (.f32, "f32"), (.f64, "f64"), (.str, "str")]

/-- `to_json` of the macro: the entry of the code, or else the first entry. -/
def vtcToJson (c : VTC) : Json :=
  match table.find? fun e => e.1 = c with
  | some e => .str e.2
  | none => .null

/-- `from_json` of the macro: the entry of the JSON value, or else the first entry. -/
def vtcFromJson : Json → VTC
  | .str s => match table.find? fun e => e.2 = s with
    | some e => e.1
    | none => .invalid
  | _ => .invalid

/-! ### Meta data -/

/-- FileMetaData.h:24-27. -/
structure Hdfs where
  isHDFS : Bool
  filename : String
  deriving DecidableEq

/-- FileMetaData.h:35-63. -/
structure Meta where
  numRows : Nat
  numCols : Nat
  single : Bool
  schema : List VTC
  labels : List String
  numNonZeros : Int
  hdfs : Hdfs
  deriving DecidableEq

/-- FileMetaData.h:55-62: the constructor for matrices. -/
def Meta.matrix (numRows numCols : Nat) (vt : VTC) (nnz : Int := -1) (hdfs : Hdfs := ⟨false, ""⟩) : Meta :=
  ⟨numRows, numCols, true, [vt], [], nnz, hdfs⟩

/-- FileMetaData.h:47-50: the constructor for frames. -/
def Meta.frame (numRows numCols : Nat) (schema : List VTC) (labels : List String) (nnz : Int := -1) (hdfs : Hdfs := ⟨false, ""⟩) : Meta :=
  ⟨numRows, numCols, false, schema, labels, nnz, hdfs⟩

/-- MetaDataParser.cpp:48-54: the HDFS part; `operator[]` on a missing key yields null. -/
def readHdfs (j : Json) : Res Hdfs :=
  match j.get? "hdfs" with
  | none => .ok ⟨false, ""⟩
  | some h => do
    let b ← ((h.get? "isHDFS").getD .null).getBool
    let n ← ((h.get? "HDFSFilename").getD .null).getStr
    .ok ⟨b, n⟩

/-- MetaDataParser.cpp:45-46. -/
def readNnz (j : Json) : Res Int :=
  match j.get? "numNonZeros" with
  | none => .ok (-1)
  | some v => v.getSSize

/-- MetaDataParser.h:43-55: `from_json` of `SchemaColumn` (both keys are mandatory). -/
def readColumn (j : Json) : Res (String × VTC) := do
  let l ← j.atKey "label"
  let l ← l.getStr
  let v ← j.atKey "valueType"
  .ok (l, vtcFromJson v)

/-- MetaDataParser.cpp:71-82: one column of the schema. -/
def columnType (dflt : VTC) (c : String × VTC) : Res (VTC × String) :=
  if c.2 = .invalid then
    if dflt = .invalid then .error (.throw "a column without value type was found while not providing a default value type")
    else .ok (dflt, c.1)
  else .ok (c.2, c.1)

/-- MetaDataParser.cpp:64-68: the default value type. -/
def defaultType (j : Json) : VTC :=
  match j.get? "valueType" with
  | some v => vtcFromJson v
  | none => .invalid

/-- MetaDataParser.cpp:55-61: the rest for matrices. -/
def readMatrixMeta (j : Json) (numRows numCols : Nat) (nnz : Int) (h : Hdfs) : Res Meta :=
  match j.get? "valueType" with
  | some v => .ok (.matrix numRows numCols (vtcFromJson v) nnz h)
  | none => .error (.throw "A (matrix) meta data JSON file should contain the \"valueType\" key.")

/-- MetaDataParser.cpp:62-84: the rest for frames. -/
def readFrameMeta (j s : Json) (numRows numCols : Nat) (nnz : Int) (h : Hdfs) : Res Meta := do
  let cols ← s.getArr
  let cols ← cols.mapM readColumn
  let cols ← cols.mapM (columnType (defaultType j))
  .ok (.frame numRows numCols (cols.map (·.1)) (cols.map (·.2)) nnz h)

/-- MetaDataParser.cpp:34-90: `readMetaDataFromString`. -/
def readMeta (j : Json) : Res Meta :=
  match j.get? "numRows", j.get? "numCols" with
  | some r, some c => do
    let numRows ← r.getSize
    let numCols ← c.getSize
    let nnz ← readNnz j
    let h ← readHdfs j
    match j.get? "schema" with
    | none => readMatrixMeta j numRows numCols nnz h
    | some s => readFrameMeta j s numRows numCols nnz h
  | _, _ => .error (.throw "A meta data JSON file should always contain \"numRows\" and \"numCols\" keys.")

/-- `std::filesystem::path(s).filename()`: what follows the last slash. -/
def fileName (s : List Char) : List Char := (s.reverse.takeWhile (· ≠ '/')).reverse

/-- MetaDataParser.cpp:102-110: the columns; `labels[i]` is not checked. -/
def writeColumns : List VTC → List String → Res (List Json)
  | [], _ => .ok []
  | _ :: _, [] => .error (.ub "out-of-bounds read")
  | v :: vs, l :: ls => do
    let r ← writeColumns vs ls
    .ok (.obj [("label", .str l), ("valueType", vtcToJson v)] :: r)

/-- MetaDataParser.cpp:97-113: value type or schema. -/
def writeTypes (m : Meta) : Res (List (String × Json)) :=
  if m.single then
    match m.schema with
    | [v] => .ok [("valueType", vtcToJson v)]
    | _ => .error (.throw "inappropriate meta data tried to be written to file")
  else do
    let cols ← writeColumns m.schema m.labels
    .ok [("schema", .arr cols)]

/-- MetaDataParser.cpp:115-116. -/
def writeNnz (m : Meta) : List (String × Json) := if m.numNonZeros ≠ -1 then [("numNonZeros", .num m.numNonZeros)] else []

/-- MetaDataParser.cpp:119-125. -/
def writeHdfs (m : Meta) : List (String × Json) :=
  if m.hdfs.isHDFS then
    [("hdfs", .obj [("isHDFS", .bool m.hdfs.isHDFS), ("HDFSFilename", .str (String.ofList ('/' :: fileName m.hdfs.filename.toList)))])]
  else []

/-- MetaDataParser.cpp:92-127: `writeMetaDataToString` (the order of keys in the text does not matter). -/
def writeMeta (m : Meta) : Res Json := do
  let ts ← writeTypes m
  .ok (.obj (("numRows", .num m.numRows) :: ("numCols", .num m.numCols) :: (ts ++ (writeNnz m ++ writeHdfs m))))

/-! ### Files by name -/

/-- The contents of a file: the text of a data file, or a JSON document. -/
inductive Content where
  | text (s : List Char)
  | json (j : Json)

/-- A file system: the files that exist. -/
abbrev FS := List Char → Option Content

def FS.set (fs : FS) (name : List Char) (c : Content) : FS := fun n => if n = name then some c else fs n

/-- `std::filesystem::path(s).extension()`: from the last dot of the file name, unless that is its first character. -/
def extension (s : List Char) : List Char :=
  let f := fileName s
  if f = ['.', '.'] then []
  else
    let e := (f.reverse.takeWhile (· ≠ '.')).reverse
    if e.length + 1 < f.length then '.' :: e else []

/-- The name of the meta data file. -/
def metaName (s : List Char) : List Char := s ++ ".meta".toList

/-- MetaDataParser.cpp:24-33: `readMetaData`. A file that is not a JSON document makes the parser throw. -/
def readMetaFile (fs : FS) (name : List Char) : Res Meta :=
  match fs (metaName name) with
  | none => .error (.throw "Could not open file for reading meta data.")
  | some (.json j) => readMeta j
  | some (.text _) => .error (.throw "parse error")

/-- MetaDataParser.cpp:128-138: `writeMetaData`: the file is opened (and thereby emptied) before the text is made. Files can always be
opened. Result: the files afterwards, and the outcome. -/
def writeMetaFile (fs : FS) (name : List Char) (m : Meta) : FS × Res Unit :=
  match writeMeta m with
  | .ok j => (fs.set (metaName name) (.json j), .ok ())
  | .error e => (fs.set (metaName name) (.text []), .error e)

/-- `openFile` for reading. -/
def openText (fs : FS) (name : List Char) : Res (List Char) :=
  match fs name with
  | some (.text s) => .ok s
  | some (.json _) => .error (.throw "not a data file")
  | none => .error (.throw "could not open file")

/-- The type code of an integer type. -/
def codeOfInt : Io.IntTy → VTC
  | .si8 => .si8 | .si32 => .si32 | .si64 => .si64 | .ui8 => .ui8 | .ui32 => .ui32 | .ui64 => .ui64

def codeOf : Io.ColTy → VTC
  | .int t => codeOfInt t
  | .str => .str

def colTy? : VTC → Option Io.ColTy
  | .si8 => some (.int .si8) | .si32 => some (.int .si32) | .si64 => some (.int .si64)
  | .ui8 => some (.int .ui8) | .ui32 => some (.int .ui32) | .ui64 => some (.int .ui64)
  | .str => some .str
  | _ => none

/-- Write.h: the `.csv` branches (62-68, 103-114): the data file is opened (and thereby emptied), then the meta data are written, then the
text. Simplification: if making the text fails, what has been written before is not kept. -/
def writeCsvFile (fs : FS) (name : List Char) (m : Meta) (text : Res (List Char)) : FS × Res Unit :=
  match writeMetaFile (fs.set name (.text [])) name m with
  | (fs, .error e) => (fs, .error e)
  | (fs, .ok ()) => match text with
    | .ok s => (fs.set name (.text s), .ok ())
    | .error e => (fs, .error e)

/-- Write.h:58-92: `write` of a dense matrix of integers; only the `.csv` branch. -/
def writeMatrix (t : Io.IntTy) (fs : FS) (m : Io.Mat Int) (name : List Char) : FS × Res Unit :=
  if extension name = ".csv".toList then
    writeCsvFile fs name (.matrix m.numRows m.numCols (codeOfInt t)) (Io.writeInts t m)
  else (fs, .error (.throw "file extension not supported"))

/-- Read.h:61-103: `read` of a dense matrix of integers; only the `.csv` branch. -/
def readMatrix (t : Io.IntTy) (fs : FS) (name : List Char) (junk : Nat → Int) : Res (Io.Mat Int) := do
  let fmd ← readMetaFile fs name
  if extension name = ".csv".toList then do
    let s ← openText fs name
    Io.readInts t (Io.File.open s) fmd.numRows fmd.numCols ',' junk
  else .error (.throw "file extension not supported")

/-- A frame with its labels. -/
structure LFrame where
  fr : Io.Frame
  labels : List String

/-- Write.h:99-118: `write` of a frame. -/
def writeFrame (fs : FS) (f : LFrame) (name : List Char) : FS × Res Unit :=
  if extension name = ".csv".toList then
    writeCsvFile fs name (.frame f.fr.numRows f.fr.numCols ((List.range f.fr.numCols).map fun c => codeOf (f.fr.types c)) f.labels)
      (Io.writeFrame f.fr)
  else (fs, .error (.throw "file extension not supported"))

/-- Frame.h: `getDefaultLabel`. -/
def defaultLabel (i : Nat) : String := "col_" ++ String.ofList (Io.digits i)

/-- Read.h:147-154: the schema array handed to the frame. -/
def schemaFor (m : Meta) : Res (List VTC) :=
  if m.single then
    match m.schema with
    | v :: _ => .ok (List.replicate m.numCols v)
    | [] => if m.numCols = 0 then .ok [] else .error (.ub "out-of-bounds read")
  else .ok m.schema

/-- Frame.h:139-163: the constructor, as far as types and labels are concerned: `numCols` elements of both arrays are read, then
`initLabels2Idxs` (Frame.h:91-99) rejects duplicate labels. Labels `none`: null pointer. -/
def createFrame (numCols : Nat) (schema : List VTC) (labels : Option (List String)) : Res (List VTC × List String) :=
  if schema.length < numCols then .error (.ub "out-of-bounds read of the schema")
  else match labels with
    | none =>
      if .invalid ∈ schema.take numCols then .error (.throw "unknown value type code")
      else .ok (schema.take numCols, (List.range numCols).map defaultLabel)
    | some ls =>
      if ls.length < numCols then .error (.ub "out-of-bounds read of the labels")
      else if .invalid ∈ schema.take numCols then .error (.throw "unknown value type code")
      else if (ls.take numCols).Nodup then .ok (schema.take numCols, ls.take numCols)
      else .error (.throw "a frame's column labels must be unique")

/-- Read.h:156-160: an empty label vector means default labels. -/
def labelsFor (m : Meta) : Option (List String) := if m.labels = [] then none else some m.labels

/-- The cells of a frame from a CSV file. Simplification: schemas with types whose cells are not modelled throw. -/
def readCells (s : List Char) (m : Meta) (schema : List VTC) (junk : Nat → Nat → Io.Val) : Res Io.Frame :=
  match schema.mapM colTy? with
  | none => .error (.throw "not modelled")
  | some tys => Io.readFrame (Io.File.open s) m.numRows m.numCols (fun j => tys.getD j .str) ',' junk

/-- Read.h:141-173: `read` of a frame. -/
def readFrame (fs : FS) (name : List Char) (junk : Nat → Nat → Io.Val) : Res LFrame := do
  let fmd ← readMetaFile fs name
  if extension name = ".csv".toList then do
    let schema ← schemaFor fmd
    let (tys, ls) ← createFrame fmd.numCols schema (labelsFor fmd)
    let s ← openText fs name
    let fr ← readCells s fmd tys junk
    .ok ⟨fr, ls⟩
  else .error (.throw "file extension not supported")

/-! ### Compile time -/

/-- ReadOp::inferShape — src/ir/daphneir/DaphneInferShapeOpInterface.cpp:241-249, with a constant file name: the compiler reads the meta
data file. -/
def inferReadShape (fs : FS) (name : List Char) : Res (Nat × Nat) := do
  let fmd ← readMetaFile fs name
  .ok (fmd.numRows, fmd.numCols)

/-- ReadOp::inferTypes for a frame — DaphneInferTypesOpInterface.cpp:477-490. -/
def inferReadFrameTypes (fs : FS) (name : List Char) : Res (List VTC) := do
  let fmd ← readMetaFile fs name
  if fmd.single then
    match fmd.schema with
    | v :: _ => .ok (List.replicate fmd.numCols v)
    | [] => .error (.ub "out-of-bounds read")
  else .ok fmd.schema

/-- ReadOp::inferFrameLabels — DaphneInferFrameLabelsOpInterface.cpp:51-67. -/
def inferReadLabels (fs : FS) (name : List Char) : Res (Option (List String)) := do
  let fmd ← readMetaFile fs name
  .ok (labelsFor fmd)

end Verif.FileMeta
