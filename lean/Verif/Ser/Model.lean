/-
  Model of binary (de)serialization: src/runtime/local/io/DaphneSerializer.h, DaphneFile.h, WriteDaphne.h, ReadDaphne.h.
  Memory is modelled as bytes, as the code itself accesses it (`reinterpret_cast<char *>`). `size_t` is 8 bytes, little endian.
  Not modelled: frames (the serializer throws "not implemented"), the type dispatch over `Structure`.
-/
import Verif.Basic.Copy

namespace Verif.Ser
open Verif

abbrev Byte := Fin 256

/-- The `k` bytes of an unsigned number in memory. -/
def le : Nat → Nat → List Byte
  | 0, _ => []
  | k + 1, n => ⟨n % 256, Nat.mod_lt _ (by decide)⟩ :: le k (n / 256)

/-- The number stored in bytes. -/
def unle : List Byte → Nat
  | [] => 0
  | b :: bs => b.val + 256 * unle bs

/-- Subtraction of `size_t`. -/
def sub64 (a b : Nat) : Nat := if b ≤ a then a - b else a + 2 ^ 64 - b

/-- `n` bytes from position `i`. -/
def bytesAt (b : Buf Byte) (i n : Nat) : List Byte := (List.range n).map fun k => b.data (i + k)

/-- Read a number of `n` bytes at byte position `i`. -/
def readNum (b : Buf Byte) (i n : Nat) : Res Nat :=
  if i + n ≤ b.size then .ok (unle (bytesAt b i n)) else .error (.ub "out-of-bounds read")

/-- Element `i` of a `size_t` array. -/
def u64 (b : Buf Byte) (i : Nat) : Nat := unle (bytesAt b (8 * i) 8)

/-- `arr[i]` for a `size_t` array. -/
def readU64 (b : Buf Byte) (i : Nat) : Res Nat := readNum b (8 * i) 8

/-- `std::copy` of the given bytes to `buffer + i`. -/
def putBytes (buf : Buf Byte) (i : Nat) (bs : List Byte) : Res (Buf Byte) := (Buf.ofList bs).copy 0 buf i bs.length

/-- The header pieces are copied one after the other, the first one to `buffer + i`. -/
def putAll (buf : Buf Byte) (i : Nat) : List (List Byte) → Res (Buf Byte)
  | [] => .ok buf
  | p :: ps => do
    let buf ← putBytes buf i p
    putAll buf (i + p.length) ps

/-- DaphneFile.h:19-24: `DF_header` (packed). -/
def dfHeader (dt rows cols : Nat) : List Byte := le 1 1 ++ (le 1 dt ++ (le 8 rows ++ le 8 cols))

/-- DaphneFile.h:28-31: `DF_body` with `rx = cx = 0`. -/
def dfBody : List Byte := le 8 0 ++ le 8 0

/-- DaphneFile.h:33-37: `DF_body_block`; the conversion to `uint32_t` keeps the lower 4 bytes. -/
def dfBlock (rows cols bt : Nat) : List Byte := le 4 rows ++ (le 4 cols ++ le 1 bt)

/-- A value type: its code and its size in bytes. -/
structure VTy where
  code : Nat
  size : Nat

/-- DaphneSerializer.h:41: `DF_Dtype`. -/
def dfDtype (buf : Buf Byte) (base : Nat) : Res Nat := readNum buf (base + 1) 1

/-- DaphneSerializer.h:47-50: `DF_Vtype`. -/
def dfVtype (buf : Buf Byte) (base : Nat) : Res Nat := readNum buf (base + 18) 1

/-! ### Dense matrices -/

/-- DenseMatrix.h: dimensions, row skip and the bytes of the values array. -/
structure Dense where
  numRows : Nat
  numCols : Nat
  rowSkip : Nat
  vals : Buf Byte

namespace Dense

/-- DaphneSerializer.h:93-105. -/
def length (t : VTy) (m : Dense) : Nat := 18 + 1 + 16 + 9 + 1 + m.numRows * m.numCols * t.size

/-- DaphneSerializer.h:115-167. -/
def headerBytes (t : VTy) (m : Dense) : List (List Byte) :=
  [dfHeader 1 m.numRows m.numCols, le 1 t.code, dfBody, dfBlock m.numRows m.numCols 1, le 1 t.code]

/-- DaphneSerializer.h:115-167: number of bytes written and the buffer; `base` is the position of `buffer` in the allocation. -/
def serializeHeader (t : VTy) (m : Dense) (buf : Buf Byte) (base : Nat) : Res (Nat × Buf Byte) := do
  let buf ← putAll buf base (m.headerBytes t)
  .ok (18 + 1 + 16 + 9 + 1, buf)

/-- DaphneSerializer.h:199-202. -/
def headerIfFirst (t : VTy) (m : Dense) (buf : Buf Byte) (base from' : Nat) : Res (Nat × Buf Byte) :=
  if from' = 0 then m.serializeHeader t buf base else .ok (0, buf)

/-- DaphneSerializer.h:207-219: `bytesToCopy`. -/
def bytesToCopy (valuesSize idx chunkSize from' bufferIdx : Nat) : Nat :=
  if from' < idx then
    if chunkSize > (idx - from') + valuesSize then valuesSize else sub64 chunkSize bufferIdx
  else
    if from' + chunkSize > valuesSize + idx then sub64 (valuesSize + idx) from' else sub64 chunkSize bufferIdx

/-- DaphneSerializer.h:182-228: `serialize(arg, buffer, chunkSize, serializeFromByte)`: bytes written and the buffer. -/
def serialize (t : VTy) (m : Dense) (buf : Buf Byte) (base chunkSize from' : Nat) : Res (Nat × Buf Byte) :=
  let chunkSize := if chunkSize ≠ 0 then chunkSize else m.length t
  if from' = 0 ∧ chunkSize < 45 then .error (.throw "Minimum starting chunk size")
  else do
    let (bufferIdx, buf) ← m.headerIfFirst t buf base from'
    let n := bytesToCopy (m.numRows * m.numCols * t.size) 45 chunkSize from' bufferIdx
    let start := if from' > 45 then from' - 45 else 0
    let buf ← m.vals.copy start buf (base + bufferIdx) n
    .ok (bufferIdx + n, buf)

/-- DaphneSerializer.h:241-248: overload that allocates the buffer if the given pointer is null. -/
def serializeAlloc (t : VTy) (m : Dense) (chunkSize from' : Nat) : Res (Nat × Buf Byte) :=
  let chunkSize := if chunkSize ≠ 0 then chunkSize else m.length t
  m.serialize t ⟨chunkSize, fun _ => 0⟩ 0 chunkSize from'

/-- DataObjectFactory::create<DenseMatrix<VT>>(rows, cols, false): contents `junk`. -/
def create (t : VTy) (rows cols : Nat) (junk : Nat → Byte) : Dense := ⟨rows, cols, cols, ⟨rows * cols * t.size, junk⟩⟩

/-- DaphneSerializer.h:276-309. -/
def deserializeHeader (t : VTy) (buf : Buf Byte) (base : Nat) (m : Option Dense) (junk : Nat → Byte) : Res Dense := do
  let dt ← dfDtype buf base
  if dt ≠ 1 then .error (.throw "DT mismatch") else do
  let vt ← dfVtype buf base
  if vt ≠ t.code then .error (.throw "VT mismatch") else do
  let rows ← readNum buf (base + 35) 4
  let cols ← readNum buf (base + 39) 4
  let bt ← readNum buf (base + 43) 1
  if bt = 0 then .ok (create t 0 0 junk)
  else if bt = 1 then
    match m with
    | none => .ok (create t rows cols junk)
    | some m => .ok m
  else .error (.throw "unknown body type code")

/-- DaphneSerializer.h:340-343: the matrix to write to, and the number of bytes of the buffer used. -/
def targetIfFirst (t : VTy) (buf : Buf Byte) (base : Nat) (m : Option Dense) (from' : Nat) (junk : Nat → Byte) : Res (Nat × Dense) :=
  if from' = 0 then do
    let m ← deserializeHeader t buf base m junk
    .ok (45, m)
  else match m with
    | some m => .ok (0, m)
    | none => .error (.ub "null pointer")

/-- DaphneSerializer.h:328-363: `deserialize(buf, chunkSize, matrix, deserializeFromByte)`. -/
def deserialize (t : VTy) (buf : Buf Byte) (base chunkSize : Nat) (m : Option Dense) (from' : Nat) (junk : Nat → Byte) : Res Dense :=
  if from' = 0 ∧ chunkSize < 45 then .error (.throw "Minimum starting chunk size")
  else do
    let (bufIdx, m) ← targetIfFirst t buf base m from' junk
    let valuesOffset := if from' = 0 then 0 else sub64 from' 45
    let n := bytesToCopy (m.numRows * m.numCols * t.size) 45 chunkSize from' bufIdx
    let vals ← buf.copy (base + bufIdx) m.vals valuesOffset n
    .ok { m with vals := vals }

end Dense

/-! ### Sparse matrices -/

/-- CSRMatrix.h:44-80. A row view shares the arrays of the original and starts at row `offsBase` of the row offsets array. -/
structure Csr where
  numRows : Nat
  numCols : Nat
  maxNnz : Nat
  numRowsAllocated : Nat
  before : Bool
  offsBase : Nat
  offs : Buf Byte
  colIdxs : Buf Byte
  vals : Buf Byte

namespace Csr

/-- CSRMatrix.h:339. -/
def isView (m : Csr) : Bool := decide (m.numRowsAllocated > m.numRows) || m.before

/-- `rowOffsets.get()[r]`. -/
def rowOffset (m : Csr) (r : Nat) : Res Nat := readU64 m.offs (m.offsBase + r)

/-- CSRMatrix.h: `getNumNonZeros(r)`. -/
def numNonZerosRow (m : Csr) (r : Nat) : Res Nat := do
  let hi ← m.rowOffset (r + 1)
  let lo ← m.rowOffset r
  .ok (sub64 hi lo)

/-- DaphneSerializer.h:524-527, 564-567: sum of the numbers of non-zeros of the rows. -/
def countNonZeros (m : Csr) : Res Nat :=
  forLoop 0 m.numRows 0 fun r n => do
    let k ← m.numNonZerosRow r
    .ok ((n + k) % 2 ^ 64)

/-- DaphneSerializer.h:455-463. -/
def nzbForLength (m : Csr) : Res Nat := if m.isView then m.countNonZeros else .ok m.maxNnz

/-- DaphneSerializer.h:434-469. -/
def length (t : VTy) (m : Csr) : Res Nat := do
  let nzb ← m.nzbForLength
  .ok (18 + 1 + 16 + 9 + 1 + 8 + (m.numRows + 1) * 8 + nzb * 8 + nzb * t.size)

/-- DaphneSerializer.h:478-532. -/
def headerBytes (t : VTy) (m : Csr) (nzb : Nat) : List (List Byte) :=
  [dfHeader 2 m.numRows m.numCols, le 1 t.code, dfBody, dfBlock m.numRows m.numCols 2, le 1 t.code, le 8 nzb]

/-- DaphneSerializer.h:478-532. -/
def serializeHeader (t : VTy) (m : Csr) (buf : Buf Byte) (base : Nat) : Res (Nat × Buf Byte) := do
  let nzb ← m.countNonZeros
  let buf ← putAll buf base (m.headerBytes t nzb)
  .ok (18 + 1 + 16 + 9 + 1 + 8, buf)

/-- DaphneSerializer.h:558-561. -/
def headerIfFirst (t : VTy) (m : Csr) (buf : Buf Byte) (base from' : Nat) : Res (Nat × Buf Byte) :=
  if from' = 0 then m.serializeHeader t buf base else .ok (0, buf)

/-- DaphneSerializer.h:572-578: `new_rows`, the row offsets relative to the first one. -/
def newRows (m : Csr) : Res (Buf Byte) := do
  let d ← m.rowOffset 0
  forLoop 0 (m.numRows + 1) ⟨8 * (m.numRows + 1), fun _ => 0⟩ fun r nr => do
    let v ← m.rowOffset r
    putBytes nr (8 * r) (le 8 (sub64 v d))

/-- DaphneSerializer.h:571-593, 600-614, 622-637: copying the part of one array (`src` from byte `srcBase`) that belongs into this
chunk. The three places are textually the same. Result: bytes written to the buffer so far, and the buffer. -/
def serSection (src : Buf Byte) (srcBase arraySize : Nat) (buf : Buf Byte) (base chunkSize from' idx bufferIdx : Nat) :
    Res (Nat × Buf Byte) :=
  if from' < idx + arraySize then do
    let start := if from' > idx then from' - idx else 0
    let n :=
      if from' < idx then
        if sub64 chunkSize bufferIdx > arraySize then arraySize else sub64 chunkSize bufferIdx
      else
        if chunkSize > sub64 (arraySize + idx) from' then sub64 (arraySize + idx) from' else sub64 chunkSize bufferIdx
    let buf ← src.copy (srcBase + start) buf (base + bufferIdx) n
    .ok (bufferIdx + n, buf)
  else .ok (bufferIdx, buf)

/-- DaphneSerializer.h:545-640. -/
def serialize (t : VTy) (m : Csr) (buf : Buf Byte) (base chunkSize from' : Nat) : Res (Nat × Buf Byte) := do
  let len ← m.length t
  let chunkSize := if chunkSize ≠ 0 then chunkSize else len
  if chunkSize < 53 then .error (.throw "Minimum chunk size") else do
  let (bufferIdx, buf) ← m.headerIfFirst t buf base from'
  let nzb ← m.countNonZeros
  let nr ← m.newRows
  let (bufferIdx, buf) ← serSection nr 0 ((m.numRows + 1) * 8) buf base chunkSize from' 53 bufferIdx
  if chunkSize ≤ bufferIdx then .ok (bufferIdx, buf) else do
  let idx := 53 + (m.numRows + 1) * 8
  let d ← m.rowOffset 0
  let (bufferIdx, buf) ← serSection m.colIdxs (8 * d) (nzb * 8) buf base chunkSize from' idx bufferIdx
  if chunkSize ≤ bufferIdx then .ok (bufferIdx, buf) else do
  let idx := idx + nzb * 8
  serSection m.vals (t.size * d) (nzb * t.size) buf base chunkSize from' idx bufferIdx

/-- DaphneSerializer.h:652-659: overload that allocates the buffer if the given pointer is null: `new char[sizeof(chunkSize)]`. -/
def serializeAlloc (t : VTy) (m : Csr) (chunkSize from' : Nat) : Res (Nat × Buf Byte) := do
  let len ← m.length t
  let chunkSize := if chunkSize = 0 then len else chunkSize
  m.serialize t ⟨8, fun _ => 0⟩ 0 chunkSize from'

/-- DataObjectFactory::create<CSRMatrix<VT>>(rows, cols, nzb, true). -/
def create (t : VTy) (rows cols nzb : Nat) : Csr :=
  ⟨rows, cols, nzb, rows, false, 0, ⟨8 * (rows + 1), fun _ => 0⟩, ⟨8 * nzb, fun _ => 0⟩, ⟨t.size * nzb, fun _ => 0⟩⟩

/-- DaphneSerializer.h:692-734; `none` where the code returns the given null pointer. -/
def deserializeHeader (t : VTy) (buf : Buf Byte) (base : Nat) (m : Option Csr) : Res (Option Csr) := do
  let dt ← dfDtype buf base
  if dt ≠ 2 then .error (.throw "DT mismatch") else do
  let vt ← dfVtype buf base
  if vt ≠ t.code then .error (.throw "VT mismatch") else do
  let rows ← readNum buf (base + 35) 4
  let cols ← readNum buf (base + 39) 4
  let bt ← readNum buf (base + 43) 1
  if bt = 0 then .ok (some (create t 0 0 0))
  else if bt = 2 then do
    let nzb ← readNum buf (base + 45) 8
    match m with
    | none => .ok (some (create t rows cols nzb))
    | some m => .ok (some m)
  else .ok m

/-- DaphneSerializer.h:773-776. -/
def targetIfFirst (t : VTy) (buf : Buf Byte) (base : Nat) (m : Option Csr) (from' : Nat) : Res (Nat × Csr) :=
  if from' = 0 then do
    let m ← deserializeHeader t buf base m
    match m with
    | some m => .ok (53, m)
    | none => .error (.ub "null pointer")
  else match m with
    | some m => .ok (0, m)
    | none => .error (.ub "null pointer")

/-- DaphneSerializer.h:785-797, 805-819, 825-839: copying the part of this chunk that belongs to one array. `off` is the offset in the
array. Result: bytes of the buffer used so far, and the array. -/
def desSection (dst : Buf Byte) (arraySize off : Nat) (buf : Buf Byte) (base chunkSize from' idx bufferIdx : Nat) : Res (Nat × Buf Byte) :=
  if from' < idx + arraySize then do
    let n :=
      if from' < idx then
        if from' + chunkSize > idx + arraySize then arraySize else sub64 chunkSize bufferIdx
      else
        if from' + chunkSize > idx + arraySize then sub64 (arraySize + idx) from' else sub64 chunkSize bufferIdx
    let dst ← buf.copy (base + bufferIdx) dst off n
    .ok (bufferIdx + n, dst)
  else .ok (bufferIdx, dst)

/-- DaphneSerializer.h:761-843. -/
def deserialize (t : VTy) (buf : Buf Byte) (base chunkSize : Nat) (m : Option Csr) (from' : Nat) : Res Csr :=
  if from' = 0 ∧ chunkSize < 53 then .error (.throw "Minimum starting chunk size")
  else do
    let (bufferIdx, m) ← targetIfFirst t buf base m from'
    let off := if from' = 0 then 0 else sub64 from' 53
    let (bufferIdx, offs) ← desSection m.offs (8 * (m.numRows + 1)) off buf base chunkSize from' 53 bufferIdx
    let m := { m with offs := offs }
    let idx := 53 + 8 * (m.numRows + 1)
    if chunkSize ≤ bufferIdx then .ok m else do
    let nzb := m.maxNnz
    let off := if from' < idx then 0 else sub64 from' idx
    let (bufferIdx, colIdxs) ← desSection m.colIdxs (8 * nzb) off buf base chunkSize from' idx bufferIdx
    let m := { m with colIdxs := colIdxs }
    let idx := idx + 8 * nzb
    if chunkSize ≤ bufferIdx then .ok m else do
    let off := if from' < idx then 0 else sub64 from' idx
    let (_, vals) ← desSection m.vals (t.size * nzb) off buf base chunkSize from' idx bufferIdx
    .ok { m with vals := vals }

end Csr

/-! ### Chunked (de)serialization, generic in the object type like the C++ templates -/

/-- What `DaphneSerializer<DT>` provides to the chunk classes. -/
structure Codec (O : Type) where
  headerSize : Nat
  length : O → Res Nat
  serializeHeader : O → Buf Byte → Nat → Res (Nat × Buf Byte)
  serialize : O → Buf Byte → Nat → Nat → Nat → Res (Nat × Buf Byte)
  deserializeHeader : Buf Byte → Nat → Option O → Res (Option O)
  deserialize : Buf Byte → Nat → Nat → Option O → Nat → Res O

def Dense.codec (t : VTy) (junk : Nat → Byte) : Codec Dense where
  headerSize := 45
  length m := .ok (m.length t)
  serializeHeader m buf base := m.serializeHeader t buf base
  serialize m buf base cs from' := m.serialize t buf base cs from'
  deserializeHeader buf base m := do
    let m ← Dense.deserializeHeader t buf base m junk
    .ok (some m)
  deserialize buf base cs m from' := Dense.deserialize t buf base cs m from' junk

def Csr.codec (t : VTy) : Codec Csr where
  headerSize := 53
  length m := m.length t
  serializeHeader m buf base := m.serializeHeader t buf base
  serialize m buf base cs from' := m.serialize t buf base cs from'
  deserializeHeader buf base m := Csr.deserializeHeader t buf base m
  deserialize buf base cs m from' := Csr.deserialize t buf base cs m from'

namespace Codec
variable {O : Type}

/-- DaphneSerializer.h:1680, 1783: `std::ceil(length / (double) chunkSize)`. Simplification: exact; the floating-point quotient can
only be off for lengths of 2^53 bytes and more. -/
def numChunks (len chunkSize : Nat) : Nat := (len + chunkSize - 1) / chunkSize

/-- DaphneSerializer.h:1648-1654: loop `for (it = begin(); it != end(); ++it)` from the point where the iterator holds chunk
`(n, buf)`; `k` more iterations, `done` bytes serialized so far. Result: the chunks in order. -/
def emit (C : Codec O) (o : O) (chunkSize : Nat) : Nat → Nat → Nat × Buf Byte → Res (List (Nat × Buf Byte))
  | 0, _, _ => .ok []
  | k + 1, done, (n, buf) => do
    let (n', buf') ← C.serialize o buf 0 chunkSize done
    let rest ← emit C o chunkSize k (done + n') (n', buf')
    .ok ((n, buf) :: rest)

/-- DaphneSerializer.h:1589-1601, 1624-1637, 1669-1682: `DaphneSerializerChunks`: all chunks, in order. -/
def serializeChunks (C : Codec O) (o : O) (chunkSize : Nat) : Res (List (Nat × Buf Byte)) :=
  if chunkSize < C.headerSize then .error (.throw "Minimum chunk size")
  else do
    let len ← C.length o
    let chunkSize := if chunkSize > len then len else chunkSize
    if chunkSize < C.headerSize then .error (.throw "Minimum chunk size") else do
    let (n, buf) ← C.serialize o ⟨chunkSize, fun _ => 0⟩ 0 chunkSize 0
    emit C o chunkSize (numChunks len chunkSize) n (n, buf)

/-- WriteDaphne.h:61-72, 82-93: the bytes of the file written with the given chunk size. -/
def writeFile (C : Codec O) (o : O) (chunkSize : Nat) : Res (List Byte) := do
  let chunks ← C.serializeChunks o chunkSize
  .ok (chunks.flatMap fun c => bytesAt c.2 0 c.1)

/-- DaphneSerializer.h:1776-1787: `end()` of the deserializing iterator. -/
def endIndex (C : Codec O) (o : Option O) (chunkSize : Nat) : Res Nat :=
  match o with
  | none => .ok 1
  | some o => do
    let len ← C.length o
    .ok (numChunks len chunkSize)

/-- `f.read(buf, n)`: the next bytes of the file into the buffer. -/
def readInto (file : List Byte) (pos : Nat) (buf : Buf Byte) (n : Nat) : Nat × Buf Byte :=
  let k := min n (file.length - pos)
  (k, { buf with data := fun i => if i < k then file.getD (pos + i) 0 else buf.data i })

/-- DaphneSerializer.h:1748-1757: `++` of the deserializing iterator holding chunk `(n, buf)`. -/
def step (C : Codec O) (o : Option O) (index done n : Nat) (buf : Buf Byte) : Res O := do
  let o ← if index = 0 then C.deserializeHeader buf 0 o else .ok o
  C.deserialize buf 0 n o done

/-- ReadDaphne.h:58-73, 76-91: the loop. The first argument bounds the number of iterations; running out of it means that the loop
does not end. -/
def readLoop (C : Codec O) (file : List Byte) (chunkSize : Nat) : Nat → Nat → Nat → Option O → Buf Byte → Res (Option O)
  | 0, _, _, _, _ => .error (.ub "endless loop")
  | fuel + 1, index, done, o, buf => do
    let e ← C.endIndex o chunkSize
    if index = e then .ok o
    else do
      let (n, buf) := readInto file done buf chunkSize
      let o ← C.step o index done n buf
      readLoop C file chunkSize fuel (index + 1) (done + n) (some o) buf

/-- ReadDaphne.h:58-73, 76-91 with `res == nullptr`. -/
def readFile (C : Codec O) (file : List Byte) (chunkSize fuel : Nat) : Res (Option O) :=
  if chunkSize < C.headerSize then .error (.throw "Minimum chunk size")
  else readLoop C file chunkSize fuel 0 0 none ⟨chunkSize, fun _ => 0⟩

/-- DaphneSerializer.h:1480-1500: `SerializeNextChunk` into a fresh buffer of the chunk size: new offset and buffer. -/
def nextChunk (C : Codec O) (o : O) (chunkSize startOffset : Nat) : Res (Nat × Buf Byte) := do
  let (bufferIdx, buf) ← C.serializeHeader o ⟨chunkSize, fun _ => 0⟩ 0
  let buf ← putBytes buf bufferIdx (le 8 startOffset)
  let bufferIdx := bufferIdx + 8
  let (len, buf) ← C.serialize o buf bufferIdx (sub64 chunkSize bufferIdx) startOffset
  .ok (startOffset + len, buf)

/-- The loop `while (HasNextChunk()) SerializeNextChunk(buffer)` with a fresh buffer each time (DaphneSerializer.h:1508). -/
def outOfOrderLoop (C : Codec O) (o : O) (chunkSize : Nat) : Nat → Nat → Res (List (Buf Byte))
  | 0, _ => .error (.ub "endless loop")
  | fuel + 1, startOffset => do
    let len ← C.length o
    if startOffset ≠ len then do
      let (startOffset, buf) ← C.nextChunk o chunkSize startOffset
      let rest ← outOfOrderLoop C o chunkSize fuel startOffset
      .ok (buf :: rest)
    else .ok []

/-- DaphneSerializer.h:1465-1468: constructor; then the loop. -/
def outOfOrderChunks (C : Codec O) (o : O) (chunkSize fuel : Nat) : Res (List (Buf Byte)) := do
  let len ← C.length o
  C.outOfOrderLoop o (if chunkSize = 0 then len else chunkSize) fuel 0

/-- DaphneSerializer.h:1548-1549: the object is created from the header of the first chunk that arrives. -/
def headerIfNone (C : Codec O) (o : Option O) (buf : Buf Byte) : Res (Option O) :=
  match o with
  | none => C.deserializeHeader buf 0 none
  | some o => .ok (some o)

/-- DaphneSerializer.h:1542-1561: `DeserializeNextChunk`; state: object and `bytesDeserialized`. -/
def takeChunk (C : Codec O) (st : Option O × Nat) (buf : Buf Byte) : Res (Option O × Nat) := do
  let o ← C.headerIfNone st.1 buf
  let startOffset ← readNum buf C.headerSize 8
  let bufferIdx := C.headerSize + 8
  let n := sub64 buf.size bufferIdx
  let o ← C.deserialize buf bufferIdx n o startOffset
  .ok (some o, st.2 + n)

/-- DaphneSerializer.h:1568-1573: `HasNextChunk` of the deserializer. -/
def hasNext (C : Codec O) (st : Option O × Nat) : Res Bool :=
  match st.1 with
  | none => .ok true
  | some o => do
    let len ← C.length o
    .ok (decide (st.2 < len))

/-- Receiving chunks one by one while `HasNextChunk()`; running out of chunks is an error (the receiver would wait forever).
Result: the object and the chunks not consumed. -/
def receive (C : Codec O) : Option O × Nat → List (Buf Byte) → Res (Option O × List (Buf Byte))
  | st, chunks => do
    let more ← C.hasNext st
    if more then
      match chunks with
      | [] => .error (.ub "waits forever")
      | c :: rest => do
        let st ← C.takeChunk st c
        receive C st rest
    else .ok (st.1, chunks)
  termination_by _ chunks => chunks.length

end Codec
end Verif.Ser
