/-
  Model of the reader of Matrix Market files: `src/runtime/local/io/MMFile.h` and `ReadMM.h`. Files and lines are those of `Verif/Io/Csv.lean`
  (`File.h`). The value type is abstract: conversion from text, negation, zero and one.
-/
import Verif.Io.Coo

namespace Verif.Mtx
open Verif Verif.Io

/-- The value type: `conv` is `convertCstr` on the rest of a line, `neg` is `(VT) -cur`, `one` is `cur = true`. -/
structure Num (VT : Type) where
  conv : List Char → VT
  neg : VT → VT
  one : VT
  zero : VT

/-- Second character of the type code; `blank` is `' '`. -/
inductive Fmt
  | coord | array | blank
deriving DecidableEq, Repr

/-- Third character of the type code. -/
inductive Field
  | real | complex | pattern | integer | blank
deriving DecidableEq, Repr

/-- Fourth character of the type code. -/
inductive Sym
  | general | symmetric | hermitian | skew
deriving DecidableEq, Repr

/-- `MM_typecode`, MMFile.h:32; `mat` tells whether the first character is `M`. -/
structure Typecode where
  mat : Bool
  fmt : Fmt
  field : Field
  sym : Sym
deriving DecidableEq, Repr

/-- `mm_clear_typecode`, MMFile.h:84. -/
def Typecode.clear : Typecode := ⟨false, .blank, .blank, .general⟩

/-! ### Header -/

/-- `%s` of `sscanf`: skip white space, take what follows up to the next white space. -/
def scanTok (l : List Char) : Option (List Char × List Char) :=
  let l := l.dropWhile isSpace
  if l = [] then none else some (l.takeWhile fun c => !isSpace c, l.dropWhile fun c => !isSpace c)

def scanToks : Nat → List Char → List (List Char)
  | 0, _ => []
  | n + 1, l => match scanTok l with
    | none => []
    | some (t, l) => t :: scanToks n l

def MTX : List Char := "matrix".toList
def COORDINATE : List Char := "coordinate".toList
def ARRAY : List Char := "array".toList
def REAL : List Char := "real".toList
def COMPLEX : List Char := "complex".toList
def PATTERN : List Char := "pattern".toList
def INTEGER : List Char := "integer".toList
def GENERAL : List Char := "general".toList
def SYMMETRIC : List Char := "symmetric".toList
def HERMITIAN : List Char := "hermitian".toList
def SKEW : List Char := "skew-symmetric".toList
def BANNER : List Char := "%%MatrixMarket".toList

/-- The comparisons of `mm_read_banner`, MMFile.h:151-210, on the five words of the first line; the code that is returned (0 is success) is
    ignored by the caller, but the fields set so far remain. -/
def classify (banner mtx crd data storage : List Char) : Typecode × Nat :=
  let mtx := mtx.map Char.toLower
  let crd := crd.map Char.toLower
  let data := data.map Char.toLower
  let storage := storage.map Char.toLower
  let tc := Typecode.clear
  if ¬ BANNER <+: banner then (tc, 14)
  else if mtx ≠ MTX then (tc, 15)
  else
    let tc := { tc with mat := true }
    if ¬ (crd = COORDINATE ∨ crd = ARRAY) then (tc, 15)
    else
      let tc := { tc with fmt := if crd = COORDINATE then .coord else .array }
      if data = REAL ∨ data = COMPLEX ∨ data = PATTERN ∨ data = INTEGER then
        let tc := { tc with field := if data = REAL then .real else if data = COMPLEX then .complex else if data = PATTERN then .pattern else .integer }
        if storage = GENERAL then ({ tc with sym := .general }, 0)
        else if storage = SYMMETRIC then ({ tc with sym := .symmetric }, 0)
        else if storage = HERMITIAN then ({ tc with sym := .hermitian }, 0)
        else if storage = SKEW then ({ tc with sym := .skew }, 0)
        else (tc, 15)
      else (tc, 15)

/-- `mm_read_banner`, MMFile.h:128-211. Words of 64 characters and more overflow the local buffers. -/
def readBanner (f : File) : Res (File × Typecode × Nat) :=
  match f.getLine with
  | none => .ok (f, .clear, 12)
  | some f =>
    let ts := scanToks 5 f.line
    if ts.any (fun t => decide (64 ≤ t.length)) then .error (.ub "buffer overflow")
    else match ts with
      | [b, m, c, d, s] => let (tc, code) := classify b m c d s; .ok (f, tc, code)
      | _ => .ok (f, .clear, 12)

/-- `%lu` of `sscanf`. -/
def scanNum (l : List Char) : Option (Nat × List Char) :=
  let l := l.dropWhile isSpace
  let neg := l.head? = some '-'
  let l := if l.head? = some '-' ∨ l.head? = some '+' then l.drop 1 else l
  if l.takeWhile isDigit = [] then none
  else
    let v := min (digitsValue l) (2 ^ 64 - 1)
    some (if neg then (2 ^ 64 - v) % 2 ^ 64 else v, l.dropWhile isDigit)

def scanNums : Nat → List Char → List Nat
  | 0, _ => []
  | n + 1, l => match scanNum l with
    | none => []
    | some (v, l) => v :: scanNums n l

/-- `mm_read_mtx_crd_size` (`k = 3`) and `mm_read_mtx_array_size` (`k = 2`), MMFile.h:213-249: lines are skipped until one starts with `k`
    numbers. The returned error code is ignored by the caller; numbers scanned so far remain. `fuel` bounds the number of lines. -/
def readSize (k : Nat) : Nat → File → List Nat → File × List Nat
  | 0, f, ns => (f, ns)
  | fuel + 1, f, ns => match f.getLine with
    | none => (f, ns)
    | some f =>
      let vs := scanNums k f.line
      if vs.length = k then (f, vs) else readSize k fuel f (vs ++ ns.drop vs.length)

/-- `MMFile`, MMFile.h:251-255. -/
structure MM where
  f : File
  tc : Typecode
  rows : Nat
  cols : Nat
  nnz : Nat

/-- The constructor of `MMFile`, MMFile.h:258-270; `none`: the file does not exist (`openFile` returns a null pointer, which is
    dereferenced). -/
def MM.open : Option (List Char) → Res MM
  | none => .error (.ub "null pointer")
  | some text => do
    let (f, tc, _) ← readBanner (File.open text)
    if tc.fmt = .coord then
      let (f, ns) := readSize 3 (f.rest.length + 1) f [0, 0, 0]
      let nnz := ns.getD 2 0
      .ok ⟨f, tc, ns.getD 0 0, ns.getD 1 0, if tc.sym = .skew then 2 * nnz % 2 ^ 64 else nnz⟩
    else
      let (f, ns) := readSize 2 (f.rest.length + 1) f [0, 0]
      let rows := ns.getD 0 0
      let nnz := rows * ns.getD 1 0 % 2 ^ 64
      .ok ⟨f, tc, rows, ns.getD 1 0, if tc.sym = .skew then (nnz + 2 ^ 64 - rows) % 2 ^ 64 else nnz⟩

/-! ### Entries -/

/-- `MMFile::Entry`. -/
structure Entry (VT : Type) where
  row : Nat
  col : Nat
  val : VT

/-- Increment of a `size_t`. -/
def inc (n : Nat) : Nat := (n + 1) % 2 ^ 64

/-- `(size_t) v`. -/
def toSize (v : Int) : Nat := (v % 2 ^ 64).toNat

/-- `std::stoi`: exceptions for text that does not start with a number and for values out of the range of `int`. -/
def stoi (l : List Char) : Res Int :=
  let r := l.dropWhile isSpace
  let r := if r.head? = some '-' ∨ r.head? = some '+' then r.drop 1 else r
  if r.takeWhile isDigit = [] then .error (.throw "stoi: invalid argument")
  else if -2 ^ 31 ≤ strtol l ∧ strtol l < 2 ^ 31 then .ok (strtol l)
  else .error (.throw "stoi: out of range")

/-- MMFile.h:322-323: `while (line[pos] != ' ' && line[pos] != '\n') pos++`. -/
def skipWord (f : File) (pos : Nat) : Res Nat :=
  match h : f.line[pos]? with
  | none => .error (.ub "out-of-bounds read")
  | some c => if c = ' ' ∨ c = '\n' then .ok pos else skipWord f (pos + 1)
  termination_by f.line.length - pos
  decreasing_by
    have hlt := (List.getElem?_eq_some_iff.1 h).1
    omega

/-- `MMIterator`, MMFile.h:293-310: the entry it refers to, the entry after it if `doNext`, the position of the next entry (for arrays), the
    last value read, and the file. -/
structure It (VT : Type) where
  main : Entry VT
  next : Entry VT
  doNext : Bool
  r : Nat
  c : Nat
  cur : VT
  f : File

variable {VT : Type}

/-- MMFile.h:304-307, 346-351: position after the end of a column; the state is `(r, c)`. -/
def progress (s : Sym) (p : Nat × Nat) : Nat × Nat :=
  match s with
  | .symmetric => (inc p.2, inc p.2)
  | .skew => (inc (inc p.2), inc p.2)
  | _ => (0, inc p.2)

/-- MMFile.h:314-324: row, column and the position in the line behind them. -/
def position (tc : Typecode) (f : File) (r c : Nat) : Res (Nat × Nat × Nat) :=
  if tc.fmt = .coord then do
    let r ← stoi f.line
    let pos ← skipDelim f ' ' 0
    let c ← stoi (f.line.drop pos)
    let pos ← skipWord f pos
    .ok (toSize (r - 1), toSize (c - 1), pos)
  else .ok (r, c, 0)

/-- `terminate`, MMFile.h:358. -/
def terminator (v : VT) : Entry VT := ⟨2 ^ 64 - 1, 2 ^ 64 - 1, v⟩

/-- `readEntry`, MMFile.h:303-341. -/
def readEntry (N : Num VT) (m : MM) (it : It VT) : Res (It VT) :=
  match it.f.getLine with
  | none => .ok { it with main := terminator it.cur }
  | some f => do
    let (r, c, pos) ← position m.tc f it.r it.c
    let cur := if m.tc.field = .pattern then it.cur else N.conv (f.line.drop pos)
    let two := (m.tc.sym = .symmetric ∧ r ≠ c) ∨ m.tc.sym = .skew
    let p := if m.rows ≤ inc r then progress m.tc.sym (inc r, c) else (inc r, c)
    .ok ⟨⟨r, c, cur⟩, if two then ⟨c, r, if m.tc.sym = .skew then N.neg cur else cur⟩ else it.next, if two then true else it.doNext, p.1, p.2, cur, f⟩

/-- `begin()`: the constructor of the iterator, MMFile.h:343-354. `junk` is memory that has not been written. -/
def begin (N : Num VT) (m : MM) (junk : Entry VT) : Res (It VT) :=
  readEntry N m ⟨junk, junk, false, if m.tc.sym = .skew then 1 else 0, 0, if m.tc.field = .pattern then N.one else junk.val, m.f⟩

/-- `operator++`, MMFile.h:363-370. -/
def step (N : Num VT) (m : MM) (it : It VT) : Res (It VT) :=
  if it.doNext then .ok { it with main := it.next, next := it.main, doNext := false } else readEntry N m it

/-- `it != end()`, MMFile.h:381: rows and columns are compared. -/
def more (it : It VT) : Bool := !(it.main.row = 2 ^ 64 - 1 && it.main.col = 2 ^ 64 - 1)

/-- `for (auto &entry : mmfile) body`. Each line gives at most two entries, which bounds the number of rounds. -/
def forEach {σ : Type} (N : Num VT) (m : MM) (body : σ → Entry VT → Res σ) : Nat → It VT → σ → Res σ
  | 0, _, s => .ok s
  | fuel + 1, it, s => if more it then do
      let s ← body s it.main
      let it ← step N m it
      forEach N m body fuel it s
    else .ok s

def rounds (m : MM) : Nat := 2 * m.f.rest.length + 2

/-! ### Matrices and frames -/

/-- A new dense matrix: dimensions and values. -/
structure Dense (VT : Type) where
  rows : Nat
  cols : Nat
  vals : Buf VT

/-- `ReadMM<DenseMatrix<VT>>`, ReadMM.h:48-60, for a new result. -/
def readDense (N : Num VT) (file : Option (List Char)) (junk : Entry VT) (mem : Nat → VT) : Res (Dense VT) := do
  let m ← MM.open file
  let vals : Buf VT := ⟨m.rows * m.cols, fun k => if m.nnz ≠ m.cols * m.rows % 2 ^ 64 then N.zero else mem k⟩
  let it ← begin N m junk
  let vals ← forEach N m (fun b e => b.write ((e.row * m.cols + e.col) % 2 ^ 64) e.val) (rounds m) it vals
  .ok ⟨m.rows, m.cols, vals⟩

/-- A new matrix in CSR format. -/
structure Csr (VT : Type) where
  rows : Nat
  cols : Nat
  offs : Buf Nat
  idxs : Buf Nat
  vals : Buf VT

/-- `entry_queue`: a priority queue that yields its elements ordered by row and column (`operator>` of `Entry`). -/
def entryLe (a b : Entry VT) : Bool := decide (a.row < b.row) || (decide (a.row = b.row) && decide (a.col ≤ b.col))

/-- ReadMM.h:83-92. State: arrays, `currValIdx`, `rowIdx`. -/
def place : List (Entry VT) → Csr VT → Nat → Nat → Res (Csr VT × Nat × Nat)
  | [], m, cur, rowIdx => .ok (m, cur, rowIdx)
  | e :: es, m, cur, rowIdx => do
    let offs ← fillRows m.offs rowIdx e.row cur
    let vals ← m.vals.write cur e.val
    let idxs ← m.idxs.write cur e.col
    place es { m with offs := offs, idxs := idxs, vals := vals } (cur + 1) (max rowIdx e.row)

/-- `ReadMM<CSRMatrix<VT>>`, ReadMM.h:62-98, for a new result. -/
def readCsr (N : Num VT) (file : Option (List Char)) (junk : Entry VT) (mem : Nat → VT) (memI : Nat → Nat) : Res (Csr VT) := do
  let m ← MM.open file
  let it ← begin N m junk
  let queue ← forEach N m (fun q e => .ok (q ++ [e])) (rounds m) it []
  let offs ← (⟨m.rows + 1, memI⟩ : Buf Nat).write 0 0
  let (r, cur, rowIdx) ← place (queue.mergeSort entryLe) ⟨m.rows, m.cols, offs, ⟨queue.length, memI⟩, ⟨queue.length, mem⟩⟩ 0 0
  let offs ← fillRows r.offs rowIdx m.rows cur
  .ok { r with offs := offs }

/-- A frame: for each column its values; `Cell` are 64-bit integers or doubles. -/
structure Fr (Cell : Type) where
  rows : Nat
  cols : Nat
  col : Nat → Buf Cell

/-- `ReadMM<Frame>`, ReadMM.h:100-124, for a new result: all values are read as doubles (`VT`), `cell` is the conversion to the cell type, which
    is a 64-bit integer if the type code says integer (first argument). -/
def readFrame {Cell : Type} (N : Num VT) (cell : Bool → VT → Cell) (file : Option (List Char)) (junk : Entry VT) (zeroC : Cell)
    (mem : Nat → Nat → Cell) : Res (Fr Cell) := do
  let m ← MM.open file
  let col : Nat → Buf Cell := fun j => ⟨m.rows, fun i => if m.nnz ≠ m.cols * m.rows % 2 ^ 64 then zeroC else mem j i⟩
  let it ← begin N m junk
  let col ← forEach N m (fun (b : Nat → Buf Cell) e => do
    if m.cols ≤ e.col then .error (.ub "out-of-bounds read")
    else
      let c ← (b e.col).write e.row (cell (decide (m.tc.field = .integer)) e.val)
      .ok (fun j => if j = e.col then c else b j)) (rounds m) it col
  .ok ⟨m.rows, m.cols, col⟩

end Verif.Mtx
