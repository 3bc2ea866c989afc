/-
  Model of CSV files: src/runtime/local/io/WriteCsv.h, ReadCsvFile.h, utils.h, File.h. A file is the list of its characters (bytes).
  Not modelled: floating-point values, I/O errors, `FixedStr16`.
-/
import Verif.Basic.Copy

namespace Verif.Io
open Verif

/-- The terminating character of C strings. -/
def NUL : Char := Char.ofNat 0

/-! ### File.h -/

/-- File.h:23-29: the current line and what has not been read yet. -/
structure File where
  line : List Char
  rest : List Char

/-- An opened file. -/
def File.open (text : List Char) : File := ⟨[], text⟩

/-- File.h:78-84: `getFileLine`: `getline` reads up to and including the next newline; `none` for -1 (end of file). -/
def File.getLine (f : File) : Option File :=
  if f.rest = [] then none
  else some ⟨f.rest.takeWhile (· ≠ '\n') ++ (f.rest.dropWhile (· ≠ '\n')).take 1, (f.rest.dropWhile (· ≠ '\n')).drop 1⟩

theorem File.getLine_le {f f' : File} (h : f.getLine = some f') : f'.line.length + f'.rest.length = f.rest.length := by
  unfold File.getLine at h
  split at h
  · cases h
  · cases h
    have := congrArg List.length (List.takeWhile_append_dropWhile (p := (· ≠ '\n')) (l := f.rest))
    simp only [List.length_append, List.length_take, List.length_drop] at this ⊢
    omega

/-! ### Numbers as text -/

/-- The digits printed by `%d` and alike for a non-negative number. -/
def digits (n : Nat) : List Char :=
  if n < 10 then [Char.ofNat (48 + n)] else digits (n / 10) ++ [Char.ofNat (48 + n % 10)]
  termination_by n
  decreasing_by omega

/-- `printf("%ld", v)`. -/
def printInt (v : Int) : List Char := if v < 0 then '-' :: digits v.natAbs else digits v.natAbs

/-- `isspace`. -/
def isSpace (c : Char) : Bool := c = ' ' || (9 ≤ c.toNat && c.toNat ≤ 13)

def isDigit (c : Char) : Bool := 48 ≤ c.toNat && c.toNat ≤ 57

/-- Value of the leading digits. -/
def digitsValue (l : List Char) : Nat := (l.takeWhile isDigit).foldl (fun n c => 10 * n + (c.toNat - 48)) 0

/-- Conversion to a signed type with `b` bits. -/
def wrapS (b : Nat) (v : Int) : Int := (v + 2 ^ (b - 1)) % 2 ^ b - 2 ^ (b - 1)

/-- `strtol(s, nullptr, 10)`: out of range values are clamped. -/
def strtol (l : List Char) : Int :=
  let v : Int := match l.dropWhile isSpace with
    | '-' :: r => - (digitsValue r : Int)
    | '+' :: r => digitsValue r
    | r => digitsValue r
  max (-2 ^ 63) (min (2 ^ 63 - 1) v)

/-- `atoi`, as in glibc: `(int) strtol(s, nullptr, 10)`. (The C standard leaves the result undefined out of the range of `int`.) -/
def atoi (l : List Char) : Int := wrapS 32 (strtol l)

/-- Integer value types. -/
inductive IntTy where
  | si8 | si32 | si64 | ui8 | ui32 | ui64
  deriving DecidableEq

namespace IntTy

/-- Conversion to the type. -/
def cast : IntTy → Int → Int
  | si8, v => wrapS 8 v
  | si32, v => wrapS 32 v
  | si64, v => wrapS 64 v
  | ui8, v => v % 2 ^ 8
  | ui32, v => v % 2 ^ 32
  | ui64, v => v % 2 ^ 64

/-- Values of the type. -/
def InRange : IntTy → Int → Prop
  | si8, v => -2 ^ 7 ≤ v ∧ v < 2 ^ 7
  | si32, v => -2 ^ 31 ≤ v ∧ v < 2 ^ 31
  | si64, v => -2 ^ 63 ≤ v ∧ v < 2 ^ 63
  | ui8, v => 0 ≤ v ∧ v < 2 ^ 8
  | ui32, v => 0 ≤ v ∧ v < 2 ^ 32
  | ui64, v => 0 ≤ v ∧ v < 2 ^ 64

/-- WriteCsv.h:105-108: `%ld` for `long int`, otherwise `%d`, which prints the lower 32 bits as an `int` (small types are promoted;
passing an `uint64_t` is formally undefined, here: what happens on x86-64). -/
def printDense : IntTy → Int → List Char
  | si64, v => printInt v
  | _, v => printInt (wrapS 32 v)

/-- utils.h:71-76: `convertCstr` for integers. -/
def convert (t : IntTy) (l : List Char) : Int := t.cast (atoi l)

end IntTy

/-! ### Writing -/

/-- WriteCsv.h:65-86: `quoteStrCsvIf`. -/
def quoteStrCsvIf (s : List Char) : List Char :=
  if s.any (fun c => c = ',' || c = '\n' || c = '\r' || c = '"') then
    '"' :: (s.flatMap fun c => if c = '"' then ['"', '"'] else [c]) ++ ['"']
  else s

/-- `fprintf("%s", s.c_str())`. -/
def printStr (s : List Char) : List Char := s.takeWhile (· ≠ NUL)

/-- WriteCsv.h:101-116, 131-177, 194-204: the loops, given how a cell is printed. -/
def writeTable (numRows numCols : Nat) (cell : Nat → Nat → Res (List Char)) : Res (List Char) :=
  forLoop 0 numRows [] fun i out =>
    forLoop 0 numCols out fun j out => do
      let s ← cell i j
      .ok (out ++ s ++ (if j < numCols - 1 then [','] else ['\n']))

/-- A dense matrix: dimensions, row skip and values. -/
structure Mat (α : Type) where
  numRows : Nat
  numCols : Nat
  rowSkip : Nat
  vals : Buf α

/-- WriteCsv.h:93-118 for integers. -/
def writeInts (t : IntTy) (m : Mat Int) : Res (List Char) :=
  writeTable m.numRows m.numCols fun i j => do
    let v ← m.vals.read (i * m.rowSkip + j)
    .ok (t.printDense v)

/-- WriteCsv.h:93-118 for strings. -/
def writeStrs (m : Mat (List Char)) : Res (List Char) :=
  writeTable m.numRows m.numCols fun i j => do
    let v ← m.vals.read (i * m.rowSkip + j)
    .ok (printStr (quoteStrCsvIf v))

inductive ColTy where
  | int (t : IntTy)
  | str
  deriving DecidableEq

inductive Val where
  | int (v : Int)
  | str (s : List Char)
  deriving DecidableEq

instance : Inhabited Val := ⟨.int 0⟩

/-- A frame: number of rows and, for each column, type and values. -/
structure Frame where
  numRows : Nat
  numCols : Nat
  types : Nat → ColTy
  cols : Nat → Buf Val

/-- WriteCsv.h:136-170: printing a value of a frame (`PRId8` ... `PRIu64`: the value itself). -/
def printVal : Val → List Char
  | .int v => printInt v
  | .str s => printStr (quoteStrCsvIf s)

/-- WriteCsv.h:125-179. -/
def writeFrame (fr : Frame) : Res (List Char) :=
  writeTable fr.numRows fr.numCols fun i j => do
    let v ← (fr.cols j).read i
    .ok (printVal v)

/-! ### Reading -/

/-- utils.h:96, 131: where `str` points to: into the first line, or to the start of a later line. -/
def base (start : Nat) (lb : Bool) : Nat := if lb then 0 else start

/-- utils.h:94-147: the loop of `setCString`; the current character is `line[(has_line_break ? 0 : start) + pos]`. A failed
`getFileLine` inside a quoted string is not noticed by the code; what is in the buffer then is unspecified. Simplification: `delim` is
not a quote or line break (then `is_not_end` could wrap around). Result: file, `pos`, `has_line_break`, string. -/
def setLoop (delim : Char) (multi : Bool) (start : Nat) (f : File) (pos : Nat) (lb : Bool) (res : List Char) : Res (File × Nat × Bool × List Char) :=
  match h : f.line[base start lb + pos]? with
  | none => if base start lb + pos = f.line.length then .ok (f, pos, lb, res) else .error (.ub "out-of-bounds read")
  | some c =>
    if c = NUL then .ok (f, pos, lb, res)
    else if multi = false ∧ (c = delim ∨ c = '\n' ∨ c = '\r') then .ok (f, pos, lb, res)
    else if multi ∧ c = '"' ∧ f.line[base start lb + pos + 1]? ≠ some '"' then .ok (f, pos, lb, res)
    else if multi ∧ c = '"' ∧ f.line[base start lb + pos + 1]? = some '"' then
      setLoop delim multi start f (pos + 2) lb (res ++ ['"'])
    else if multi ∧ c = '\\' ∧ f.line[base start lb + pos + 1]? = some '"' then
      setLoop delim multi start f (pos + 2) lb (res ++ ['\\', '"'])
    else if multi ∧ (c = '\n' ∨ c = '\r') then
      match hg : f.getLine with
      | none => .error (.ub "unspecified buffer contents")
      | some f' => setLoop delim multi start f' 0 true (res ++ ['\n'])
    else setLoop delim multi start f (pos + 1) lb (res ++ [c])
  termination_by f.rest.length + (f.line.length - (base start lb + pos))
  decreasing_by
    all_goals have hlt := (List.getElem?_eq_some_iff.1 h).1
    · omega
    · omega
    · have := File.getLine_le hg
      have hb : base start true = 0 := rfl
      rw [hb]
      omega
    · omega

/-- utils.h:94-147: `setCString`: position and string. -/
def setCString (f : File) (start : Nat) (delim : Char) : Res (File × Nat × List Char) :=
  if f.line.length < start then .error (.ub "out-of-bounds read")
  else do
    let multi := decide (f.line[start]? = some '"')
    let (f, pos, lb, res) ← setLoop delim multi start f (if multi then 1 else 0) false []
    let pos := if multi then pos + 1 else pos
    .ok (f, if lb then pos else pos + start, res)

/-- ReadCsvFile.h:114-118, 385-387: `while (line[pos] != delim) pos++; pos++`. -/
def skipDelim (f : File) (delim : Char) (pos : Nat) : Res Nat :=
  match h : f.line[pos]? with
  | none => .error (.ub "out-of-bounds read")
  | some c => if c = delim then .ok (pos + 1) else skipDelim f delim (pos + 1)
  termination_by f.line.length - pos
  decreasing_by
    have hlt := (List.getElem?_eq_some_iff.1 h).1
    omega

/-- `convertCstr(line + pos, &val)`. -/
def convertAt (t : IntTy) (f : File) (pos : Nat) : Res Int :=
  if pos ≤ f.line.length then .ok (t.convert (f.line.drop pos)) else .error (.ub "out-of-bounds read")

/-- `if (getFileLine(file) == -1) throw`. -/
def nextLine (f : File) : Res File :=
  match f.getLine with
  | none => .error (.throw "getFileLine failed")
  | some f => .ok f

/-- ReadCsvFile.h:113-118. -/
def advance (f : File) (delim : Char) (pos : Nat) (more : Bool) : Res Nat := if more then skipDelim f delim pos else .ok pos

/-- ReadCsvFile.h:74-121: reading a new dense matrix of integers. -/
def readInts (t : IntTy) (f : File) (numRows numCols : Nat) (delim : Char) (junk : Nat → Int) : Res (Mat Int) :=
  if numRows = 0 then .error (.throw "numRows must be > 0")
  else if numCols = 0 then .error (.throw "numCols must be > 0")
  else do
    let (_, _, vals) ← forLoop 0 numRows (f, 0, (⟨numRows * numCols, junk⟩ : Buf Int)) fun _ (f, cell, vals) => do
      let f ← nextLine f
      let (_, cell, vals) ← forLoop 0 numCols (0, cell, vals) fun c (pos, cell, vals) => do
        let v ← convertAt t f pos
        let vals ← vals.write cell v
        let pos ← advance f delim pos (decide (c < numCols - 1))
        .ok (pos, cell + 1, vals)
      .ok (f, cell, vals)
    .ok ⟨numRows, numCols, numCols, vals⟩

/-- ReadCsvFile.h:124-155: reading a new dense matrix of strings. -/
def readStrs (f : File) (numRows numCols : Nat) (delim : Char) : Res (Mat (List Char)) :=
  if numRows = 0 then .error (.throw "numRows must be > 0")
  else if numCols = 0 then .error (.throw "numCols must be > 0")
  else do
    let (_, _, vals) ← forLoop 0 numRows (f, 0, (⟨numRows * numCols, fun _ => []⟩ : Buf (List Char))) fun _ (f, cell, vals) => do
      let f ← nextLine f
      let (f, _, cell, vals) ← forLoop 0 numCols (f, 0, cell, vals) fun _ (f, pos, cell, vals) => do
        let (f, pos, s) ← setCString f pos delim
        let vals ← vals.write cell s
        .ok (f, pos + 1, cell + 1, vals)
      .ok (f, cell, vals)
    .ok ⟨numRows, numCols, numCols, vals⟩

/-- ReadCsvFile.h:320-376: reading one value of a frame. -/
def readVal (f : File) (ty : ColTy) (delim : Char) (pos : Nat) : Res (File × Nat × Val) :=
  match ty with
  | .int t => do
    let v ← convertAt t f pos
    .ok (f, pos, .int v)
  | .str => do
    let (f, pos, s) ← setCString f pos delim
    .ok (f, pos, .str s)

/-- ReadCsvFile.h:319-389: one line of a frame: `k` more columns from column `col`. -/
def readFrameRow (types : Nat → ColTy) (delim : Char) (row : Nat) : Nat → Nat → File → Nat → (Nat → Buf Val) → Res (File × (Nat → Buf Val))
  | 0, _, f, _, cols => .ok (f, cols)
  | k + 1, col, f, pos, cols => do
    let (f, pos, v) ← readVal f (types col) delim pos
    let b ← (cols col).write row v
    let cols : Nat → Buf Val := fun j => if j = col then b else cols j
    let pos ← advance f delim pos (decide (0 < k))
    readFrameRow types delim row k (col + 1) f pos cols

/-- ReadCsvFile.h:308-396: `k` more rows; stops silently at the end of the file. -/
def readFrameRows (types : Nat → ColTy) (numCols : Nat) (delim : Char) : Nat → Nat → File → (Nat → Buf Val) → Res (Nat → Buf Val)
  | 0, _, _, cols => .ok cols
  | k + 1, row, f, cols =>
    match f.getLine with
    | none => .ok cols
    | some f => do
      let (f, cols) ← readFrameRow types delim row numCols 0 f 0 cols
      readFrameRows types numCols delim k (row + 1) f cols

/-- ReadCsvFile.h:285-400. -/
def readFrame (f : File) (numRows numCols : Nat) (types : Nat → ColTy) (delim : Char) (junk : Nat → Nat → Val) : Res Frame :=
  if numRows = 0 then .error (.throw "numRows must be > 0")
  else if numCols = 0 then .error (.throw "numCols must be > 0")
  else do
    let cols ← readFrameRows types numCols delim numRows 0 f fun j => ⟨numRows, junk j⟩
    .ok ⟨numRows, numCols, types, cols⟩

end Verif.Io
