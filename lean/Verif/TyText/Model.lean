/-
  The textual form of DaphneIR types: `src/ir/daphneir/DaphneDialect.cpp` (`printType`, `parseType`) and the uniquing of matrix types
  (`MatrixTypeStorage`). The IR is sent to distributed workers as text.

  Trusted contract of MLIR's lexer: an integer is a run of decimal digits, except that `0x` and a hexadecimal digit start a hexadecimal one; an identifier
  is a maximal run of letters, digits, `_`, `$` and `.`; `parseXInDimensionList` takes one `x`. Printing and parsing a floating-point number are parameters.
  Simplifications: white space is skipped where `printType` writes some, only; every error of the parser, returned or thrown, is `none`; negative integers are not
  read (never written).
-/
import Mathlib.Data.List.Basic
import Mathlib.Data.Rat.Floor
import Mathlib.Algebra.Order.Field.Rat

namespace Verif.TyText

/-- The value types of matrices, columns and frame columns — DaphneDialect.cpp:421-430. -/
inductive Elt where
  | si8 | si32 | si64 | ui8 | ui32 | ui64 | f32 | f64 | i1 | index | string | unknown
  deriving DecidableEq, Repr

/-- `MatrixRepresentation` — Daphne.h:96-101. -/
inductive Rep where
  | dense | sparse
  deriving DecidableEq, Repr

/-- A matrix type: extents and sparsity may be unknown (`-1` in the code), and so may the symmetry (`BoolOrUnknown`) — DaphneTypes.td. -/
structure Mx (F : Type) where
  elt : Elt
  rows : Option Nat
  cols : Option Nat
  sp : Option F
  rep : Rep
  sym : Option Bool
  deriving DecidableEq

/-- The types of the dialect. -/
inductive Ty (F : Type) where
  | matrix (m : Mx F)
  | frame (rows cols : Option Nat) (cts : List Elt) (labels : Option (List String))
  | column (elt : Elt) (rows : Option Nat)
  | handle (m : Mx F)
  | list (m : Mx F)
  | pack (m : Mx F)
  | string | context | file | descriptor | target | unknown | struct

variable {F : Type}

/-- How MLIR prints the value types. -/
def Elt.text : Elt → List Char
  | .si8 => ['s', 'i', '8']
  | .si32 => ['s', 'i', '3', '2']
  | .si64 => ['s', 'i', '6', '4']
  | .ui8 => ['u', 'i', '8']
  | .ui32 => ['u', 'i', '3', '2']
  | .ui64 => ['u', 'i', '6', '4']
  | .f32 => ['f', '3', '2']
  | .f64 => ['f', '6', '4']
  | .i1 => ['i', '1']
  | .index => ['i', 'n', 'd', 'e', 'x']
  | .string => ['!', 'd', 'a', 'p', 'h', 'n', 'e', '.', 'S', 't', 'r', 'i', 'n', 'g']
  | .unknown => ['!', 'd', 'a', 'p', 'h', 'n', 'e', '.', 'U', 'n', 'k', 'n', 'o', 'w', 'n']

/-- `unknownStrIf` — DaphneDialect.cpp:245. -/
def dimText : Option Nat → List Char
  | none => ['?']
  | some n => Nat.toDigits 10 n

/-- `matrixRepresentationToString` — DaphneDialect.cpp:314-322. -/
def Rep.text : Rep → List Char
  | .dense => ['d', 'e', 'n', 's', 'e']
  | .sparse => ['s', 'p', 'a', 'r', 's', 'e']

/-- `boolOrUnknownToString`, for the known values — DaphneDialect.cpp:338-349. -/
def symText : Bool → List Char
  | false => ['f', 'a', 'l', 's', 'e']
  | true => ['t', 'r', 'u', 'e']

/-- The sparsity, if it is known — DaphneDialect.cpp:259-261. -/
def spPart (sf : F → List Char) : Option F → List Char
  | none => []
  | some s => [':', 's', 'p', '['] ++ (sf s ++ [']'])

/-- The representation, if it is not the default — DaphneDialect.cpp:262-264. -/
def repPart : Rep → List Char
  | .dense => []
  | .sparse => [':', 'r', 'e', 'p', '['] ++ (Rep.text .sparse ++ [']'])

/-- The symmetry, if it is known — DaphneDialect.cpp:265-267. -/
def symPart : Option Bool → List Char
  | none => []
  | some b => [':', 's', 'y', 'm', 'm', 'e', 't', 'r', 'i', 'c', '['] ++ (symText b ++ [']'])

/-- The properties of a matrix type — DaphneDialect.cpp:255-267. -/
def propsText (sf : F → List Char) (m : Mx F) : List Char := spPart sf m.sp ++ (repPart m.rep ++ symPart m.sym)

/-- A matrix type, after `Matrix` — DaphneDialect.cpp:253-267. -/
def mxText (sf : F → List Char) (m : Mx F) : List Char :=
  '<' :: (dimText m.rows ++ 'x' :: (dimText m.cols ++ 'x' :: (m.elt.text ++ (propsText sf m ++ ['>']))))

/-- The column types of a frame, separated by commas — DaphneDialect.cpp:271-277. -/
def eltsText : List Elt → List Char
  | [] => []
  | [e] => e.text
  | e :: es => e.text ++ ([',', ' '] ++ eltsText es)

/-- The labels of a frame — DaphneDialect.cpp:280-289. -/
def labelsText : Option (List String) → List Char
  | none => ['?']
  | some ls => '[' :: ((", ".intercalate (ls.map fun s => "\"" ++ s ++ "\"")).toList ++ [']'])

/-- `DaphneDialect::printType` (after `!daphne.`) — DaphneDialect.cpp:249-312. -/
def printType (sf : F → List Char) : Ty F → List Char
  | .struct => ['S', 't', 'r', 'u', 'c', 't', 'u', 'r', 'e']
  | .matrix m => ['M', 'a', 't', 'r', 'i', 'x'] ++ mxText sf m
  | .frame rows cols cts labels =>
    ['F', 'r', 'a', 'm', 'e'] ++ '<' :: (dimText rows ++ ['x', '['] ++ (dimText cols ++ [':', ' '] ++ (eltsText cts ++ [']', ',', ' '] ++ (labelsText labels ++ ['>']))))
  | .column e rows => ['C', 'o', 'l', 'u', 'm', 'n'] ++ '<' :: (dimText rows ++ 'x' :: (e.text ++ ['>']))
  | .list m => ['L', 'i', 's', 't'] ++ '<' :: (['!', 'd', 'a', 'p', 'h', 'n', 'e', '.', 'M', 'a', 't', 'r', 'i', 'x'] ++ (mxText sf m ++ ['>']))
  | .handle m => ['H', 'a', 'n', 'd', 'l', 'e'] ++ '<' :: (['!', 'd', 'a', 'p', 'h', 'n', 'e', '.', 'M', 'a', 't', 'r', 'i', 'x'] ++ (mxText sf m ++ ['>']))
  | .string => ['S', 't', 'r', 'i', 'n', 'g']
  | .pack m => ['V', 'a', 'r', 'i', 'a', 'd', 'i', 'c', 'P', 'a', 'c', 'k'] ++ '<' :: (['!', 'd', 'a', 'p', 'h', 'n', 'e', '.', 'M', 'a', 't', 'r', 'i', 'x'] ++ (mxText sf m ++ ['>']))
  | .context => ['D', 'a', 'p', 'h', 'n', 'e', 'C', 'o', 'n', 't', 'e', 'x', 't']
  | .file => ['F', 'i', 'l', 'e']
  | .descriptor => ['D', 'e', 's', 'c', 'r', 'i', 'p', 't', 'o', 'r']
  | .target => ['T', 'a', 'r', 'g', 'e', 't']
  | .unknown => ['U', 'n', 'k', 'n', 'o', 'w', 'n']

/-! ### The lexer -/

/-- The characters of identifiers, in MLIR's lexer. -/
def isWord (c : Char) : Bool := c.isAlphanum || c == '_' || c == '$' || c == '.'

/-- A hexadecimal digit. -/
def isHex (c : Char) : Bool := c.isDigit || ('a' ≤ c && c ≤ 'f') || ('A' ≤ c && c ≤ 'F')

/-- The value of a hexadecimal digit. -/
def hexVal (c : Char) : Nat :=
  if c.isDigit then c.toNat - 48 else if 'a' ≤ c && c ≤ 'f' then c.toNat - 87 else c.toNat - 55

/-- An integer token (MLIR `Lexer::lexNumber`): value and rest. -/
def lexInt : List Char → Option (Nat × List Char)
  | '0' :: 'x' :: c :: r =>
    if isHex c then some (((c :: r).takeWhile isHex).foldl (fun n d => 16 * n + hexVal d) 0, (c :: r).dropWhile isHex)
    else some (0, 'x' :: c :: r)
  | l =>
    if l.takeWhile Char.isDigit = [] then none
    else some (Nat.ofDigitChars 10 (l.takeWhile Char.isDigit) 0, l.dropWhile Char.isDigit)

/-- `parseInteger<ssize_t>`: the value must fit. -/
def parseInt (l : List Char) : Option (Nat × List Char) :=
  (lexInt l).bind fun q => if q.1 < 2 ^ 63 then some q else none

/-- One given character. -/
def lit (c : Char) : List Char → Option (List Char)
  | d :: r => if d = c then some r else none
  | [] => none

/-- An identifier: the word and the rest. -/
def word (l : List Char) : List Char × List Char := (l.takeWhile isWord, l.dropWhile isWord)

/-- `parseOptionalQuestion`, then `parseInteger` — DaphneDialect.cpp:138-143, 147-152, 225-229. -/
def parseDim : List Char → Option (Option Nat × List Char)
  | '?' :: r => some (none, r)
  | l => (parseInt l).map fun q => (some q.1, q.2)

/-- The builtin types. -/
def builtin (w : List Char) : Option Elt :=
  if w = ['s', 'i', '8'] then some .si8
  else if w = ['s', 'i', '3', '2'] then some .si32
  else if w = ['s', 'i', '6', '4'] then some .si64
  else if w = ['u', 'i', '8'] then some .ui8
  else if w = ['u', 'i', '3', '2'] then some .ui32
  else if w = ['u', 'i', '6', '4'] then some .ui64
  else if w = ['f', '3', '2'] then some .f32
  else if w = ['f', '6', '4'] then some .f64
  else if w = ['i', '1'] then some .i1
  else if w = ['i', 'n', 'd', 'e', 'x'] then some .index
  else none

/-- `parseType` for the value types the verifiers accept (DaphneDialect.cpp:421-430). A dialect type is parsed by `DaphneDialect::parseType` again, which does not know
`Unknown`. -/
def parseElt : List Char → Option (Elt × List Char)
  | '!' :: r => if (word r).1 = ['d', 'a', 'p', 'h', 'n', 'e', '.', 'S', 't', 'r', 'i', 'n', 'g'] then some (.string, (word r).2) else none
  | l => (builtin (word l).1).map fun e => (e, (word l).2)

/-- `stringToMatrixRepresentation` — DaphneDialect.cpp:329-336. -/
def repOf (w : List Char) : Option Rep :=
  if w = ['d', 'e', 'n', 's', 'e'] then some .dense else if w = ['s', 'p', 'a', 'r', 's', 'e'] then some .sparse else none

/-- `stringToBoolOrUnknown` of a keyword (which is not `?`) — DaphneDialect.cpp:351-360. -/
def symOf (w : List Char) : Option Bool :=
  if w = ['f', 'a', 'l', 's', 'e'] then some false else if w = ['t', 'r', 'u', 'e'] then some true else none

/-- One property, after the colon — DaphneDialect.cpp:159-181. -/
def parseProp (pf : List Char → Option (F × List Char)) (m : Mx F) (l : List Char) : Option (Mx F × List Char) :=
  if (word l).1 = ['s', 'p'] then
    if m.sp.isSome then none
    else do
      let r ← lit '[' (word l).2
      let q ← pf r
      let r ← lit ']' q.2
      some ({ m with sp := some q.1 }, r)
  else if (word l).1 = ['r', 'e', 'p'] then do
    let r ← lit '[' (word l).2
    let rep ← repOf (word r).1
    let r ← lit ']' (word r).2
    some ({ m with rep := rep }, r)
  else if (word l).1 = ['s', 'y', 'm', 'm', 'e', 't', 'r', 'i', 'c'] then do
    let r ← lit '[' (word l).2
    let b ← symOf (word r).1
    let r ← lit ']' (word r).2
    some ({ m with sym := some b }, r)
  else none

/-- The loop over the properties — DaphneDialect.cpp:158-182. Simplification: at most as many properties as there are characters. -/
def parseProps (pf : List Char → Option (F × List Char)) : Nat → Mx F → List Char → Option (Mx F × List Char)
  | n + 1, m, ':' :: l => (parseProp pf m l).bind fun q => parseProps pf n q.1 q.2
  | _, m, l => some (m, l)

/-- A matrix type, after `Matrix` — DaphneDialect.cpp:128-188. -/
def parseMx (pf : List Char → Option (F × List Char)) (l : List Char) : Option (Mx F × List Char) := do
  let l ← lit '<' l
  let q ← parseDim l
  let l ← lit 'x' q.2
  let p ← parseDim l
  let l ← lit 'x' p.2
  let e ← parseElt l
  let m ← parseProps pf e.2.length ⟨e.1, q.1, p.1, none, .dense, none⟩ e.2
  let l ← lit '>' m.2
  some (m.1, l)

/-- White space. -/
def skipBlanks (l : List Char) : List Char := l.dropWhile (· == ' ')

/-- The column types of a frame — DaphneDialect.cpp:203-208. Simplification: at most as many as there are characters. -/
def parseElts : Nat → List Char → Option (List Elt × List Char)
  | 0, _ => none
  | n + 1, l => do
    let e ← parseElt (skipBlanks l)
    match e.2 with
    | ',' :: r => (parseElts n r).map fun q => (e.1 :: q.1, q.2)
    | r => some ([e.1], r)

/-- A frame type, after `Frame` — DaphneDialect.cpp:189-212. -/
def parseFrame (l : List Char) : Option (Ty F × List Char) := do
  let l ← lit '<' l
  let l ← lit '?' l
  let l ← (if (word l).1 = ['x'] then some (word l).2 else none)
  let l ← lit '[' l
  let l ← lit '?' l
  let l ← lit ':' l
  let q ← parseElts l.length l
  let l ← lit ']' q.2
  let l ← lit '>' l
  some (.frame none none q.1 none, l)

/-- A column type, after `Column` — DaphneDialect.cpp:221-236. -/
def parseColumn (l : List Char) : Option (Ty F × List Char) := do
  let l ← lit '<' l
  let q ← parseDim l
  let l ← lit 'x' q.2
  let e ← parseElt l
  let l ← lit '>' e.2
  some (.column e.1 q.1, l)

/-- A handle type, after `Handle`, of a matrix type (DaphneDialect.cpp:462-468) — DaphneDialect.cpp:213-218. -/
def parseHandle (pf : List Char → Option (F × List Char)) (l : List Char) : Option (Ty F × List Char) := do
  let l ← lit '<' l
  let l ← lit '!' l
  if (word l).1 = ['d', 'a', 'p', 'h', 'n', 'e', '.', 'M', 'a', 't', 'r', 'i', 'x'] then do
    let m ← parseMx pf (word l).2
    let l ← lit '>' m.2
    some (.handle m.1, l)
  else none

/-- `DaphneDialect::parseType` (after `!daphne.`) — DaphneDialect.cpp:118-243. -/
def parseType (pf : List Char → Option (F × List Char)) (l : List Char) : Option (Ty F × List Char) :=
  let w := (word l).1
  let r := (word l).2
  if w = ['M', 'a', 't', 'r', 'i', 'x'] then (parseMx pf r).map fun q => (.matrix q.1, q.2)
  else if w = ['F', 'r', 'a', 'm', 'e'] then parseFrame r
  else if w = ['H', 'a', 'n', 'd', 'l', 'e'] then parseHandle pf r
  else if w = ['S', 't', 'r', 'i', 'n', 'g'] then some (.string, r)
  else if w = ['C', 'o', 'l', 'u', 'm', 'n'] then parseColumn r
  else if w = ['D', 'a', 'p', 'h', 'n', 'e', 'C', 'o', 'n', 't', 'e', 'x', 't'] then some (.context, r)
  else none

/-! ### Uniquing of matrix types -/

/-- `epsilon` — DaphneTypeStorage.h:35. -/
def eps : ℚ := 1 / 1000000

/-- The sparsity of a matrix type, as stored: `-1` if it is unknown. Simplification: rationals for doubles. -/
def spVal : Option ℚ → ℚ
  | none => -1
  | some s => s

/-- `MatrixTypeStorage::operator==` — DaphneDialect.cpp:372-386. -/
def same (t k : Mx ℚ) : Bool :=
  if t.elt ≠ k.elt then false
  else if t.rows ≠ k.rows then false
  else if t.cols ≠ k.cols then false
  else if eps ≤ |spVal t.sp - spVal k.sp| then false
  else if t.rep ≠ k.rep then false
  else if t.sym ≠ k.sym then false
  else true

/-- `static_cast<ssize_t>(sparsity / epsilon)`: truncation. -/
def bucket (s : ℚ) : ℤ := if 0 ≤ s then ⌊s / eps⌋ else ⌈s / eps⌉

/-- What `MatrixTypeStorage::hashKey` combines — DaphneDialect.cpp:389-393. -/
def hashed (k : Mx ℚ) : Elt × Option Nat × Option Nat × ℤ × Rep × Option Bool :=
  (k.elt, k.rows, k.cols, bucket (spVal k.sp), k.rep, k.sym)

/-- `MatrixType::get` in a context with the given storages, in the order they are visited. Trusted contract of MLIR's `StorageUniquer`, a hash set: the result is a storage
that compares equal to the key, or a new one; it is not new if there is one with the same hash that compares equal. Which of several is found is left open:
`find` picks one. -/
def get (find : List (Mx ℚ) → Mx ℚ → Option (Mx ℚ)) (stored : List (Mx ℚ)) (k : Mx ℚ) : Mx ℚ × List (Mx ℚ) :=
  match find stored k with
  | some t => (t, stored)
  | none => (k, k :: stored)

/-- A history of requests: the storages afterwards. -/
def after (find : List (Mx ℚ) → Mx ℚ → Option (Mx ℚ)) : List (Mx ℚ) → List (Mx ℚ)
  | [] => []
  | k :: ks => (get find (after find ks) k).2

end Verif.TyText
