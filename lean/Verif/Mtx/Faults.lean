/-
  Integer values, examples, and C267-C272: files that are not handled.
-/
import Verif.Mtx.Props

namespace Verif.Mtx
open Verif Verif.Io

/-- Integers: `convertCstr` is `atoi` with a conversion to the type, `(VT) -cur` wraps. -/
def intNum (t : IntTy) : Num Int := ⟨t.convert, fun v => t.cast (-v), 1, 0⟩

theorem strtol_space (l : List Char) : strtol (' ' :: l) = strtol l := by
  have : (' ' :: l).dropWhile isSpace = l.dropWhile isSpace := List.dropWhile_cons_of_pos (by decide)
  simp only [strtol, this]

/-- Printed integers are read: all of types up to 32 bits, those between -2^31 and 2^31 of 64-bit types. -/
theorem reads_print (t : IntTy) {v : Int} (hv : t.InRange v) (h64 : t = .si64 ∨ t = .ui64 → -2 ^ 31 ≤ v ∧ v < 2 ^ 31) : Reads (intNum t) (printInt v) v := by
  have hb := inRange64 hv h64
  have h : t.convert (printInt v ++ ['\n']) = v := by rw [convert_print t hb nl_digit, cast_wrap t hv h64]
  refine ⟨fun hm => (printInt_chars v _ hm).2 rfl, h, ?_⟩
  have e : t.convert (' ' :: (printInt v ++ ['\n'])) = t.convert (printInt v ++ ['\n']) := by simp only [IntTy.convert, atoi, strtol_space]
  exact e.trans h

/-! ### Examples -/

def exBanner (fmt field sym : String) : List Char := "%%MatrixMarket Matrix ".toList ++ (fmt.toList ++ ' ' :: (field.toList ++ ' ' :: sym.toList))

/-- Skew-symmetric, 3×3. -/
def exItems : List (Item Int) := [⟨2, 0, printInt 7, 7⟩, ⟨1, 0, printInt (-4), -4⟩]

def exText : List Char := fileText (exBanner "coordinate" "integer" "skew-symmetric") ["% a comment".toList, []]
  (digits 3 ++ ' ' :: (digits 3 ++ ' ' :: digits exItems.length)) (coordBody false exItems)

theorem exCoord : CoordFile (intNum .si32) .integer .skew 3 3 exItems exText := by
  refine ⟨.inr (.inl rfl), ⟨_, _, ⟨"Matrix".toList, "coordinate".toList, "integer".toList, "skew-symmetric".toList, rfl, by decide, by decide, by decide, by decide⟩, ?_, rfl⟩,
    ?_, ⟨by decide, by decide, fun _ => rfl, by simp, by decide, by simp⟩, by omega⟩
  · intro l hl
    simp only [List.mem_cons, List.not_mem_nil, or_false] at hl
    rcases hl with rfl | rfl <;> exact ⟨by decide, by decide⟩
  · intro e he
    rw [if_neg (by simp)]
    simp only [exItems, List.mem_cons, List.not_mem_nil, or_false] at he
    rcases he with rfl | rfl
    · refine reads_print (v := 7) .si32 ?_ ?_ <;> simp [IntTy.InRange]
    · refine reads_print (v := -4) .si32 ?_ ?_ <;> simp [IntTy.InRange]

/-- The matrix has the value 4 above the diagonal and zeros on it. -/
theorem exCoord_dense (junk : Entry Int) (mem : Nat → Int) :
    Res.Ok (readDense (intNum .si32) (some exText) junk mem) fun m => m.vals.data (0 * 3 + 1) = 4 ∧ m.vals.data (1 * 3 + 1) = 0 := by
  refine (C263_dense_coordinate exCoord junk mem).mono fun m ⟨_, _, _, h⟩ => ⟨(h 0 1 (by omega) (by omega)).1 4 ?_, (h 1 1 (by omega) (by omega)).2 ?_⟩
  · exact .inr (.inr ⟨rfl, ⟨1, 0, printInt (-4), -4⟩, by simp [exItems], rfl, rfl, by decide⟩)
  · rintro ⟨v, hv⟩
    rcases hv with ⟨e, he, h1, h2, _⟩ | ⟨h, _⟩ | ⟨_, e, he, h1, h2, _⟩
    · simp only [exItems, List.mem_cons, List.not_mem_nil, or_false] at he
      rcases he with rfl | rfl <;> simp at h1 h2
    · cases h
    · simp only [exItems, List.mem_cons, List.not_mem_nil, or_false] at he
      rcases he with rfl | rfl <;> simp at h1 h2

/-- Symmetric, 2×2, array format. -/
def exArr : List (Item Int) := [⟨0, 0, printInt 1, 1⟩, ⟨1, 0, printInt 2, 2⟩, ⟨1, 1, printInt 3, 3⟩]

def exArrText : List Char := fileText (exBanner "array" "real" "symmetric") [] (digits 2 ++ ' ' :: digits 2) (arrayBody exArr)

theorem exArray : ArrayFile (intNum .si64) .real .symmetric 2 2 exArr exArrText := by
  refine ⟨.inl rfl, ⟨_, _, ⟨"Matrix".toList, "array".toList, "real".toList, "symmetric".toList, rfl, by decide, by decide, by decide, by decide⟩, ?_, rfl⟩,
    ?_, by decide, fun _ => rfl, by simp, by omega⟩
  · simp
  · intro e he
    simp only [exArr, List.mem_cons, List.not_mem_nil, or_false] at he
    rcases he with rfl | rfl | rfl
    · refine reads_print (v := 1) .si64 ?_ ?_ <;> simp [IntTy.InRange]
    · refine reads_print (v := 2) .si64 ?_ ?_ <;> simp [IntTy.InRange]
    · refine reads_print (v := 3) .si64 ?_ ?_ <;> simp [IntTy.InRange]

/-! ### Files that are not handled -/

def junkE : Entry Int := ⟨0, 0, 0⟩

/-- What is left of a reading: the values, if there is no fault. -/
def valsOf (r : Res (Dense Int)) : Option (List Int) := match r with
  | .ok m => some ((List.range m.vals.size).map m.vals.data)
  | .error _ => none

def isUb (r : Res (Dense Int)) : Bool := match r with
  | .error (.ub _) => true
  | _ => false

def isThrow (r : Res (Dense Int)) : Bool := match r with
  | .error (.throw _) => true
  | _ => false

def rd (s : String) : Res (Dense Int) := readDense (intNum .si64) (some s.toList) junkE fun _ => 77

/-- C267: a blank line at the end: in array format it overwrites a cell, in coordinate format it is an exception. -/
theorem C267_blank_line_partial :
    valsOf (rd "%%MatrixMarket matrix array integer general\n2 2\n1\n2\n3\n4\n") = some [1, 3, 2, 4] ∧
    valsOf (rd "%%MatrixMarket matrix array integer general\n2 2\n1\n2\n3\n4\n\n") = some [1, 3, 0, 4] ∧
    isThrow (rd "%%MatrixMarket matrix coordinate integer general\n2 2 1\n1 1 5\n\n") = true := by
  refine ⟨?_, ?_, ?_⟩ <;> decide +kernel

/-- C268: other white space than single spaces between the numbers of an entry: a wrong value without an exception (a space in front, two spaces
    between the indices), or a read out of bounds (tabulators). -/
theorem C268_white_space_partial :
    valsOf (rd "%%MatrixMarket matrix coordinate integer general\n1 2 1\n1 1 5\n") = some [5, 0] ∧
    valsOf (rd "%%MatrixMarket matrix coordinate integer general\n1 2 1\n 1 1 5\n") = some [1, 0] ∧
    valsOf (rd "%%MatrixMarket matrix coordinate integer general\n1 2 1\n1  1 5\n") = some [1, 0] ∧
    isUb (rd "%%MatrixMarket matrix coordinate integer general\n1 2 1\n1\t1\t5\n") = true := by
  refine ⟨?_, ?_, ?_, ?_⟩ <;> decide +kernel

/-- C269: a file that does not exist is a null pointer; a file without a banner and one with complex or Hermitian entries are read as
    if they were real and general, without an exception; a long word in the first line overflows a buffer. -/
theorem C269_not_rejected_partial :
    isUb (readDense (intNum .si64) none junkE fun _ => 77) = true ∧
    valsOf (rd "This is not a matrix\n1 2\n5\n6\n") = some [5, 6] ∧
    valsOf (rd "%%MatrixMarket matrix coordinate complex general\n1 1 1\n1 1 5 6\n") = some [5] ∧
    valsOf (rd "%%MatrixMarket matrix coordinate complex hermitian\n2 2 1\n2 1 5 6\n") = some [0, 0, 5, 0] ∧
    isUb (readDense (intNum .si64) (some (List.replicate 64 'x' ++ ['\n'])) junkE fun _ => 77) = true := by
  refine ⟨?_, ?_, ?_, ?_, ?_⟩ <;> decide +kernel

/-- C270: a file of a pattern whose last line does not end with a newline is read out of bounds; with numbers it is read. -/
theorem C270_no_newline_partial :
    valsOf (rd "%%MatrixMarket matrix coordinate integer general\n1 2 1\n1 1 5") = some [5, 0] ∧
    isUb (rd "%%MatrixMarket matrix coordinate pattern general\n1 2 1\n1 1") = true := by
  refine ⟨?_, ?_⟩ <;> decide +kernel

/-- C271: 64-bit integers beyond 32 bits: another value. -/
theorem C271_int64_partial : IntTy.si64.InRange 4294967298 ∧
    valsOf (rd "%%MatrixMarket matrix array integer general\n1 1\n4294967298\n") = some [2] := by
  refine ⟨by simp [IntTy.InRange], ?_⟩
  decide +kernel

/-- C272: indices and the number of entries are not checked: a column that does not exist is another cell, a row that does not exist is a
    write out of bounds, and with fewer entries than announced cells remain uninitialised. -/
theorem C272_unchecked_partial :
    valsOf (rd "%%MatrixMarket matrix coordinate integer general\n2 2 2\n2 1 6\n1 3 5\n") = some [0, 0, 5, 0] ∧
    isUb (rd "%%MatrixMarket matrix coordinate integer general\n2 2 1\n3 1 5\n") = true ∧
    isUb (rd "%%MatrixMarket matrix coordinate integer general\n2 2 1\n0 1 5\n") = true ∧
    valsOf (rd "%%MatrixMarket matrix coordinate integer general\n1 2 2\n1 1 5\n") = some [5, 77] := by
  refine ⟨?_, ?_, ?_, ?_⟩ <;> decide +kernel

end Verif.Mtx
