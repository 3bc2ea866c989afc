/-
  Types as text, and unique types (C308-C312).
-/
import Verif.TyText.Lemmas
import Mathlib.Tactic.NormNum

namespace Verif.TyText

variable {F : Type}

/-! ### Specification -/

/-- The number of rows or columns fits the machine type. -/
def Fits (d : Option Nat) : Prop := ∀ n, d = some n → n < 2 ^ 63

/-- `f32` or `f64`: the names that start with a hexadecimal digit. -/
def Floating (e : Elt) : Prop := e = .f32 ∨ e = .f64

/-- The matrix types whose text is unambiguous. -/
def PlainMx (m : Mx F) : Prop :=
  m.elt ≠ .unknown ∧ Fits m.rows ∧ Fits m.cols ∧ (m.rows = some 0 → m.cols = none) ∧ (m.cols = some 0 → ¬ Floating m.elt)

/-- The types whose text can be read again. -/
def Plain : Ty F → Prop
  | .matrix m | .handle m => PlainMx m
  | .column e rows => e ≠ .unknown ∧ Fits rows ∧ (rows = some 0 → ¬ Floating e)
  | .string | .context => True
  | _ => False

/-! ### Reading what was printed -/

theorem elt_not_hex (e : Elt) (h : ¬ Floating e) (r : List Char) : ∀ c u, e.text ++ r = c :: u → isHex c = false := by
  intro c u heq
  cases e
  case f32 => exact absurd (.inl rfl) h
  case f64 => exact absurd (.inr rfl) h
  all_goals
    have h1 := (List.cons.inj heq).1
    rw [← h1]
    decide

theorem mx_roundtrip {sf : F → List Char} {pf} (h : FloatOk sf pf) (m : Mx F) (hm : PlainMx m) (r : List Char) :
    parseMx pf (mxText sf m ++ r) = some (m, r) := by
  obtain ⟨h1, h2, h3, h4, h5⟩ := hm
  have e : mxText sf m ++ r = '<' :: (dimText m.rows ++ 'x' :: (dimText m.cols ++ 'x' :: (m.elt.text ++ (propsText sf m ++ '>' :: r)))) := by
    unfold mxText
    simp only [List.cons_append, List.append_assoc, List.nil_append]
  rw [e]
  unfold parseMx
  have d1 : parseDim (dimText m.rows ++ 'x' :: (dimText m.cols ++ 'x' :: (m.elt.text ++ (propsText sf m ++ '>' :: r)))) = some (m.rows, 'x' :: (dimText m.cols ++ 'x' :: (m.elt.text ++ (propsText sf m ++ '>' :: r)))) := by
    apply parseDim_ok _ _ h2
    intro h0 c u heq
    rw [h4 h0] at heq
    rw [← (List.cons.inj heq).1]
    decide
  have d2 : parseDim (dimText m.cols ++ 'x' :: (m.elt.text ++ (propsText sf m ++ '>' :: r))) = some (m.cols, 'x' :: (m.elt.text ++ (propsText sf m ++ '>' :: r))) :=
    parseDim_ok _ _ h3 fun h0 => elt_not_hex m.elt (h5 h0) _
  have d3 := parseElt_ok m.elt (propsText sf m ++ '>' :: r) h1 (props_stop sf m r)
  have d4 := props1 h m.sp m.rep m.sym ⟨m.elt, m.rows, m.cols, none, .dense, none⟩ rfl rfl rfl _ r (le_refl _)
  rw [← propsText_eq] at d4
  simp only [lit_eq, d1, d2, d3, d4, Option.bind_eq_bind, Option.bind_some]

/-- **C308.** Reading the text of a type gives the type, and leaves what follows it — for matrix, column, handle and string types that have no
ambiguous extents. -/
theorem C308_type_text_roundtrip {sf : F → List Char} {pf} (h : FloatOk sf pf) (t : Ty F) (ht : Plain t) (r : List Char) (hr : Stop r) :
    parseType pf (printType sf t ++ r) = some (t, r) := by
  cases t with
  | matrix m =>
    have e := word_eq ['M', 'a', 't', 'r', 'i', 'x'] (mxText sf m ++ r) (by decide) (stop_cons (by decide))
    unfold parseType printType
    rw [List.append_assoc, e]
    simp only [if_true, mx_roundtrip h m ht r, Option.map_some]
  | handle m =>
    have e := word_eq ['H', 'a', 'n', 'd', 'l', 'e'] ('<' :: (['!', 'd', 'a', 'p', 'h', 'n', 'e', '.', 'M', 'a', 't', 'r', 'i', 'x'] ++ (mxText sf m ++ ['>'])) ++ r)
      (by decide) (stop_cons (by decide))
    have e2 := word_eq ['d', 'a', 'p', 'h', 'n', 'e', '.', 'M', 'a', 't', 'r', 'i', 'x'] (mxText sf m ++ '>' :: r) (by decide) (stop_cons (by decide))
    unfold parseType printType
    rw [List.append_assoc, e]
    have : '<' :: (['!', 'd', 'a', 'p', 'h', 'n', 'e', '.', 'M', 'a', 't', 'r', 'i', 'x'] ++ (mxText sf m ++ ['>'])) ++ r =
        '<' :: '!' :: (['d', 'a', 'p', 'h', 'n', 'e', '.', 'M', 'a', 't', 'r', 'i', 'x'] ++ (mxText sf m ++ '>' :: r)) := by
      simp
    rw [this]
    simp only [parseHandle, lit_eq, Option.bind_eq_bind, Option.bind_some, e2, if_true, mx_roundtrip h m ht, List.cons.injEq, Char.reduceEq, false_and, and_false, if_false]
  | column el rows =>
    obtain ⟨h1, h2, h3⟩ := ht
    have e := word_eq ['C', 'o', 'l', 'u', 'm', 'n'] ('<' :: (dimText rows ++ 'x' :: (el.text ++ ['>'])) ++ r) (by decide) (stop_cons (by decide))
    unfold parseType printType
    rw [List.append_assoc, e]
    have : '<' :: (dimText rows ++ 'x' :: (el.text ++ ['>'])) ++ r = '<' :: (dimText rows ++ 'x' :: (el.text ++ '>' :: r)) := by simp
    rw [this]
    have d1 := parseDim_ok rows (el.text ++ '>' :: r) h2 fun h0 => elt_not_hex el (h3 h0) _
    have d2 := parseElt_ok el ('>' :: r) h1 (stop_cons (by decide))
    simp only [parseColumn, lit_eq, Option.bind_eq_bind, Option.bind_some, d1, d2, if_true, List.cons.injEq, Char.reduceEq, false_and, and_false, if_false]
  | string =>
    have e := word_eq ['S', 't', 'r', 'i', 'n', 'g'] r (by decide) hr
    unfold parseType printType
    rw [e]
    simp
  | context =>
    have e := word_eq ['D', 'a', 'p', 'h', 'n', 'e', 'C', 'o', 'n', 't', 'e', 'x', 't'] r (by decide) hr
    unfold parseType printType
    rw [e]
    simp
  | frame => exact absurd ht id
  | list => exact absurd ht id
  | pack => exact absurd ht id
  | file => exact absurd ht id
  | descriptor => exact absurd ht id
  | target => exact absurd ht id
  | unknown => exact absurd ht id
  | struct => exact absurd ht id

/-! ### Text that cannot be read -/

theorem hexDim (c : Char) (t : List Char) (hc : isHex c = true) (q : Option Nat × List Char) (h : parseDim ('0' :: 'x' :: c :: t) = some q) :
    q.2 = (c :: t).dropWhile isHex := by
  have e : parseDim ('0' :: 'x' :: c :: t) = (parseInt ('0' :: 'x' :: c :: t)).map fun q => (some q.1, q.2) := rfl
  have e2 : lexInt ('0' :: 'x' :: c :: t) = if isHex c then some (((c :: t).takeWhile isHex).foldl (fun n d => 16 * n + hexVal d) 0, (c :: t).dropWhile isHex)
    else some (0, 'x' :: c :: t) := rfl
  rw [e] at h
  unfold parseInt at h
  rw [e2, if_pos hc] at h
  simp only [Option.bind_some, Option.map_eq_some_iff] at h
  obtain ⟨a, ha, hq⟩ := h
  split at ha
  · cases ha
    rw [← hq]
  · cases ha

theorem digit_hex {c : Char} (h : c.isDigit = true) : isHex c = true := by
  unfold isHex
  rw [h]
  rfl

theorem elt_not_dim (e : Elt) (r : List Char) : parseDim (e.text ++ r) = none := by
  cases e <;> rfl

/-- A matrix type with no rows and a known number of columns. -/
theorem zero_rows {sf : F → List Char} (pf : List Char → Option (F × List Char)) (m : Mx F) (n : Nat) (h1 : m.rows = some 0) (h2 : m.cols = some n) (r : List Char) :
    parseMx pf (mxText sf m ++ r) = none := by
  obtain ⟨c, cs, ec, hd, _⟩ := digits_head (n := n)
  have e : mxText sf m ++ r = '<' :: '0' :: 'x' :: (Nat.toDigits 10 n ++ 'x' :: (m.elt.text ++ (propsText sf m ++ '>' :: r))) := by
    unfold mxText
    rw [h1, h2]
    simp only [dimText, Nat.toDigits_zero, List.cons_append, List.append_assoc, List.nil_append]
  rw [e]
  unfold parseMx
  simp only [lit_eq, Option.bind_eq_bind, Option.bind_some]
  cases hq : parseDim ('0' :: 'x' :: (Nat.toDigits 10 n ++ 'x' :: (m.elt.text ++ (propsText sf m ++ '>' :: r)))) with
  | none => rfl
  | some q =>
    have hrun := (run (p := isHex) (Nat.toDigits 10 n) ('x' :: (m.elt.text ++ (propsText sf m ++ '>' :: r))) (fun d hd => digit_hex (digits_all d hd))
      (by intro d u e; cases e; decide)).2
    have hrest : q.2 = 'x' :: (m.elt.text ++ (propsText sf m ++ '>' :: r)) := by
      rw [ec] at hq hrun
      rw [hexDim c _ (digit_hex hd) q hq]
      exact hrun
    simp only [Option.bind_some, hrest, lit_eq, elt_not_dim, Option.bind_none]

theorem floating_hex (e : Elt) (he : Floating e) : ∃ c w, e.text = c :: w ∧ isHex c = true ∧ ∀ d ∈ c :: w, isHex d = true := by
  rcases he with rfl | rfl
  · exact ⟨'f', ['3', '2'], rfl, by decide, by decide⟩
  · exact ⟨'f', ['6', '4'], rfl, by decide, by decide⟩

/-- Zero columns (or rows of a column) and a floating-point value type: the rest starts after the name of the type. -/
theorem zero_then_float (e : Elt) (he : Floating e) (r : List Char) (hr : ∀ c t, r = c :: t → isHex c = false ∧ c ≠ 'x') :
    ((parseDim ('0' :: 'x' :: (e.text ++ r))).bind fun q => lit 'x' q.2) = none := by
  obtain ⟨c, w, ew, hc, hw⟩ := floating_hex e he
  cases hq : parseDim ('0' :: 'x' :: (e.text ++ r)) with
  | none => rfl
  | some q =>
    have hrest : q.2 = r := by
      rw [ew] at hq
      rw [hexDim c _ hc q hq]
      exact (run (p := isHex) (c :: w) r hw fun d t h => (hr d t h).1).2
    simp only [Option.bind_some, hrest]
    cases r with
    | nil => rfl
    | cons d t => exact if_neg (hr d t rfl).2

theorem props_first (sf : F → List Char) (m : Mx F) (r : List Char) : ∀ c t, propsText sf m ++ '>' :: r = c :: t → isHex c = false ∧ c ≠ 'x' := by
  intro c t h
  rw [propsText_eq] at h
  have hc : c = ':' ∨ c = '>' := by
    unfold spPart repPart symPart at h
    cases hs : m.sp with
    | some f => rw [hs] at h; exact .inl (List.cons.inj h).1.symm
    | none =>
      rw [hs] at h
      cases hp : m.rep with
      | sparse => rw [hp] at h; exact .inl (List.cons.inj h).1.symm
      | dense =>
        rw [hp] at h
        cases hb : m.sym with
        | some b => rw [hb] at h; exact .inl (List.cons.inj h).1.symm
        | none => rw [hb] at h; exact .inr (List.cons.inj h).1.symm
  rcases hc with rfl | rfl <;> exact ⟨by decide, by decide⟩

theorem zero_cols {sf : F → List Char} (pf : List Char → Option (F × List Char)) (m : Mx F) (h1 : m.cols = some 0) (h2 : Floating m.elt) (r : List Char) : parseMx pf (mxText sf m ++ r) = none := by
  by_cases hz : m.rows = some 0
  · exact zero_rows pf m 0 hz h1 r
  · have e : mxText sf m ++ r = '<' :: (dimText m.rows ++ 'x' :: ('0' :: 'x' :: (m.elt.text ++ (propsText sf m ++ '>' :: r)))) := by
      unfold mxText
      rw [h1]
      simp only [dimText, Nat.toDigits_zero, List.cons_append, List.append_assoc, List.nil_append]
    have hz2 := zero_then_float m.elt h2 _ (props_first sf m r)
    rw [e]
    unfold parseMx
    simp only [lit_eq, Option.bind_eq_bind, Option.bind_some]
    have hd : ∀ q, parseDim (dimText m.rows ++ 'x' :: ('0' :: 'x' :: (m.elt.text ++ (propsText sf m ++ '>' :: r)))) = some q →
        q.2 = 'x' :: ('0' :: 'x' :: (m.elt.text ++ (propsText sf m ++ '>' :: r))) := by
      intro q hq
      cases hrows : m.rows with
      | none =>
        rw [hrows] at hq
        cases hq
        rfl
      | some n =>
        by_cases hn : n < 2 ^ 63
        · rw [hrows, parseDim_ok (some n) _ (fun k hk => by cases hk; exact hn) (fun h0 => absurd (hrows.trans h0) hz)] at hq
          cases hq
          rfl
        · exfalso
          have hl := lexInt_ok n ('0' :: 'x' :: (m.elt.text ++ (propsText sf m ++ '>' :: r))) (fun h0 => absurd (by rw [hrows, h0]) hz)
          obtain ⟨c, cs, ec, hdig, _⟩ := digits_head (n := n)
          rw [hrows] at hq
          unfold dimText parseDim at hq
          split at hq
          · rename_i heq
            simp only [ec, List.cons_append, List.cons.injEq] at heq
            rw [heq.1] at hdig
            exact absurd hdig (by decide)
          · unfold parseInt at hq
            rw [hl] at hq
            simp only [Option.bind_some, if_neg hn, Option.map_none] at hq
            cases hq
    cases hq : parseDim (dimText m.rows ++ 'x' :: ('0' :: 'x' :: (m.elt.text ++ (propsText sf m ++ '>' :: r)))) with
    | none => rfl
    | some q =>
      simp only [Option.bind_some, hd q hq, lit_eq]
      cases hp : parseDim ('0' :: 'x' :: (m.elt.text ++ (propsText sf m ++ '>' :: r))) with
      | none => rfl
      | some p =>
        rw [hp] at hz2
        simp only [Option.bind_some] at hz2
        simp only [Option.bind_some, hz2, Option.bind_none]

/-- **C309, refuted.** The text of a matrix type without rows (and with a known number of columns), of one without columns with a floating-point value type, and of a
column type without rows with such a value type cannot be read: `0x` starts a hexadecimal number. -/
theorem C309_zero_extents_partial (sf : F → List Char) (pf : List Char → Option (F × List Char)) (r : List Char) :
    (∀ m : Mx F, ∀ n, m.rows = some 0 → m.cols = some n → parseType pf (printType sf (.matrix m) ++ r) = none) ∧
    (∀ m : Mx F, m.cols = some 0 → Floating m.elt → parseType pf (printType sf (.matrix m) ++ r) = none) ∧
    (∀ e, Floating e → parseType pf (printType sf (.column e (some 0)) ++ r) = none) := by
  have mat : ∀ m : Mx F, parseMx pf (mxText sf m ++ r) = none → parseType pf (printType sf (.matrix m) ++ r) = none := by
    intro m hm
    have e := word_eq ['M', 'a', 't', 'r', 'i', 'x'] (mxText sf m ++ r) (by decide) (stop_cons (by decide))
    unfold parseType printType
    rw [List.append_assoc, e]
    simp only [if_true, hm, Option.map_none]
  refine ⟨fun m n h1 h2 => mat m (zero_rows pf m n h1 h2 r), fun m h1 h2 => mat m (zero_cols pf m h1 h2 r), ?_⟩
  intro el he
  have e := word_eq ['C', 'o', 'l', 'u', 'm', 'n'] ('<' :: (dimText (some 0) ++ 'x' :: (el.text ++ ['>'])) ++ r) (by decide) (stop_cons (by decide))
  have hz := zero_then_float el he ('>' :: r) (by intro c t h; cases h; exact ⟨by decide, by decide⟩)
  unfold parseType printType
  rw [List.append_assoc, e]
  have : '<' :: (dimText (some 0) ++ 'x' :: (el.text ++ ['>'])) ++ r = '<' :: '0' :: 'x' :: (el.text ++ '>' :: r) := by simp [dimText]
  rw [this]
  simp only [parseColumn, lit_eq, Option.bind_eq_bind, Option.bind_some, List.cons.injEq, Char.reduceEq, false_and, and_false, if_false]
  cases hp : parseDim ('0' :: 'x' :: (el.text ++ '>' :: r)) with
  | none => rfl
  | some p =>
    rw [hp] at hz
    simp only [Option.bind_some] at hz
    simp only [if_true, Option.bind_some, hz, Option.bind_none]

/-! ### Frames and the other types -/

theorem parseElt_unknown (r : List Char) (hr : Stop r) : parseElt (Elt.unknown.text ++ r) = none := by
  have h := word_eq ['d', 'a', 'p', 'h', 'n', 'e', '.', 'U', 'n', 'k', 'n', 'o', 'w', 'n'] r (by decide) hr
  have e : Elt.unknown.text ++ r = '!' :: (['d', 'a', 'p', 'h', 'n', 'e', '.', 'U', 'n', 'k', 'n', 'o', 'w', 'n'] ++ r) := rfl
  rw [e]
  show (if (word (['d', 'a', 'p', 'h', 'n', 'e', '.', 'U', 'n', 'k', 'n', 'o', 'w', 'n'] ++ r)).1 = ['d', 'a', 'p', 'h', 'n', 'e', '.', 'S', 't', 'r', 'i', 'n', 'g'] then some (Elt.string, (word (['d', 'a', 'p', 'h', 'n', 'e', '.', 'U', 'n', 'k', 'n', 'o', 'w', 'n'] ++ r)).2) else none) = _
  rw [h]
  simp

theorem skip_elt (e : Elt) (r : List Char) : skipBlanks (' ' :: (e.text ++ r)) = e.text ++ r ∧ skipBlanks (e.text ++ r) = e.text ++ r := by
  cases e <;> exact ⟨rfl, rfl⟩

/-- The column types of a printed frame are read up to the bracket, or not at all. -/
theorem parseElts_printed (cts : List Elt) (n : Nat) (r : List Char) (q : List Elt × List Char) (h : parseElts n (' ' :: (eltsText cts ++ ']' :: r)) = some q) :
    q.2 = ']' :: r := by
  induction cts generalizing n q with
  | nil =>
    cases n with
    | zero => cases h
    | succ n =>
      have : parseElt (skipBlanks (' ' :: (eltsText [] ++ ']' :: r))) = none := by
        show parseElt (']' :: r) = none
        show (builtin (word (']' :: r)).1).map (fun e => (e, (word (']' :: r)).2)) = none
        have : word (']' :: r) = ([], ']' :: r) := word_eq [] (']' :: r) (by simp) (close_stop r)
        rw [this]
        rfl
      simp only [parseElts, this, Option.bind_eq_bind, Option.bind_none] at h
      cases h
  | cons e es ih =>
    cases n with
    | zero => cases h
    | succ n =>
      cases es with
      | nil =>
        have e1 : skipBlanks (' ' :: (eltsText [e] ++ ']' :: r)) = e.text ++ ']' :: r := (skip_elt e (']' :: r)).1
        by_cases hu : e = .unknown
        · subst hu
          simp only [parseElts, e1, parseElt_unknown _ (close_stop r), Option.bind_eq_bind, Option.bind_none] at h
          cases h
        · simp only [parseElts, e1, parseElt_ok e _ hu (close_stop r), Option.bind_eq_bind, Option.bind_some] at h
          cases h
          rfl
      | cons f fs =>
        have e0 : eltsText (e :: f :: fs) ++ ']' :: r = e.text ++ ',' :: (' ' :: (eltsText (f :: fs) ++ ']' :: r)) := by
          show (e.text ++ ([',', ' '] ++ eltsText (f :: fs))) ++ ']' :: r = _
          simp
        have e1 : skipBlanks (' ' :: (eltsText (e :: f :: fs) ++ ']' :: r)) = e.text ++ ',' :: (' ' :: (eltsText (f :: fs) ++ ']' :: r)) := by
          rw [e0]
          exact (skip_elt e _).1
        have hstop : Stop (',' :: (' ' :: (eltsText (f :: fs) ++ ']' :: r))) := stop_cons (by decide)
        by_cases hu : e = .unknown
        · subst hu
          simp only [parseElts, e1, parseElt_unknown _ hstop, Option.bind_eq_bind, Option.bind_none] at h
          cases h
        · simp only [parseElts, e1, parseElt_ok e _ hu hstop, Option.bind_eq_bind, Option.bind_some, Option.map_eq_some_iff] at h
          obtain ⟨p, hp, hq⟩ := h
          rw [← hq]
          exact ih n p hp

theorem dim_not_question (n : Nat) (r : List Char) : lit '?' (dimText (some n) ++ r) = none := by
  obtain ⟨c, cs, e, hd, _⟩ := digits_head (n := n)
  have : dimText (some n) ++ r = c :: (cs ++ r) := by
    show Nat.toDigits 10 n ++ r = _
    rw [e]
    rfl
  rw [this]
  apply if_neg
  rintro rfl
  exact absurd hd (by decide)

/-- **C310, refuted.** The text of a frame type can never be read: the parser expects no labels; the same holds for lists, packs, files, descriptors, targets, unknown types and
structures, and for columns of an unknown value type. -/
theorem C310_unreadable_types_partial (sf : F → List Char) (pf : List Char → Option (F × List Char)) :
    (∀ rows cols cts labels r, parseType pf (printType sf (.frame rows cols cts labels) ++ r) = none) ∧
    (∀ t : Ty F, (∃ m, t = .list m ∨ t = .pack m) ∨ t = .file ∨ t = .descriptor ∨ t = .target ∨ t = .unknown ∨ t = .struct →
      ∀ r, Stop r → parseType pf (printType sf t ++ r) = none) ∧
    (∀ rows r, parseType pf (printType sf (.column .unknown rows) ++ r) = none) := by
  refine ⟨?_, ?_, ?_⟩
  · intro rows cols cts labels r
    have e := word_eq ['F', 'r', 'a', 'm', 'e'] ('<' :: (dimText rows ++ ['x', '['] ++ (dimText cols ++ [':', ' '] ++ (eltsText cts ++ [']', ',', ' '] ++
      (labelsText labels ++ ['>'])))) ++ r) (by decide) (stop_cons (by decide))
    unfold parseType printType
    rw [List.append_assoc, e]
    simp only [List.cons.injEq, Char.reduceEq, false_and, and_false, if_false, if_true]
    have e2 : '<' :: (dimText rows ++ ['x', '['] ++ (dimText cols ++ [':', ' '] ++ (eltsText cts ++ [']', ',', ' '] ++ (labelsText labels ++ ['>'])))) ++ r =
        '<' :: (dimText rows ++ 'x' :: '[' :: (dimText cols ++ ':' :: ' ' :: (eltsText cts ++ ']' :: ',' :: ' ' :: (labelsText labels ++ '>' :: r)))) := by
      simp
    rw [e2]
    unfold parseFrame
    simp only [lit_eq, Option.bind_eq_bind, Option.bind_some]
    cases rows with
    | some n => simp only [dim_not_question, Option.bind_none]
    | none =>
      have w : ∀ l, word ('x' :: '[' :: l) = (['x'], '[' :: l) := fun l => word_eq ['x'] ('[' :: l) (by decide) (bracket_stop l)
      simp only [dimText, List.cons_append, List.nil_append, lit_eq, Option.bind_some, w, if_true]
      cases cols with
      | some n =>
        have := dim_not_question n (':' :: ' ' :: (eltsText cts ++ ']' :: ',' :: ' ' :: (labelsText labels ++ '>' :: r)))
        simp only [dimText] at this
        simp only [this, Option.bind_none]
      | none =>
        simp only [List.cons_append, List.nil_append, lit_eq, Option.bind_some]
        cases hq : parseElts (' ' :: (eltsText cts ++ ']' :: ',' :: ' ' :: (labelsText labels ++ '>' :: r))).length
            (' ' :: (eltsText cts ++ ']' :: ',' :: ' ' :: (labelsText labels ++ '>' :: r))) with
        | none => rfl
        | some q =>
          have := parseElts_printed cts _ _ q hq
          have hl : ∀ l, lit '>' (',' :: l) = none := fun l => rfl
          simp only [Option.bind_some, this, lit_eq, hl, Option.bind_none]
  · have fail : ∀ (w r : List Char), (∀ c ∈ w, isWord c = true) → Stop r →
        (w ≠ ['M', 'a', 't', 'r', 'i', 'x'] ∧ w ≠ ['F', 'r', 'a', 'm', 'e'] ∧ w ≠ ['H', 'a', 'n', 'd', 'l', 'e'] ∧ w ≠ ['S', 't', 'r', 'i', 'n', 'g'] ∧
          w ≠ ['C', 'o', 'l', 'u', 'm', 'n'] ∧ w ≠ ['D', 'a', 'p', 'h', 'n', 'e', 'C', 'o', 'n', 't', 'e', 'x', 't']) →
        parseType pf (w ++ r) = none := by
      rintro w r hw hr ⟨h1, h2, h3, h4, h5, h6⟩
      unfold parseType
      rw [word_eq w r hw hr]
      simp only [if_neg h1, if_neg h2, if_neg h3, if_neg h4, if_neg h5, if_neg h6]
    rintro t (⟨m, rfl | rfl⟩ | rfl | rfl | rfl | rfl | rfl) r hr
    · unfold printType
      rw [List.append_assoc]
      exact fail _ _ (by decide) (stop_cons (by decide)) (by decide)
    · unfold printType
      rw [List.append_assoc]
      exact fail _ _ (by decide) (stop_cons (by decide)) (by decide)
    · exact fail ['F', 'i', 'l', 'e'] r (by decide) hr (by decide)
    · exact fail ['D', 'e', 's', 'c', 'r', 'i', 'p', 't', 'o', 'r'] r (by decide) hr (by decide)
    · exact fail ['T', 'a', 'r', 'g', 'e', 't'] r (by decide) hr (by decide)
    · exact fail ['U', 'n', 'k', 'n', 'o', 'w', 'n'] r (by decide) hr (by decide)
    · exact fail ['S', 't', 'r', 'u', 'c', 't', 'u', 'r', 'e'] r (by decide) hr (by decide)
  · intro rows r
    have e := word_eq ['C', 'o', 'l', 'u', 'm', 'n'] ('<' :: (dimText rows ++ 'x' :: (Elt.unknown.text ++ ['>'])) ++ r) (by decide) (stop_cons (by decide))
    unfold parseType printType
    rw [List.append_assoc, e]
    have : '<' :: (dimText rows ++ 'x' :: (Elt.unknown.text ++ ['>'])) ++ r = '<' :: (dimText rows ++ 'x' :: (Elt.unknown.text ++ '>' :: r)) := by simp
    rw [this]
    simp only [parseColumn, lit_eq, Option.bind_eq_bind, Option.bind_some, List.cons.injEq, Char.reduceEq, false_and, and_false, if_false, if_true]
    cases hq : parseDim (dimText rows ++ 'x' :: (Elt.unknown.text ++ '>' :: r)) with
    | none => rfl
    | some q =>
      by_cases hf : Fits rows
      · rw [parseDim_ok rows _ hf (fun _ => elt_not_hex .unknown (by rintro (h | h) <;> cases h) _)] at hq
        cases hq
        simp only [Option.bind_some, lit_eq, parseElt_unknown _ (stop_cons (by decide : isWord '>' = false)), Option.bind_none]
      · exfalso
        cases rows with
        | none => exact hf fun n h => by cases h
        | some n =>
          have hn : ¬ n < 2 ^ 63 := fun h => hf fun k hk => by cases hk; exact h
          have hl := lexInt_ok n (Elt.unknown.text ++ '>' :: r) (fun _ => elt_not_hex .unknown (by rintro (h | h) <;> cases h) _)
          obtain ⟨c, cs, ec, hdig, _⟩ := digits_head (n := n)
          unfold dimText parseDim at hq
          split at hq
          · rename_i heq
            simp only [ec, List.cons_append, List.cons.injEq] at heq
            rw [heq.1] at hdig
            exact absurd hdig (by decide)
          · unfold parseInt at hq
            rw [hl] at hq
            simp only [Option.bind_some, if_neg hn, Option.map_none] at hq
            cases hq

/-! ### Unique types -/

/-- The sparsity of a valid type: unknown or a fraction. -/
def SpValid (s : Option ℚ) : Prop := ∀ v, s = some v → 0 ≤ v ∧ v ≤ 1

/-- The contract of the hash set of types: it finds a stored type that compares equal (field by field, sparsities up to less than one millionth), and it finds one
if there is one that was stored under the same hash value. -/
structure Finds (find : List (Mx ℚ) → Mx ℚ → Option (Mx ℚ)) : Prop where
  sound : ∀ st k t, find st k = some t → t ∈ st ∧ same t k = true
  complete : ∀ st k t, t ∈ st → hashed t = hashed k → same t k = true → find st k ≠ none

theorem same_iff (t k : Mx ℚ) : same t k = true ↔ t.elt = k.elt ∧ t.rows = k.rows ∧ t.cols = k.cols ∧ |spVal t.sp - spVal k.sp| < eps ∧ t.rep = k.rep ∧ t.sym = k.sym := by
  unfold same
  by_cases h1 : t.elt = k.elt <;> by_cases h2 : t.rows = k.rows <;> by_cases h3 : t.cols = k.cols <;> by_cases h4 : |spVal t.sp - spVal k.sp| < eps <;>
    by_cases h5 : t.rep = k.rep <;> by_cases h6 : t.sym = k.sym <;> simp [h1, h2, h3, h4, h5, h6, not_le]

/-- What a request for a type may give: the same value type, extents, representation and symmetry, a sparsity that is known if and only if the requested one is, and that differs by
less than one millionth. -/
structure Near (t k : Mx ℚ) : Prop where
  elt : t.elt = k.elt
  rows : t.rows = k.rows
  cols : t.cols = k.cols
  rep : t.rep = k.rep
  sym : t.sym = k.sym
  unknown : t.sp = none ↔ k.sp = none
  close : ∀ a b, t.sp = some a → k.sp = some b → |a - b| < 1 / 1000000

theorem after_mem (find : List (Mx ℚ) → Mx ℚ → Option (Mx ℚ)) (ks : List (Mx ℚ)) (t : Mx ℚ) (h : t ∈ after find ks) : t ∈ ks := by
  induction ks with
  | nil => exact h
  | cons k ks ih =>
    unfold after get at h
    cases hq : find (after find ks) k with
    | some u =>
      rw [hq] at h
      exact List.mem_cons_of_mem _ (ih h)
    | none =>
      rw [hq] at h
      rcases List.mem_cons.mp h with rfl | h
      · exact List.mem_cons_self ..
      · exact List.mem_cons_of_mem _ (ih h)

/-- **C311.** After any history of requests for valid matrix types, a request gives a type that agrees with what was requested, up to less than one millionth in the sparsity, and never
mixes up a known and an unknown sparsity; the type it gives was requested at some time. -/
theorem C311_type_as_requested {find} (hf : Finds find) (history : List (Mx ℚ)) (hv : ∀ t ∈ history, SpValid t.sp) (k : Mx ℚ) (hk : SpValid k.sp) :
    Near (get find (after find history) k).1 k ∧ (get find (after find history) k).1 ∈ k :: history := by
  unfold get
  cases hq : find (after find history) k with
  | none =>
    refine ⟨⟨rfl, rfl, rfl, rfl, rfl, Iff.rfl, ?_⟩, List.mem_cons_self ..⟩
    intro a b h1 h2
    have : a = b := Option.some.inj (h1.symm.trans h2)
    rw [this, sub_self, abs_zero]
    norm_num
  | some t =>
    obtain ⟨hm, hs⟩ := hf.sound _ _ _ hq
    have hmem := after_mem find history t hm
    obtain ⟨e1, e2, e3, e4, e5, e6⟩ := (same_iff t k).mp hs
    have hvt := hv t hmem
    refine ⟨⟨e1, e2, e3, e5, e6, ?_, ?_⟩, List.mem_cons_of_mem _ hmem⟩
    · unfold eps at e4
      rw [abs_lt] at e4
      constructor
      · intro h
        cases hks : k.sp with
        | none => rfl
        | some v =>
          exfalso
          rw [h, hks] at e4
          simp only [spVal] at e4
          have := hk v hks
          linarith [e4.1, e4.2, this.1]
      · intro h
        cases hts : t.sp with
        | none => rfl
        | some v =>
          exfalso
          rw [h, hts] at e4
          simp only [spVal] at e4
          have := hvt v hts
          linarith [e4.1, e4.2, this.1]
    · intro a b h1 h2
      rw [h1, h2] at e4
      exact e4

/-- **C312, refuted.** Types are not values: a request for a sparsity can give a type with another one, if that was requested before; equality of storages is not transitive, and
equal storages can have different hash values. -/
theorem C312_type_depends_on_history_partial {find} (hf : Finds find) :
    (∃ k t : Mx ℚ, SpValid k.sp ∧ SpValid t.sp ∧ (get find (after find [t]) k).1 ≠ k ∧ (get find (after find []) k).1 = k) ∧
    (∃ a b c : Mx ℚ, same a b = true ∧ same b c = true ∧ same a c = false) ∧
    (∃ a b : Mx ℚ, same a b = true ∧ hashed a ≠ hashed b) := by
  have empty : ∀ k, find [] k = none := by
    intro k
    cases h : find [] k with
    | none => rfl
    | some t => exact absurd (hf.sound _ _ _ h).1 (by simp)
  have bhalf : bucket (1 / 2 : ℚ) = 500000 := by unfold bucket eps; rw [if_pos (by norm_num), Int.floor_eq_iff]; norm_num
  have bhalf2 : bucket (5000001 / 10000000 : ℚ) = 500000 := by unfold bucket eps; rw [if_pos (by norm_num), Int.floor_eq_iff]; norm_num
  have bless : bucket (4999999 / 10000000 : ℚ) = 499999 := by unfold bucket eps; rw [if_pos (by norm_num), Int.floor_eq_iff]; norm_num
  refine ⟨⟨⟨.f64, none, none, some (5000001 / 10000000), .dense, none⟩, ⟨.f64, none, none, some (1 / 2), .dense, none⟩, ?_, ?_, ?_, ?_⟩, ?_, ?_⟩
  · intro v h; cases h; norm_num
  · intro v h; cases h; norm_num
  · have h1 : after find [⟨.f64, none, none, some (1 / 2), .dense, none⟩] = [⟨.f64, none, none, some (1 / 2), .dense, none⟩] := by
      simp only [after, get, empty]
    rw [h1]
    unfold get
    cases hq : find [⟨.f64, none, none, some (1 / 2), .dense, none⟩] ⟨.f64, none, none, some (5000001 / 10000000), .dense, none⟩ with
    | none =>
      exfalso
      refine hf.complete _ _ ⟨.f64, none, none, some (1 / 2), .dense, none⟩ (List.mem_cons_self ..) ?_ ?_ hq
      · simp only [hashed, spVal, bhalf, bhalf2]
      · rw [same_iff]
        refine ⟨rfl, rfl, rfl, ?_, rfl, rfl⟩
        simp only [spVal, eps]
        rw [abs_lt]
        norm_num
    | some t =>
      have := (hf.sound _ _ _ hq).1
      rw [List.mem_singleton] at this
      rw [this]
      intro h
      have : (some (1 / 2 : ℚ)) = some (5000001 / 10000000) := congrArg Mx.sp h
      norm_num at this
  · simp only [after, get, empty]
  · refine ⟨⟨.f64, none, none, some 0, .dense, none⟩, ⟨.f64, none, none, some (6 / 10000000), .dense, none⟩, ⟨.f64, none, none, some (12 / 10000000), .dense, none⟩, ?_, ?_, ?_⟩
    · rw [same_iff]
      refine ⟨rfl, rfl, rfl, ?_, rfl, rfl⟩
      simp only [spVal, eps]
      rw [abs_lt]
      norm_num
    · rw [same_iff]
      refine ⟨rfl, rfl, rfl, ?_, rfl, rfl⟩
      simp only [spVal, eps]
      rw [abs_lt]
      norm_num
    · rw [Bool.eq_false_iff]
      intro h
      have := ((same_iff _ _).mp h).2.2.2.1
      simp only [spVal, eps] at this
      rw [abs_lt] at this
      norm_num at this
  · refine ⟨⟨.f64, none, none, some (1 / 2), .dense, none⟩, ⟨.f64, none, none, some (4999999 / 10000000), .dense, none⟩, ?_, ?_⟩
    · rw [same_iff]
      refine ⟨rfl, rfl, rfl, ?_, rfl, rfl⟩
      simp only [spVal, eps]
      rw [abs_lt]
      norm_num
    · simp only [hashed, spVal, bhalf, bless]
      intro h
      have := congrArg (fun q => q.2.2.2.1) h
      simp at this

/-! ### Examples -/

/-- A sparse symmetric matrix type with an unknown number of columns. -/
example : PlainMx (⟨.f64, some 10, none, some 5, .sparse, some true⟩ : Mx Nat) := by
  refine ⟨by decide, ?_, ?_, ?_, ?_⟩
  · intro n h; cases h; norm_num
  · intro n h; cases h
  · intro h; cases h
  · intro h; cases h

example : printType (fun n => Nat.toDigits 10 n) (.handle (⟨.f64, some 10, none, some 5, .sparse, some true⟩ : Mx Nat)) =
    "Handle<!daphne.Matrix<10x?xf64:sp[5]:rep[sparse]:symmetric[true]>>".toList := by
  rfl

/-- A hash set that looks at all types satisfies the contract. -/
example : Finds fun st k => st.find? fun t => same t k :=
  ⟨fun st k t h => ⟨List.mem_of_find?_eq_some h, by simpa using List.find?_some h⟩, fun st k t h1 _ h3 h => by
    rw [List.find?_eq_none] at h
    exact h t h1 h3⟩

/-- Printing digits and reading an integer is one way to print and read the sparsity. -/
example : FloatOk (F := Bool) (fun b => if b then ['1', '.', '0'] else ['0', '.', '0'])
    (fun l => match l with | '1' :: '.' :: '0' :: r => some (true, r) | '0' :: '.' :: '0' :: r => some (false, r) | _ => none) := by
  intro f r
  cases f <;> rfl

end Verif.TyText
