/-
  Lexing and parsing what was printed.
-/
import Verif.TyText.Model
import Mathlib.Tactic.Linarith

namespace Verif.TyText

variable {F : Type}

theorem run {p : Char → Bool} (w r : List Char) (hw : ∀ c ∈ w, p c = true) (hr : ∀ c t, r = c :: t → p c = false) :
    (w ++ r).takeWhile p = w ∧ (w ++ r).dropWhile p = r := by
  induction w with
  | nil =>
    cases r with
    | nil => exact ⟨rfl, rfl⟩
    | cons c t =>
      have := hr c t rfl
      simp [this]
  | cons c w ih =>
    obtain ⟨h1, h2⟩ := ih fun d hd => hw d (List.mem_cons_of_mem _ hd)
    have := hw c (List.mem_cons_self ..)
    simp [this, h1, h2]

theorem word_eq (w r : List Char) (hw : ∀ c ∈ w, isWord c = true) (hr : ∀ c t, r = c :: t → isWord c = false) : word (w ++ r) = (w, r) := by
  obtain ⟨h1, h2⟩ := run w r hw hr
  unfold word
  rw [h1, h2]

/-- The rest does not continue a word. -/
def Stop (r : List Char) : Prop := ∀ c t, r = c :: t → isWord c = false

theorem stop_cons {c : Char} {t : List Char} (h : isWord c = false) : Stop (c :: t) := by
  intro d u e
  cases e
  exact h

theorem lit_eq (c : Char) (r : List Char) : lit c (c :: r) = some r := if_pos rfl

theorem digits_head {n : Nat} : ∃ c cs, Nat.toDigits 10 n = c :: cs ∧ c.isDigit = true ∧ (0 < n → c ≠ '0') := by
  induction n using Nat.strongRecOn with
  | ind n ih =>
    by_cases h : n < 10
    · refine ⟨n.digitChar, [], Nat.toDigits_of_lt_base h, by simpa using h, fun hn => ?_⟩
      intro e
      rw [Nat.digitChar_eq_zero] at e
      omega
    · obtain ⟨c, cs, e, hd, hz⟩ := ih (n / 10) (by omega)
      refine ⟨c, cs ++ [(n % 10).digitChar], ?_, hd, fun _ => hz (by omega)⟩
      rw [Nat.toDigits_of_base_le (by decide) (by omega), e]
      rfl

theorem digits_all {n : Nat} : ∀ c ∈ Nat.toDigits 10 n, c.isDigit = true := fun _ hc => Nat.isDigit_of_mem_toDigits (by decide) (by decide) hc

theorem lexInt_ok (n : Nat) (t : List Char) (h0 : n = 0 → ∀ c u, t = c :: u → isHex c = false) :
    lexInt (Nat.toDigits 10 n ++ 'x' :: t) = some (n, 'x' :: t) := by
  by_cases hn : n = 0
  · subst hn
    rw [Nat.toDigits_zero]
    cases t with
    | nil => rfl
    | cons c u =>
      show (if isHex c = true then _ else _) = _
      rw [if_neg (by rw [h0 rfl c u rfl]; decide)]
  · obtain ⟨c, cs, e, hd, hz⟩ := digits_head (n := n)
    have hc := hz (by omega)
    obtain ⟨h1, h2⟩ := run (p := Char.isDigit) (Nat.toDigits 10 n) ('x' :: t) digits_all (by intro d u e; cases e; rfl)
    unfold lexInt
    split
    · rename_i heq
      rw [e] at heq
      simp only [List.cons_append, List.cons.injEq] at heq
      exact absurd heq.1 hc
    · rw [h1, h2, if_neg (by rw [e]; exact List.cons_ne_nil _ _), Nat.ofDigitChars_ten_toDigits]

theorem parseDim_ok (d : Option Nat) (t : List Char) (hd : ∀ n, d = some n → n < 2 ^ 63) (h0 : d = some 0 → ∀ c u, t = c :: u → isHex c = false) :
    parseDim (dimText d ++ 'x' :: t) = some (d, 'x' :: t) := by
  cases d with
  | none => rfl
  | some n =>
    have hl := lexInt_ok n t fun h => h0 (by rw [h])
    have hp : parseInt (Nat.toDigits 10 n ++ 'x' :: t) = some (n, 'x' :: t) := by
      unfold parseInt
      rw [hl]
      exact if_pos (hd n rfl)
    obtain ⟨c, cs, e, hdig, _⟩ := digits_head (n := n)
    unfold dimText parseDim
    split
    · rename_i heq
      simp only [e, List.cons_append, List.cons.injEq] at heq
      rw [heq.1] at hdig
      exact absurd hdig (by decide)
    · simp only [hp, Option.map_some]

theorem parseElt_builtin (c : Char) (w r : List Char) (e : Elt) (hc : c ≠ '!') (hw : ∀ d ∈ c :: w, isWord d = true) (hr : Stop r)
    (he : builtin (c :: w) = some e) : parseElt (c :: w ++ r) = some (e, r) := by
  have h := word_eq (c :: w) r hw hr
  unfold parseElt
  split
  · rename_i heq
    simp only [List.cons_append, List.cons.injEq] at heq
    exact absurd heq.1 hc
  · rw [h, he]
    rfl

theorem parseElt_ok (e : Elt) (r : List Char) (he : e ≠ .unknown) (hr : Stop r) : parseElt (e.text ++ r) = some (e, r) := by
  cases e with
  | unknown => exact absurd rfl he
  | string =>
    have h := word_eq ['d', 'a', 'p', 'h', 'n', 'e', '.', 'S', 't', 'r', 'i', 'n', 'g'] r (by decide) hr
    have e : Elt.string.text ++ r = '!' :: (['d', 'a', 'p', 'h', 'n', 'e', '.', 'S', 't', 'r', 'i', 'n', 'g'] ++ r) := rfl
    rw [e]
    show (if (word _).1 = _ then some (Elt.string, (word _).2) else none) = _
    rw [h]
    exact if_pos rfl
  | si8 => exact parseElt_builtin 's' ['i', '8'] r _ (by decide) (by decide) hr (by decide)
  | si32 => exact parseElt_builtin 's' ['i', '3', '2'] r _ (by decide) (by decide) hr (by decide)
  | si64 => exact parseElt_builtin 's' ['i', '6', '4'] r _ (by decide) (by decide) hr (by decide)
  | ui8 => exact parseElt_builtin 'u' ['i', '8'] r _ (by decide) (by decide) hr (by decide)
  | ui32 => exact parseElt_builtin 'u' ['i', '3', '2'] r _ (by decide) (by decide) hr (by decide)
  | ui64 => exact parseElt_builtin 'u' ['i', '6', '4'] r _ (by decide) (by decide) hr (by decide)
  | f32 => exact parseElt_builtin 'f' ['3', '2'] r _ (by decide) (by decide) hr (by decide)
  | f64 => exact parseElt_builtin 'f' ['6', '4'] r _ (by decide) (by decide) hr (by decide)
  | i1 => exact parseElt_builtin 'i' ['1'] r _ (by decide) (by decide) hr (by decide)
  | index => exact parseElt_builtin 'i' ['n', 'd', 'e', 'x'] r _ (by decide) (by decide) hr (by decide)

/-- Reading a printed number gives the number, and leaves the bracket. -/
def FloatOk (sf : F → List Char) (pf : List Char → Option (F × List Char)) : Prop := ∀ f r, pf (sf f ++ ']' :: r) = some (f, ']' :: r)

theorem bracket_stop (r : List Char) : Stop ('[' :: r) := stop_cons (by decide)
theorem close_stop (r : List Char) : Stop (']' :: r) := stop_cons (by decide)

theorem parseProp_sp {sf : F → List Char} {pf} (h : FloatOk sf pf) (m : Mx F) (hm : m.sp = none) (s : F) (r : List Char) :
    parseProp pf m (['s', 'p'] ++ '[' :: (sf s ++ ']' :: r)) = some ({ m with sp := some s }, r) := by
  unfold parseProp
  rw [word_eq ['s', 'p'] _ (by decide) (bracket_stop _), if_pos rfl, hm, if_neg (by simp)]
  simp only [lit_eq, h s r, Option.bind_eq_bind, Option.bind_some]

theorem parseProp_rep (pf : List Char → Option (F × List Char)) (m : Mx F) (p : Rep) (r : List Char) :
    parseProp pf m (['r', 'e', 'p'] ++ '[' :: (p.text ++ ']' :: r)) = some ({ m with rep := p }, r) := by
  have h2 : word (p.text ++ ']' :: r) = (p.text, ']' :: r) := word_eq _ _ (by cases p <;> decide) (close_stop _)
  have h3 : repOf p.text = some p := by cases p <;> rfl
  unfold parseProp
  rw [word_eq ['r', 'e', 'p'] _ (by decide) (bracket_stop _), if_neg (by simp), if_pos rfl]
  simp only [lit_eq, h2, h3, Option.bind_eq_bind, Option.bind_some]

theorem parseProp_sym (pf : List Char → Option (F × List Char)) (m : Mx F) (b : Bool) (r : List Char) :
    parseProp pf m (['s', 'y', 'm', 'm', 'e', 't', 'r', 'i', 'c'] ++ '[' :: (symText b ++ ']' :: r)) = some ({ m with sym := some b }, r) := by
  have h2 : word (symText b ++ ']' :: r) = (symText b, ']' :: r) := word_eq _ _ (by cases b <;> decide) (close_stop _)
  have h3 : symOf (symText b) = some b := by cases b <;> rfl
  unfold parseProp
  rw [word_eq ['s', 'y', 'm', 'm', 'e', 't', 'r', 'i', 'c'] _ (by decide) (bracket_stop _), if_neg (by simp), if_neg (by simp), if_pos rfl]
  simp only [lit_eq, h2, h3, Option.bind_eq_bind, Option.bind_some]

theorem parseProps_end (pf : List Char → Option (F × List Char)) (n : Nat) (m : Mx F) (r : List Char) : parseProps pf n m ('>' :: r) = some (m, '>' :: r) := by
  cases n <;> rfl

theorem parseProps_step (pf : List Char → Option (F × List Char)) (n : Nat) (m m' : Mx F) (l r : List Char) (h : parseProp pf m l = some (m', r)) :
    parseProps pf (n + 1) m (':' :: l) = parseProps pf n m' r := by
  show (parseProp pf m l).bind _ = _
  rw [h]
  rfl

theorem props3 (pf : List Char → Option (F × List Char)) (s : Option Bool) (m : Mx F) (hm : m.sym = none) (n : Nat) (r : List Char)
    (hn : (symPart s ++ '>' :: r).length ≤ n) : parseProps pf n m (symPart s ++ '>' :: r) = some ({ m with sym := s }, '>' :: r) := by
  cases s with
  | none =>
    have : ({ m with sym := none } : Mx F) = m := by cases m; cases hm; rfl
    rw [this]
    exact parseProps_end pf n m r
  | some b =>
    have e : symPart (some b) ++ '>' :: r = ':' :: (['s', 'y', 'm', 'm', 'e', 't', 'r', 'i', 'c'] ++ '[' :: (symText b ++ ']' :: ('>' :: r))) := by simp [symPart]
    rw [e] at hn ⊢
    obtain ⟨n, rfl⟩ : ∃ k, n = k + 1 := ⟨n - 1, by simp at hn; omega⟩
    rw [parseProps_step pf n m _ _ _ (parseProp_sym pf m b _), parseProps_end]

theorem props2 (pf : List Char → Option (F × List Char)) (p : Rep) (s : Option Bool) (m : Mx F) (hm : m.sym = none) (hp : m.rep = .dense) (n : Nat) (r : List Char)
    (hn : (repPart p ++ (symPart s ++ '>' :: r)).length ≤ n) :
    parseProps pf n m (repPart p ++ (symPart s ++ '>' :: r)) = some ({ m with rep := p, sym := s }, '>' :: r) := by
  cases p with
  | dense =>
    have : ({ m with rep := .dense, sym := s } : Mx F) = { m with sym := s } := by cases m; cases hp; rfl
    rw [this]
    exact props3 pf s m hm n r hn
  | sparse =>
    have e : repPart .sparse ++ (symPart s ++ '>' :: r) = ':' :: (['r', 'e', 'p'] ++ '[' :: (Rep.sparse.text ++ ']' :: (symPart s ++ '>' :: r))) := by
      simp [repPart]
    rw [e] at hn ⊢
    obtain ⟨n, rfl⟩ : ∃ k, n = k + 1 := ⟨n - 1, by simp at hn; omega⟩
    rw [parseProps_step pf n m _ _ _ (parseProp_rep pf m .sparse _)]
    exact props3 pf s { m with rep := .sparse } hm n r (by simp [Rep.text] at hn ⊢; omega)

theorem props1 {sf : F → List Char} {pf} (h : FloatOk sf pf) (v : Option F) (p : Rep) (s : Option Bool) (m : Mx F) (hm : m.sym = none) (hp : m.rep = .dense)
    (hs : m.sp = none) (n : Nat) (r : List Char) (hn : (spPart sf v ++ (repPart p ++ (symPart s ++ '>' :: r))).length ≤ n) :
    parseProps pf n m (spPart sf v ++ (repPart p ++ (symPart s ++ '>' :: r))) = some ({ m with sp := v, rep := p, sym := s }, '>' :: r) := by
  cases v with
  | none =>
    have : ({ m with sp := none, rep := p, sym := s } : Mx F) = { m with rep := p, sym := s } := by cases m; cases hs; rfl
    rw [this]
    exact props2 pf p s m hm hp n r hn
  | some f =>
    have e : spPart sf (some f) ++ (repPart p ++ (symPart s ++ '>' :: r)) =
        ':' :: (['s', 'p'] ++ '[' :: (sf f ++ ']' :: (repPart p ++ (symPart s ++ '>' :: r)))) := by
      simp [spPart]
    rw [e] at hn ⊢
    obtain ⟨n, rfl⟩ : ∃ k, n = k + 1 := ⟨n - 1, by simp at hn; omega⟩
    rw [parseProps_step pf n m _ _ _ (parseProp_sp h m hs f _)]
    exact props2 pf p s { m with sp := some f } hm hp n r (by simp at hn ⊢; omega)

theorem propsText_eq (sf : F → List Char) (m : Mx F) (r : List Char) :
    propsText sf m ++ '>' :: r = spPart sf m.sp ++ (repPart m.rep ++ (symPart m.sym ++ '>' :: r)) := by
  unfold propsText
  simp only [List.append_assoc]

theorem props_stop (sf : F → List Char) (m : Mx F) (r : List Char) : Stop (propsText sf m ++ '>' :: r) := by
  rw [propsText_eq]
  unfold spPart repPart symPart
  cases m.sp with
  | some f => exact stop_cons (by decide)
  | none =>
    cases m.rep with
    | sparse => exact stop_cons (by decide)
    | dense =>
      cases m.sym with
      | some b => exact stop_cons (by decide)
      | none => exact stop_cons (by decide)

end Verif.TyText
