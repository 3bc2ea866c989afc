/- Scanning of quoted and plain cells. -/
import Verif.Io.CsvLemmas

namespace Verif.Io
open Verif

variable {delim : Char} {multi : Bool} {start : Nat} {f : File} {pos : Nat} {lb : Bool} {res : List Char} {c : Char} {S : List Char}

theorem setLoop_plain (hc : f.line[base start lb + pos]? = some c) (hn : c ≠ NUL) (h2 : c ≠ delim) (h3 : c ≠ '\n') (h4 : c ≠ '\r') :
    setLoop delim false start f pos lb res = setLoop delim false start f (pos + 1) lb (res ++ [c]) := by
  rw [setLoop]
  split
  · rename_i h; rw [hc] at h; cases h
  · rename_i d h; rw [hc] at h; cases h
    rw [if_neg hn, if_neg (by simp [h2, h3, h4]), if_neg (by simp), if_neg (by simp), if_neg (by simp), if_neg (by simp)]

theorem setLoop_plain_end (hc : f.line[base start lb + pos]? = some c) (h : c = delim ∨ c = '\n' ∨ c = '\r') :
    setLoop delim false start f pos lb res = .ok (f, pos, lb, res) := by
  rw [setLoop]
  split
  · rename_i h; rw [hc] at h; cases h
  · rename_i d h'; rw [hc] at h'; cases h'
    split
    · rfl
    · rw [if_pos (by simp [h])]

theorem setLoop_quote (hc : f.line[base start lb + pos]? = some '"') (hd : f.line[base start lb + pos + 1]? = some '"') :
    setLoop delim true start f pos lb res = setLoop delim true start f (pos + 2) lb (res ++ ['"']) := by
  rw [setLoop]
  split
  · rename_i h; rw [hc] at h; cases h
  · rename_i d h'; rw [hc] at h'; cases h'
    rw [if_neg (by decide), if_neg (by simp), if_neg (by simp [hd]), if_pos (by simp [hd])]

theorem setLoop_end (hc : f.line[base start lb + pos]? = some '"') (hd : f.line[base start lb + pos + 1]? ≠ some '"') :
    setLoop delim true start f pos lb res = .ok (f, pos, lb, res) := by
  rw [setLoop]
  split
  · rename_i h; rw [hc] at h; cases h
  · rename_i d h'; rw [hc] at h'; cases h'
    rw [if_neg (by decide), if_neg (by simp), if_pos ⟨rfl, rfl, hd⟩]

theorem setLoop_line {f' : File} (hc : f.line[base start lb + pos]? = some '\n') (hg : f.getLine = some f') :
    setLoop delim true start f pos lb res = setLoop delim true start f' 0 true (res ++ ['\n']) := by
  rw [setLoop]
  split
  · rename_i h; rw [hc] at h; cases h
  · rename_i d h'; rw [hc] at h'; cases h'
    rw [if_neg (by decide), if_neg (by simp), if_neg (by simp), if_neg (by simp), if_neg (by simp), if_pos (by simp)]
    split
    · rename_i h; rw [hg] at h; cases h
    · rename_i h; rw [hg] at h; cases h; rfl

theorem setLoop_char (hc : f.line[base start lb + pos]? = some c) (hn : c ≠ NUL) (h1 : c ≠ '"') (h2 : c ≠ '\n') (h3 : c ≠ '\r')
    (h4 : c = '\\' → f.line[base start lb + pos + 1]? ≠ some '"') :
    setLoop delim true start f pos lb res = setLoop delim true start f (pos + 1) lb (res ++ [c]) := by
  rw [setLoop]
  split
  · rename_i h; rw [hc] at h; cases h
  · rename_i d h'; rw [hc] at h'; cases h'
    rw [if_neg hn, if_neg (by simp), if_neg (by simp [h1]), if_neg (by simp [h1]), if_neg (by rintro ⟨_, a, b⟩; exact h4 a b), if_neg (by simp [h2, h3])]

/-- A plain cell followed by the separator or the end of the line. -/
theorem setLoop_plain_ok (s : List Char) : ∀ (pos : Nat) (res : List Char), At f (base start lb + pos) (s ++ c :: S) →
    (∀ x ∈ s, x ≠ NUL ∧ x ≠ ',' ∧ x ≠ '\n' ∧ x ≠ '\r') → c = ',' ∨ c = '\n' →
    setLoop ',' false start f pos lb res = .ok (f, pos + s.length, lb, res ++ s) ∧ At f (base start lb + pos + s.length) (c :: S) := by
  induction s with
  | nil =>
    intro pos res h _ hc
    rw [setLoop_plain_end h.char (by tauto)]
    simpa using h
  | cons a s ih =>
    intro pos res h hs hc
    have ha := hs a (by simp)
    rw [setLoop_plain h.char ha.1 ha.2.1 ha.2.2.1 ha.2.2.2]
    obtain ⟨h1, h2⟩ := ih (pos + 1) (res ++ [a]) (h.next ha.2.2.1) (fun x hx => hs x (by simp [hx])) hc
    rw [h1]
    refine ⟨?_, ?_⟩
    · simp [Nat.add_assoc, Nat.add_comm 1]
    · rw [show base start lb + pos + (a :: s).length = base start lb + (pos + 1) + s.length by simp; omega]; exact h2

/-- Doubling of the quotes (WriteCsv.h:72-78). -/
def esc (s : List Char) : List Char := s.flatMap fun c => if c = '"' then ['"', '"'] else [c]

/-- Strings that survive quoting: no NUL, no carriage return, no backslash right before a quote or at the end. -/
structure Safe (s : List Char) : Prop where
  chars : ∀ x ∈ s, x ≠ NUL ∧ x ≠ '\r'
  slash : ∀ a b, s = a ++ '\\' :: b → ∃ x b', b = x :: b' ∧ x ≠ '"'

theorem Safe.tail {a : Char} {s : List Char} (h : Safe (a :: s)) : Safe s :=
  ⟨fun x hx => h.chars x (by simp [hx]), fun u v e => h.slash (a :: u) v (by rw [e]; rfl)⟩

/-- Reading a part of a quoted cell that is not at its end. -/
theorem setLoop_prefix {d : Char} (s : List Char) : ∀ (f : File) (pos : Nat) (lb : Bool) (res : List Char), At f (base start lb + pos) (esc s ++ d :: S) →
    (∀ x ∈ s, x ≠ NUL ∧ x ≠ '\r') → (∀ a b, s = a ++ '\\' :: b → (b = [] ∧ d ≠ '"') ∨ ∃ x b', b = x :: b' ∧ x ≠ '"') → '\n' ∈ d :: S →
    ∃ f' pos' lb', setLoop ',' true start f pos lb res = setLoop ',' true start f' pos' lb' (res ++ s) ∧ At f' (base start lb' + pos') (d :: S) := by
  induction s with
  | nil =>
    intro f pos lb res h _ _ _
    exact ⟨f, pos, lb, by rw [List.append_nil], h⟩
  | cons a s ih =>
    intro f pos lb res h hch hsl hS
    have ha := hch a (by simp)
    have hch' : ∀ x ∈ s, x ≠ NUL ∧ x ≠ '\r' := fun x hx => hch x (by simp [hx])
    have hsl' : ∀ u v, s = u ++ '\\' :: v → (v = [] ∧ d ≠ '"') ∨ ∃ x b', v = x :: b' ∧ x ≠ '"' := fun u v e => hsl (a :: u) v (by rw [e]; rfl)
    by_cases hq : a = '"'
    · subst hq
      have h1 : At f (base start lb + pos) ('"' :: '"' :: (esc s ++ d :: S)) := by simpa [esc] using h
      rw [setLoop_quote h1.char (h1.next (by decide)).char]
      obtain ⟨f', p', l', e, hh⟩ := ih f (pos + 2) lb (res ++ ['"']) ((h1.next (by decide)).next (by decide)) hch' hsl' hS
      exact ⟨f', p', l', by rw [e]; simp, hh⟩
    · have h1 : At f (base start lb + pos) (a :: (esc s ++ d :: S)) := by simpa [esc, hq] using h
      by_cases hl : a = '\n'
      · subst hl
        have hr := h1.rest.1
        obtain ⟨f1, g1, g2⟩ := getLine_ok (f := f) (by rw [hr]; simp only [List.mem_append, List.mem_cons] at hS ⊢; tauto)
        rw [setLoop_line h1.char g1]
        rw [hr] at g2
        obtain ⟨f', p', l', e, hh⟩ := ih f1 0 true (res ++ ['\n']) g2 hch' hsl' hS
        exact ⟨f', p', l', by rw [e]; simp, hh⟩
      · have h2 := h1.next hl
        rw [setLoop_char h1.char ha.1 hq hl ha.2 ?_]
        · obtain ⟨f', p', l', e, hh⟩ := ih f (pos + 1) lb (res ++ [a]) h2 hch' hsl' hS
          exact ⟨f', p', l', by rw [e]; simp, hh⟩
        · rintro rfl
          rcases hsl [] s rfl with ⟨hb, hd⟩ | ⟨x, b', hb, hx⟩
          · subst hb
            have h2 : At f (base start lb + pos + 1) (d :: S) := h2
            rw [h2.char]; simpa using hd
          · subst hb
            have : esc (x :: b') = x :: esc b' := by simp [esc, hx]
            rw [this] at h2
            rw [h2.char]
            simpa using hx

/-- Inside of a quoted cell followed by the closing quote and the separator or the end of the line. -/
theorem setLoop_quoted_ok (s : List Char) (f : File) (pos : Nat) (lb : Bool) (res : List Char) (h : At f (base start lb + pos) (esc s ++ '"' :: c :: S))
    (hs : Safe s) (hc : c = ',' ∨ c = '\n') (hS : '\n' ∈ c :: S) :
    ∃ f' pos' lb', setLoop ',' true start f pos lb res = .ok (f', pos', lb', res ++ s) ∧ At f' (base start lb' + pos') ('"' :: c :: S) := by
  obtain ⟨f', p', l', e, hh⟩ := setLoop_prefix s f pos lb res h hs.chars (fun a b e => Or.inr (hs.slash a b e)) (List.mem_cons_of_mem _ hS)
  refine ⟨f', p', l', ?_, hh⟩
  rw [e, setLoop_end hh.char]
  rw [(hh.next (by decide)).char]
  rcases hc with rfl | rfl <;> decide

/-- The characters read so far stay. -/
theorem setLoop_extends {f f' : File} {pos pos' : Nat} {lb lb' : Bool} {res res' : List Char}
    (h : setLoop delim multi start f pos lb res = .ok (f', pos', lb', res')) : res <+: res' := by
  induction hk : f.rest.length + (f.line.length - (base start lb + pos)) using Nat.strongRecOn generalizing f pos lb res with
  | _ k ih =>
    subst hk
    rw [setLoop] at h
    split at h
    · split at h
      · cases h; exact List.prefix_refl _
      · cases h
    · rename_i c hc
      have hlt := (List.getElem?_eq_some_iff.1 hc).1
      split at h
      · cases h; exact List.prefix_refl _
      split at h
      · cases h; exact List.prefix_refl _
      split at h
      · cases h; exact List.prefix_refl _
      split at h
      · exact (List.prefix_append _ _).trans (ih _ (by omega) h rfl)
      split at h
      · exact (List.prefix_append _ _).trans (ih _ (by omega) h rfl)
      split at h
      · split at h
        · cases h
        · rename_i g hg
          have := File.getLine_le hg
          have hb : base start true = 0 := rfl
          exact (List.prefix_append _ _).trans (ih _ (by rw [hb]; omega) h rfl)
      · exact (List.prefix_append _ _).trans (ih _ (by omega) h rfl)

/-- Strings that survive writing and reading. -/
structure Admissible (s : List Char) : Prop where
  chars : ∀ x ∈ s, x ≠ NUL ∧ x ≠ '\r'
  slash : (∃ x ∈ s, x = ',' ∨ x = '\n' ∨ x = '"') → ∀ a b, s = a ++ '\\' :: b → ∃ x b', b = x :: b' ∧ x ≠ '"'

theorem takeWhile_all {p : Char → Bool} {l : List Char} (h : ∀ c ∈ l, p c = true) : l.takeWhile p = l := by
  induction l with
  | nil => rfl
  | cons a l ih => rw [List.takeWhile_cons, if_pos (h a (by simp)), ih fun c hc => h c (by simp [hc])]

/-- What is printed for an admissible string. -/
theorem printStr_quote {s : List Char} (h : Admissible s) : printStr (quoteStrCsvIf s) = quoteStrCsvIf s := by
  unfold printStr
  refine takeWhile_all fun x hx => ?_
  unfold quoteStrCsvIf at hx
  split at hx
  · simp only [List.cons_append, List.mem_cons, List.mem_append, List.mem_flatMap, List.mem_nil_iff, or_false] at hx
    rcases hx with rfl | ⟨a, ha, hx⟩ | rfl
    · decide
    · split at hx
      · simp at hx; subst hx; decide
      · simp at hx; subst hx; simpa using (h.chars x ha).1
    · decide
  · simpa using (h.chars x hx).1

/-- `setCString` reads back what `quoteStrCsvIf` printed and ends at the separator. -/
theorem setCString_ok {s : List Char} (hs : Admissible s) (h : At f start (quoteStrCsvIf s ++ c :: S)) (hc : c = ',' ∨ c = '\n') (hS : '\n' ∈ c :: S) :
    ∃ f' pos', setCString f start ',' = .ok (f', pos', s) ∧ At f' pos' (c :: S) := by
  unfold setCString
  rw [if_neg (by have := h.lt; omega)]
  unfold quoteStrCsvIf at h
  split at h
  · rename_i hq
    have hq' : ∃ x ∈ s, x = ',' ∨ x = '\n' ∨ x = '"' := by
      simp only [List.any_eq_true, Bool.or_eq_true, decide_eq_true_eq] at hq
      obtain ⟨x, hx, h1⟩ := hq
      have := (hs.chars x hx).2
      exact ⟨x, hx, by tauto⟩
    have h1 : At f start ('"' :: (esc s ++ '"' :: c :: S)) := by simpa [esc] using h
    have hm : decide (f.line[start]? = some '"') = true := by rw [h1.char]; simp
    rw [hm]
    obtain ⟨f', p', l', e, hh⟩ := setLoop_quoted_ok (start := start) s f 1 false [] (h1.next (by decide)) ⟨hs.chars, hs.slash hq'⟩ hc hS
    simp only [if_true]
    rw [e, Res.ok_bind]
    have h2 := hh.next (by decide)
    refine ⟨f', base start l' + p' + 1, ?_, h2⟩
    cases l'
    · simp [base]; omega
    · simp [base]
  · rename_i hq
    have hq' : ∀ x ∈ s, x ≠ ',' ∧ x ≠ '\n' ∧ x ≠ '\r' ∧ x ≠ '"' := by
      intro x hx
      simp only [List.any_eq_true, Bool.or_eq_true, decide_eq_true_eq] at hq
      refine ⟨?_, ?_, ?_, ?_⟩ <;> (rintro rfl; exact hq ⟨_, hx, by simp⟩)
    have hm : decide (f.line[start]? = some '"') = false := by
      cases s with
      | nil =>
        rw [show f.line[start]? = some c from At.char h]
        rcases hc with rfl | rfl <;> decide
      | cons a s =>
        rw [show f.line[start]? = some a from At.char h]
        simpa using (hq' a (by simp)).2.2.2
    rw [hm]
    obtain ⟨e, hh⟩ := setLoop_plain_ok (start := start) (lb := false) s 0 [] h
      (fun x hx => ⟨(hs.chars x hx).1, (hq' x hx).1, (hq' x hx).2.1, (hq' x hx).2.2.1⟩) hc
    simp only [Bool.false_eq_true, if_false]
    rw [e, Res.ok_bind]
    refine ⟨f, 0 + s.length + start, by simp, ?_⟩
    simp only [base, Bool.false_eq_true, if_false] at hh
    rw [show 0 + s.length + start = start + 0 + s.length by omega]
    exact hh

/-- Skipping to the separator from anywhere in a cell. -/
theorem skipDelim_ok (s : List Char) : ∀ pos, At f pos (s ++ ',' :: S) → (∀ x ∈ s, x ≠ ',' ∧ x ≠ '\n') →
    ∃ p', skipDelim f ',' pos = .ok p' ∧ At f p' S := by
  induction s with
  | nil =>
    intro pos h _
    have h : At f pos (',' :: S) := h
    refine ⟨pos + 1, ?_, h.next (by decide)⟩
    rw [skipDelim]
    split
    · rename_i h'; rw [h.char] at h'; cases h'
    · rename_i d h'; rw [h.char] at h'; cases h'; rw [if_pos rfl]
  | cons a s ih =>
    intro pos h hs
    have h : At f pos (a :: (s ++ ',' :: S)) := h
    have ha := hs a (by simp)
    obtain ⟨p', e, hh⟩ := ih (pos + 1) (h.next ha.2) fun x hx => hs x (by simp [hx])
    refine ⟨p', ?_, hh⟩
    rw [skipDelim]
    split
    · rename_i h'; rw [h.char] at h'; cases h'
    · rename_i d h'; rw [h.char] at h'; cases h'; rw [if_neg ha.1, e]

end Verif.Io
