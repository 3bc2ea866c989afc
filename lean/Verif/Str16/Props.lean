/-
  Fixed-size strings behave like strings (C301-C303).
-/
import Verif.Str16.Model
import Mathlib.Data.List.Lex
import Mathlib.Data.List.Basic

namespace Verif.Str16
open Verif

/-- A text: no NUL byte in it. -/
def Text (s : List Nat) : Prop := ∀ c ∈ s, 0 < c ∧ c < 256

theorem strlen_pad : ∀ (s : List Nat) (k : Nat), Text s → 0 < k → strlen (s ++ List.replicate k 0) = .ok s.length
  | [], k + 1, _, _ => by simp [List.replicate_succ, strlen]
  | c :: s, k, h, hk => by
    have h1 := (h c (by simp)).1
    simp only [List.cons_append, strlen]
    rw [if_neg (by omega), strlen_pad s k (fun c hc => h c (by simp [hc])) hk]
    rfl

theorem strncmp_lt {n : Nat} {a b : List Nat} (h : a.headD 0 < b.headD 0) : strncmp (n + 1) a b = .lt := by
  unfold strncmp; exact if_pos h

theorem strncmp_gt {n : Nat} {a b : List Nat} (h : b.headD 0 < a.headD 0) : strncmp (n + 1) a b = .gt := by
  unfold strncmp; exact (if_neg (by omega)).trans (if_pos h)

theorem strncmp_nul {n : Nat} {a b : List Nat} (h : a.headD 0 = 0) (h' : b.headD 0 = 0) : strncmp (n + 1) a b = .eq := by
  unfold strncmp; exact (if_neg (by omega)).trans ((if_neg (by omega)).trans (if_pos h))

theorem strncmp_same {n : Nat} {a b : List Nat} (h : a.headD 0 = b.headD 0) (h' : a.headD 0 ≠ 0) : strncmp (n + 1) a b = strncmp n a.tail b.tail := by
  conv => lhs; unfold strncmp
  exact (if_neg (by omega)).trans ((if_neg (by omega)).trans (if_neg h'))

theorem headD_pad (k : Nat) : ([] ++ List.replicate k 0).headD 0 = 0 := by cases k <;> rfl

theorem cmp_pad : ∀ (n : Nat) (s t : List Nat) (k m : Nat), Text s → Text t → s.length < n → t.length < n →
    (strncmp n (s ++ List.replicate k 0) (t ++ List.replicate m 0) = .lt ↔ s < t) ∧
    (strncmp n (s ++ List.replicate k 0) (t ++ List.replicate m 0) = .gt ↔ t < s) ∧
    (strncmp n (s ++ List.replicate k 0) (t ++ List.replicate m 0) = .eq ↔ s = t)
  | 0, _, _, _, _, _, _, h, _ => by omega
  | n + 1, [], [], k, m, _, _, _, _ => by
    rw [strncmp_nul (headD_pad k) (headD_pad m)]
    simp
  | n + 1, [], d :: t, k, m, _, ht, _, _ => by
    have h1 := (ht d (by simp)).1
    rw [strncmp_lt (by rw [headD_pad]; simpa using h1)]
    simp
  | n + 1, c :: s, [], k, m, hs, _, _, _ => by
    have h1 := (hs c (by simp)).1
    rw [strncmp_gt (by rw [headD_pad]; simpa using h1)]
    simp
  | n + 1, c :: s, d :: t, k, m, hs, ht, h, h' => by
    have h1 := (hs c (by simp)).1
    have h2 := (ht d (by simp)).1
    obtain ⟨i1, i2, i3⟩ := cmp_pad n s t k m (fun c hc => hs c (by simp [hc])) (fun c hc => ht c (by simp [hc])) (by simpa using h) (by simpa using h')
    simp only [List.cons_lt_cons_iff, List.cons.injEq]
    rcases Nat.lt_trichotomy c d with hlt | heq | hgt
    · rw [strncmp_lt (by simpa using hlt)]
      refine ⟨⟨fun _ => .inl hlt, fun _ => rfl⟩, ⟨fun h => (by cases h), ?_⟩, ⟨fun h => (by cases h), ?_⟩⟩ <;> omega
    · subst heq
      rw [strncmp_same (by simp) (by simp; omega)]
      simp only [List.cons_append, List.tail_cons]
      rw [i1, i2, i3]
      simp
    · rw [strncmp_gt (by simpa using hgt)]
      refine ⟨⟨fun h => (by cases h), ?_⟩, ⟨fun _ => .inl hgt, fun _ => rfl⟩, ⟨fun h => (by cases h), ?_⟩⟩ <;> omega

theorem make_ok {s : List Nat} (h : s.length < 16) : make s = .ok (s ++ List.replicate (16 - s.length) 0) := by
  unfold make
  rw [if_neg (by omega)]

theorem pad_inj : ∀ {s t : List Nat} {k m : Nat}, Text s → Text t → s ++ List.replicate k 0 = t ++ List.replicate m 0 → s = t
  | [], [], _, _, _, _, _ => rfl
  | [], d :: t, k, m, _, ht, e => by
    have := (ht d (by simp)).1
    cases k with
    | zero => simp at e
    | succ k => simp [List.replicate_succ] at e; omega
  | c :: s, [], k, m, hs, _, e => by
    have := (hs c (by simp)).1
    cases m with
    | zero => simp at e
    | succ k => simp [List.replicate_succ] at e; omega
  | c :: s, d :: t, k, m, hs, ht, e => by
    simp only [List.cons_append, List.cons.injEq] at e
    rw [e.1, pad_inj (fun c hc => hs c (by simp [hc])) (fun c hc => ht c (by simp [hc])) e.2]

theorem text_map {f : Nat → Nat} (hf : ∀ c, 0 < c → c < 256 → 0 < f c ∧ f c < 256) {s : List Nat} (h : Text s) : Text (s.map f) := by
  intro c hc
  obtain ⟨d, hd, rfl⟩ := List.mem_map.1 hc
  exact hf d (h d hd).1 (h d hd).2

/-- **C301.** A text of 16 or more bytes is refused. The value made of a shorter one has its length, is converted back to it, and two such values
behave like their texts under `==` (also with a C string on the right), `<`, `>`, `compare`, `+`, and equal ones have the same hash; `lower` and
`upper` convert each byte. -/
theorem C301_fixed_string (s t : List Nat) (hs : Text s) (ht : Text t) :
    (16 ≤ s.length → (make s).Throws) ∧
    (s.length < 16 → t.length < 16 → ∃ a b, make s = .ok a ∧ make t = .ok b ∧
      size a = .ok s.length ∧ toString a = .ok s ∧
      (eq a b = true ↔ s = t) ∧ (lt a b = true ↔ s < t) ∧ (gt a b = true ↔ t < s) ∧
      (compare a b = .lt ↔ s < t) ∧ (compare a b = .gt ↔ t < s) ∧ (compare a b = .eq ↔ s = t) ∧
      concat a b = .ok (s ++ t) ∧
      toString (lower a) = .ok (s.map fun c => if 65 ≤ c ∧ c ≤ 90 then c + 32 else c) ∧
      toString (upper a) = .ok (s.map fun c => if 97 ≤ c ∧ c ≤ 122 then c - 32 else c) ∧
      ∀ h : List Nat → Nat, s = t → hash h a = hash h b) ∧
    (s.length < 16 → ∃ a, make s = .ok a ∧ (eqC a t = true ↔ s = t)) := by
  have hstr : ∀ (u : List Nat) (k : Nat), Text u → 0 < k → toString (u ++ List.replicate k 0) = .ok u := by
    intro u k hu hk
    unfold toString size
    rw [strlen_pad u k hu hk]
    simp only [Res.ok_bind]
    rw [List.take_left]
  refine ⟨fun h => ⟨_, if_pos h⟩, fun h1 h2 => ?_, fun h1 => ?_⟩
  · obtain ⟨c1, c2, c3⟩ := cmp_pad 16 s t (16 - s.length) (16 - t.length) hs ht h1 h2
    refine ⟨_, _, make_ok h1, make_ok h2, strlen_pad s _ hs (by omega), hstr s _ hs (by omega), ?_, ?_, ?_, c1, c2, c3, ?_, ?_, ?_, ?_⟩
    · unfold eq
      rw [beq_iff_eq]
      exact ⟨fun h => pad_inj hs ht h, fun h => by rw [h]⟩
    · unfold lt
      rw [beq_iff_eq]; exact c1
    · unfold gt
      rw [beq_iff_eq]; exact c2
    · unfold concat
      rw [strlen_pad s _ hs (by omega), strlen_pad t _ ht (by omega)]
      simp only [Res.ok_bind]
      rw [List.take_left, List.take_left]
    · have e : lower (s ++ List.replicate (16 - s.length) 0) = s.map toLower ++ List.replicate (16 - s.length) 0 := by
        unfold lower
        rw [List.map_append, List.map_replicate]
        rfl
      rw [e, hstr _ _ (text_map (by intro c; unfold toLower; split <;> omega) hs) (by omega)]
      rfl
    · have e : upper (s ++ List.replicate (16 - s.length) 0) = s.map toUpper ++ List.replicate (16 - s.length) 0 := by
        unfold upper
        rw [List.map_append, List.map_replicate]
        rfl
      rw [e, hstr _ _ (text_map (by intro c; unfold toUpper; split <;> omega) hs) (by omega)]
      rfl
    · rintro h rfl
      rfl
  · refine ⟨_, make_ok h1, ?_⟩
    unfold eqC
    rw [beq_iff_eq]
    by_cases h2 : t.length < 16
    · have := (cmp_pad 16 s t (16 - s.length) 0 hs ht h1 h2).2.2
      simpa using this
    · -- the C string is longer than the buffer: compared with its terminating NUL, the difference is found
      have key : ∀ (n : Nat) (s t : List Nat) (k : Nat), Text s → Text t → s.length < n → n ≤ t.length → strncmp n (s ++ List.replicate k 0) t ≠ .eq := by
        intro n
        induction n with
        | zero => intro s t k _ _ h; omega
        | succ n ih =>
          intro s t k hs ht h1 h2
          cases t with
          | nil => simp at h2
          | cons d t =>
            have hd := (ht d (by simp)).1
            cases s with
            | nil =>
              rw [strncmp_lt (by rw [headD_pad]; simpa using hd)]
              simp
            | cons c s =>
              have hc := (hs c (by simp)).1
              rcases Nat.lt_trichotomy c d with hlt | heq | hgt
              · rw [strncmp_lt (by simpa using hlt)]; simp
              · rw [strncmp_same (by simpa using heq) (by simp; omega)]
                exact ih s t k (fun c hc => hs c (by simp [hc])) (fun c hc => ht c (by simp [hc])) (by simpa using h1) (by simpa using h2)
              · rw [strncmp_gt (by simpa using hgt)]; simp
      constructor
      · intro h
        exact absurd h (key 16 s t _ hs ht h1 (by omega))
      · rintro rfl
        omega

/-- **C302, refuted.** Writing a value to a stream does not write its text: whatever the text, it is followed by at least one NUL byte, and
always 16 bytes are written. -/
theorem C302_print_padded_partial (s : List Nat) (hl : s.length < 16) :
    ∃ a, make s = .ok a ∧ print a = s ++ List.replicate (16 - s.length) 0 ∧ (print a).length = 16 ∧ print a ≠ s := by
  have hlen : (s ++ List.replicate (16 - s.length) 0).length = 16 := by simp; omega
  refine ⟨_, make_ok hl, ?_, ?_, ?_⟩
  · unfold print
    rw [List.take_of_length_le (by omega)]
  · unfold print
    rw [List.length_take, hlen]
    rfl
  · intro h
    have := congrArg List.length h
    unfold print at this
    rw [List.length_take, hlen] at this
    omega

/-- **C303, refuted.** A `std::string` may contain NUL bytes: of the two values made of `p NUL q` and `p NUL r` neither is smaller, but they are not equal,
and converting such a value back cuts it off. -/
theorem C303_embedded_nul_partial (p q r : List Nat) (hp : Text p) (hq : p.length + q.length + 1 < 16) (hqr : q.length = r.length) (hne : q ≠ r) :
    ∃ a b, make (p ++ 0 :: q) = .ok a ∧ make (p ++ 0 :: r) = .ok b ∧
      eq a b = false ∧ lt a b = false ∧ gt a b = false ∧ compare a b = .eq ∧ toString a = .ok p := by
  have e1 : make (p ++ 0 :: q) = .ok (p ++ 0 :: (q ++ List.replicate (16 - (p.length + q.length + 1)) 0)) := by
    rw [make_ok (by simp; omega)]
    simp [Nat.add_assoc]
  have e2 : make (p ++ 0 :: r) = .ok (p ++ 0 :: (r ++ List.replicate (16 - (p.length + q.length + 1)) 0)) := by
    rw [make_ok (by simp; omega)]
    simp [Nat.add_assoc, hqr]
  have key : ∀ (n : Nat) (p u v : List Nat), Text p → strncmp n (p ++ 0 :: u) (p ++ 0 :: v) = .eq := by
    intro n
    induction n with
    | zero => intros; rfl
    | succ n ih =>
      intro p u v hp
      cases p with
      | nil => exact strncmp_nul rfl rfl
      | cons c p =>
        have hc := (hp c (by simp)).1
        rw [strncmp_same (by simp) (by simp; omega)]
        exact ih p u v fun c hc => hp c (by simp [hc])
  have hlen : ∀ (p u : List Nat), Text p → strlen (p ++ 0 :: u) = .ok p.length := by
    intro p u
    induction p with
    | nil => intro _; rfl
    | cons c p ih =>
      intro hp
      have hc := (hp c (by simp)).1
      simp only [List.cons_append, strlen]
      rw [if_neg (by omega), ih fun c hc => hp c (by simp [hc])]
      rfl
  refine ⟨_, _, e1, e2, ?_, ?_, ?_, key 16 p _ _ hp, ?_⟩
  · unfold eq
    rw [beq_eq_false_iff_ne]
    intro h
    have h := List.append_cancel_left h
    simp only [List.cons.injEq, true_and] at h
    exact hne (List.append_inj_left h hqr)
  · unfold lt; rw [key 16 p _ _ hp]; rfl
  · unfold gt; rw [key 16 p _ _ hp]; rfl
  · unfold toString size
    rw [hlen p _ hp]
    simp only [Res.ok_bind]
    rw [List.take_left]

/-! ### Examples: "ab" and "abc" -/

example : Text [97, 98] ∧ Text [97, 98, 99] ∧ ([97, 98] : List Nat) < [97, 98, 99] := by
  refine ⟨?_, ?_, by decide⟩ <;> (intro c hc; simp at hc; omega)

example : (do
    let a ← make [97, 98]
    let b ← make [97, 98, 99]
    let s ← toString (upper b)
    let c ← concat a b
    .ok (lt a b, gt a b, eq a a, s, c)) = .ok (true, false, true, [65, 66, 67], [97, 98, 97, 98, 99]) := rfl

end Verif.Str16
