/- Numbers as text; scanning of quoted and plain cells. -/
import Verif.Io.Csv
import Mathlib.Tactic.Common

namespace Verif.Io
open Verif

theorem digit_toNat {d : Nat} (h : d < 10) : (Char.ofNat (48 + d)).toNat = 48 + d := by
  revert h d; decide

theorem digit_isDigit {d : Nat} (h : d < 10) : isDigit (Char.ofNat (48 + d)) = true := by
  unfold isDigit; rw [digit_toNat h]; simp; omega

theorem digits_all (n : Nat) : ∀ c ∈ digits n, isDigit c = true := by
  induction n using Nat.strongRecOn with
  | _ n ih =>
    rw [digits]
    split
    · intro c hc; simp at hc; subst hc; exact digit_isDigit (by omega)
    · intro c hc
      simp only [List.mem_append, List.mem_singleton] at hc
      rcases hc with hc | rfl
      · exact ih _ (by omega) c hc
      · exact digit_isDigit (by omega)

theorem digits_ne_nil (n : Nat) : digits n ≠ [] := by
  rw [digits]; split <;> simp

theorem digits_fold (n : Nat) : (digits n).foldl (fun n c => 10 * n + (c.toNat - 48)) 0 = n := by
  induction n using Nat.strongRecOn with
  | _ n ih =>
    rw [digits]
    split
    · rename_i h; simp [digit_toNat h]
    · rw [List.foldl_append, ih (n / 10) (by omega)]
      simp only [List.foldl_cons, List.foldl_nil]
      rw [digit_toNat (by omega)]
      omega

theorem takeWhile_append_stop {α : Type _} {p : α → Bool} {l : List α} (h : ∀ c ∈ l, p c = true) {c : α} (hc : p c = false) (r : List α) :
    (l ++ c :: r).takeWhile p = l := by
  induction l with
  | nil => simp [hc]
  | cons a l ih =>
    rw [List.cons_append, List.takeWhile_cons, if_pos (h a (by simp)), ih fun c hc => h c (by simp [hc])]

theorem dropWhile_append_stop {α : Type _} {p : α → Bool} {l : List α} (h : ∀ c ∈ l, p c = true) {c : α} (hc : p c = false) (r : List α) :
    (l ++ c :: r).dropWhile p = c :: r := by
  induction l with
  | nil => simp [hc]
  | cons a l ih =>
    rw [List.cons_append, List.dropWhile_cons, if_pos (h a (by simp)), ih fun c hc => h c (by simp [hc])]

theorem digitsValue_digits (n : Nat) {c : Char} (hc : isDigit c = false) (r : List Char) : digitsValue (digits n ++ c :: r) = n := by
  unfold digitsValue
  rw [takeWhile_append_stop (digits_all n) hc, digits_fold]

theorem isDigit_not {c : Char} (h : isDigit c = true) : isSpace c = false ∧ c ≠ '-' ∧ c ≠ '+' := by
  unfold isDigit at h
  simp only [Bool.and_eq_true, decide_eq_true_eq] at h
  refine ⟨?_, ?_, ?_⟩
  · unfold isSpace
    simp only [Bool.or_eq_false_iff, Bool.and_eq_false_iff, decide_eq_false_iff_not]
    refine ⟨?_, Or.inr (by omega)⟩
    rintro rfl
    revert h; decide
  · rintro rfl; revert h; decide
  · rintro rfl; revert h; decide

theorem strtol_print (v : Int) (h1 : -2 ^ 63 ≤ v) (h2 : v < 2 ^ 63) {c : Char} (hc : isDigit c = false) (r : List Char) :
    strtol (printInt v ++ c :: r) = v := by
  unfold printInt
  by_cases hv : v < 0
  · rw [if_pos hv]
    unfold strtol
    rw [List.cons_append, List.dropWhile_cons, if_neg (by decide)]
    simp only [digitsValue_digits v.natAbs hc r]
    omega
  · rw [if_neg hv]
    obtain ⟨d, ds, hd⟩ : ∃ d ds, digits v.natAbs = d :: ds := List.exists_cons_of_ne_nil (digits_ne_nil _)
    have hdd := isDigit_not (digits_all v.natAbs d (by rw [hd]; simp))
    have hval := digitsValue_digits v.natAbs hc r
    unfold strtol
    rw [hd] at hval ⊢
    rw [List.cons_append] at hval ⊢
    rw [List.dropWhile_cons, if_neg (by rw [hdd.1]; simp)]
    split
    · rename_i heq; exact absurd (List.cons.inj heq).1 hdd.2.1
    · rename_i heq; exact absurd (List.cons.inj heq).1 hdd.2.2
    · rw [hval]
      show max (-2 ^ 63) (min (2 ^ 63 - 1) (v.natAbs : Int)) = v
      omega

theorem wrap32_id {v : Int} (h1 : -2 ^ 31 ≤ v) (h2 : v < 2 ^ 31) : wrapS 32 v = v := by
  unfold wrapS
  rw [Int.emod_eq_of_lt (by omega) (by omega)]
  omega

/-- What comes back for a value written from a dense matrix or a frame: the value modulo `2^32`, as seen by the type. -/
theorem convert_print (t : IntTy) {v : Int} (hv : -2 ^ 63 ≤ v ∧ v < 2 ^ 63) {c : Char} (hc : isDigit c = false) (r : List Char) :
    t.convert (printInt v ++ c :: r) = t.cast (wrapS 32 v) := by
  unfold IntTy.convert atoi
  rw [strtol_print v hv.1 hv.2 hc]

theorem wrap32_range (v : Int) : -2 ^ 31 ≤ wrapS 32 v ∧ wrapS 32 v < 2 ^ 31 := by
  unfold wrapS
  have h1 := Int.emod_nonneg (v + 2 ^ (32 - 1)) (show (2 : Int) ^ 32 ≠ 0 by decide)
  have h2 := Int.emod_lt_of_pos (v + 2 ^ (32 - 1)) (show (0 : Int) < 2 ^ 32 by decide)
  omega

theorem convert_printDense (t : IntTy) {v : Int} (hv : t.InRange v) {c : Char} (hc : isDigit c = false) (r : List Char) :
    t.convert (t.printDense v ++ c :: r) = t.cast (wrapS 32 v) := by
  have hw := wrap32_range v
  have key : t.convert (printInt (wrapS 32 v) ++ c :: r) = t.cast (wrapS 32 v) := by
    rw [convert_print t (by omega) hc, wrap32_id hw.1 hw.2]
  cases t
  case si64 => exact convert_print _ hv hc r
  all_goals exact key

/-- All values of 8- and 32-bit types survive. -/
theorem cast_wrap (t : IntTy) {v : Int} (hv : t.InRange v) (h64 : t = .si64 ∨ t = .ui64 → -2 ^ 31 ≤ v ∧ v < 2 ^ 31) : t.cast (wrapS 32 v) = v := by
  cases t <;> simp only [IntTy.cast, IntTy.InRange, wrapS] at * <;> simp at h64 <;> omega

/-! ### Position in the file -/

/-- The reader is at position `pos` of the current line, and `S` is what follows in the file; the line ends with its only newline. -/
structure At (f : File) (pos : Nat) (S : List Char) : Prop where
  lt : pos < f.line.length
  text : f.line.drop pos ++ f.rest = S
  line : ∃ body, f.line = body ++ ['\n'] ∧ '\n' ∉ body

variable {f : File} {pos : Nat} {S : List Char} {c : Char}

theorem At.char (h : At f pos (c :: S)) : f.line[pos]? = some c := by
  have h1 := h.text
  rw [List.drop_eq_getElem_cons h.lt, List.cons_append] at h1
  injection h1 with h1 _
  rw [List.getElem?_eq_getElem h.lt, h1]

theorem At.last (h : At f pos (c :: S)) : c = '\n' ↔ pos + 1 = f.line.length := by
  have hc := h.char
  obtain ⟨body, hb, hn⟩ := h.line
  have hl := h.lt
  rw [hb] at hc hl ⊢
  simp only [List.length_append, List.length_singleton] at hl ⊢
  by_cases hp : pos < body.length
  · rw [List.getElem?_append_left hp] at hc
    have hm := List.mem_of_getElem? hc
    refine ⟨fun e => absurd (e ▸ hm) hn, fun e => by omega⟩
  · rw [List.getElem?_append_right (by omega), show pos - body.length = 0 by omega] at hc
    simp at hc
    exact ⟨fun _ => by omega, fun _ => hc.symm⟩

theorem At.next (h : At f pos (c :: S)) (hc : c ≠ '\n') : At f (pos + 1) S := by
  have hl := h.last
  refine ⟨by have := h.lt; have : pos + 1 ≠ f.line.length := fun e => hc (hl.2 e); omega, ?_, h.line⟩
  have h1 := h.text
  rw [List.drop_eq_getElem_cons h.lt, List.cons_append] at h1
  injection h1

theorem At.rest (h : At f pos ('\n' :: S)) : f.rest = S ∧ pos + 1 = f.line.length := by
  have hl := h.last.1 rfl
  refine ⟨?_, hl⟩
  have h1 := h.text
  rw [List.drop_eq_getElem_cons h.lt, List.cons_append, List.drop_eq_nil_of_le (by omega)] at h1
  injection h1

/-- Reading the next line. -/
theorem getLine_ok {f : File} (h : '\n' ∈ f.rest) : ∃ f', f.getLine = some f' ∧ At f' 0 f.rest := by
  unfold File.getLine
  rw [if_neg (by intro e; rw [e] at h; simp at h)]
  refine ⟨_, rfl, ?_⟩
  obtain ⟨a, b, hab, hn⟩ : ∃ a b, f.rest = a ++ '\n' :: b ∧ '\n' ∉ a := List.eq_append_cons_of_mem h
  have ha : ∀ c ∈ a, decide (c ≠ '\n') = true := fun c hc => by simp; rintro rfl; exact hn hc
  rw [hab, takeWhile_append_stop ha (by simp), dropWhile_append_stop ha (by simp)]
  refine ⟨by simp, by simp, a, by simp, hn⟩

end Verif.Io
