/-
  C376: comparing a contiguous with a chunked tensor.
-/
import Verif.Chunk.Rechunk

namespace Verif.Chunk
open Verif Verif.Dense Verif.Tens

variable {α : Type}

/-- `areLogicalElementsEqual` — ChunkedTensor.h:1253-1288 (`eqv`: `==` of elements); for rank zero an element of an empty vector is
written. -/
def logicalEqual (eqv : α → α → Bool) (a : CT α) (t : CK α) : Res Bool :=
  if a.shape ≠ t.shape then .ok false
  else do
    let all ← forLoop 0 (count t.per) true fun i ok => do
      let f ← t.flags.read i
      .ok (ok && f)
    if !all then .ok false
    else if t.rank = 0 then .error (.ub "write beyond the end of linear_strides")
    else forLoop 0 (count t.shape) true fun i ok =>
      if !ok then .ok false
      else do
        let ids := (CT.unrank ((stridesFrom 1 t.shape).map fun s => (s, 0)) i).1
        let x ← a.get ids
        let y ← t.get ids
        .ok (eqv x y)

/-- **C376.** A contiguous and a chunked tensor (of rank at least one) compare as equal exactly if they have the same shape, all
elements of the chunked one are loaded, and corresponding elements are the same; the contiguous one may also be a view with room
between columns. -/
theorem C376_logical_equal (eqv : α → α → Bool) (a : CT α) (k : Nat) (wa : a.WF k) (t : CK α) (w : t.WF) (hr : t.shape ≠ []) :
    ∃ r, logicalEqual eqv a t = .ok r ∧ (r = true ↔ a.shape = t.shape ∧ ∀ idx, Valid idx t.shape →
      ∃ x y, a.tryGet idx = .ok (some x) ∧ t.tryGet idx = .ok (some y) ∧ eqv x y = true) := by
  have hr' : t.rank ≠ 0 := fun e => hr (List.eq_nil_of_length_eq_zero e)
  unfold logicalEqual
  by_cases hs : a.shape = t.shape
  · rw [if_neg (by simpa using hs), count_eq, count_eq]
    obtain ⟨all, ea, ha⟩ : ∃ r, (forLoop 0 t.per.prod true fun i ok => do
        let f ← t.flags.read i
        .ok (ok && f)) = .ok r ∧ (r = true ↔ ∀ i, i < t.per.prod → t.flags.data i = true) := by
      refine forLoop_post (fun n r => r = true ↔ ∀ i, i < n → t.flags.data i = true) 0 _ true (Nat.zero_le _) (by simp) ?_
        (fun _ h => h)
      intro j r _ hj hI
      rw [Buf.read_eq (by rw [w.flagSize]; exact hj)]
      refine ⟨_, rfl, ?_⟩
      show (r && t.flags.data j) = true ↔ _
      rw [Bool.and_eq_true, hI]
      constructor
      · rintro ⟨h1, h2⟩ i hi
        by_cases e : i = j
        · subst e; exact h2
        · exact h1 i (by omega)
      · intro h
        exact ⟨fun i hi => h i (by omega), h j (by omega)⟩
    rw [ea]
    simp only [Res.ok_bind]
    cases all with
    | false =>
        refine ⟨false, rfl, by simp, fun ⟨_, h⟩ => ?_⟩
        refine absurd (ha.2 (flags_of_visible w hr fun idx hv hn => ?_)) (by simp)
        obtain ⟨_, y, _, hy, _⟩ := h idx hv
        rw [hn] at hy; simp at hy
    | true =>
        have hf := ha.1 rfl
        simp only [Bool.not_true, Bool.false_eq_true, if_false]
        rw [if_neg hr']
        have hsp : 0 ∉ t.shape := shape_pos w
        have key : ∀ idx, Valid idx t.shape → a.get idx = .ok (a.mem.data (a.base + lin idx a.strides)) ∧
            t.get idx = .ok (t.mem.data (t.at' idx)) ∧
            ((∃ x y, a.tryGet idx = .ok (some x) ∧ t.tryGet idx = .ok (some y) ∧ eqv x y = true) ↔
              eqv (a.mem.data (a.base + lin idx a.strides)) (t.mem.data (t.at' idx)) = true) := by
          intro idx hv
          have hva : Valid idx a.shape := by rw [hs]; exact hv
          have hL : t.Loaded idx := .inr (hf _ (place_lt (valid_div w.len w.posC hv).1))
          refine ⟨Tens.get_valid wa hva, get_valid w hv, ?_⟩
          rw [Tens.tryGet_valid wa hva, (tryGet_valid w hv).1 hL]
          constructor
          · rintro ⟨x, y, h1, h2, h3⟩
            simp only [Except.ok.injEq, Option.some.injEq] at h1 h2
            rw [h1, h2]; exact h3
          · intro h
            exact ⟨_, _, rfl, rfl, h⟩
        have hdig : ∀ i, i < t.shape.prod → Valid (digits 1 t.shape i) t.shape ∧ place (digits 1 t.shape i) t.shape = i := by
          intro i hi
          obtain ⟨v1, e1⟩ := place_digits t.shape 1 i (by omega) hsp (by omega)
          rw [Nat.mod_one, Nat.one_mul, Nat.add_zero] at e1
          exact ⟨v1, e1⟩
        have hun : ∀ i, i < t.shape.prod → (CT.unrank ((stridesFrom 1 t.shape).map fun s => (s, 0)) i).1 = digits 1 t.shape i := by
          intro i hi
          rw [zip_zero, stridesFrom_length, unrank_eq t.shape _ 1 i (by simp) (by omega) hsp (by omega)]
          exact add_zeros _ _ (digits_length ..).symm
        refine forLoop_post (fun n r => r = true ↔ ∀ i, i < n → i < t.shape.prod →
          eqv (a.mem.data (a.base + lin (digits 1 t.shape i) a.strides)) (t.mem.data (t.at' (digits 1 t.shape i))) = true)
          0 _ true (Nat.zero_le _) (by simp) ?_ ?_
        · intro j r _ hj hI
          cases r with
          | false =>
              refine ⟨false, rfl, by simp, fun h => ?_⟩
              exact absurd (hI.2 fun i hi => h i (by omega)) (by simp)
          | true =>
              have hI' := hI.1 rfl
              obtain ⟨g1, g2, _⟩ := key _ (hdig j hj).1
              simp only [Bool.not_true, Bool.false_eq_true, if_false]
              rw [hun j hj, g1, g2]
              refine ⟨_, rfl, fun h i hi hil => ?_, fun h => h j (by omega) hj⟩
              by_cases e : i = j
              · subst e; exact h
              · exact hI' i (by omega) hil
        · intro r h
          rw [h]
          constructor
          · intro h
            refine ⟨hs, fun idx hv => (key idx hv).2.2.2 ?_⟩
            have hp : place idx t.shape < t.shape.prod := place_lt hv
            obtain ⟨v1, e1⟩ := hdig _ hp
            have : digits 1 t.shape (place idx t.shape) = idx := place_inj v1 hv e1
            have h' := h _ hp hp
            rw [this] at h'
            exact h'
          · rintro ⟨_, h⟩ i _ hi
            exact (key _ (hdig i hi).1).2.2.1 (h _ (hdig i hi).1)
  · rw [if_pos hs]
    exact ⟨false, rfl, by simp, fun h => absurd h.1 hs⟩

/-- Three elements in chunks of two against the same elements next to each other. -/
example : logicalEqual (· == ·) (⟨[3], [1], 3, 0, ⟨3, fun i => i⟩⟩ : CT Nat)
    ⟨[3], [2], ⟨4, fun i => if i = 3 then 99 else i⟩, ⟨2, fun _ => true⟩⟩ = .ok true ∧
    (⟨[3], [1], 3, 0, ⟨3, fun i => i⟩⟩ : CT Nat).WF 3 ∧
    CK.WF (⟨[3], [2], ⟨4, fun i => if i = 3 then 99 else i⟩, ⟨2, fun _ => true⟩⟩ : CK Nat) := by
  refine ⟨rfl, ⟨by decide, ?_, by simp, rfl, ?_⟩, ⟨rfl, by decide, rfl, rfl, by decide⟩⟩
  · intro d ds h
    simp only [List.cons.injEq] at h
    obtain ⟨rfl, rfl⟩ := h
    exact ⟨by omega, rfl⟩
  · intro idx h
    cases h with
    | cons h hs => cases hs; simpa [lin, linRest] using h

end Verif.Chunk
