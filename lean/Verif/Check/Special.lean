/-
  Searching a matrix for a value (C233).
-/
import Verif.Check.Model
import Verif.Csr.Sink
import Mathlib.Data.List.Basic
import Mathlib.Data.Finset.Card
import Mathlib.Data.Finset.Range

namespace Verif.Check
open Verif Verif.Csr Verif.Dense
variable {α : Type}

theorem hasScan_ok {p : α → Bool} {x : DM α} {a : Mat α} (hx : x.Is a) : ∀ (ps : List (Nat × Nat)),
    (∀ q ∈ ps, q.1 < a.rows ∧ q.2 < a.cols) →
    Res.Ok (hasScan p x ps) fun b => b = true ↔ ∃ q ∈ ps, p (a.cell q.1 q.2) = true := by
  intro ps
  induction ps with
  | nil => intro _; exact ⟨false, rfl, by simp⟩
  | cons q ps ih =>
    intro h
    obtain ⟨r, c⟩ := q
    obtain ⟨h1, h2⟩ := h (r, c) (by simp)
    unfold hasScan
    have e1 : x.h.get x.mem r c = .ok (a.cell r c) := hx.2.2.2 r c h1 h2
    rw [e1]
    simp only [Res.ok_bind]
    cases hn : p (a.cell r c)
    · obtain ⟨b, hb, hi⟩ := ih fun q hq => h q (by simp [hq])
      refine ⟨b, by simpa using hb, ?_⟩
      show b = true ↔ _
      rw [hi]
      simp [hn]
    · refine ⟨true, rfl, ?_⟩
      simp [hn]

theorem hasScanVals_ok {p : α → Bool} {vals : Buf α} : ∀ (is : List Nat), (∀ i ∈ is, i < vals.size) →
    Res.Ok (hasScanVals p vals is) fun b => b = true ↔ ∃ i ∈ is, p (vals.data i) = true := by
  intro is
  induction is with
  | nil => intro _; exact ⟨false, rfl, by simp⟩
  | cons i is ih =>
    intro h
    unfold hasScanVals
    rw [Buf.read_eq (h i (by simp))]
    simp only [Res.ok_bind]
    cases hn : p (vals.data i)
    · obtain ⟨b, hb, hi⟩ := ih fun q hq => h q (by simp [hq])
      refine ⟨b, by simpa using hb, ?_⟩
      show b = true ↔ _
      rw [hi]
      simp [hn]
    · refine ⟨true, rfl, ?_⟩
      simp [hn]

theorem psum_lt {f : Nat → Nat} {C : Nat} : ∀ n, psum f n < n * C → ∃ r, r < n ∧ f r < C
  | 0, h => by simp [psum] at h
  | n + 1, h => by
    by_cases h1 : f n < C
    · exact ⟨n, by omega, h1⟩
    · simp only [psum, Nat.add_mul] at h
      obtain ⟨r, hr, h2⟩ := psum_lt (f := f) (C := C) n (by omega)
      exact ⟨r, by omega, h2⟩

theorem psum_ge {f : Nat → Nat} {C : Nat} : ∀ n, (∀ r, r < n → f r ≤ C) → n * C ≤ psum f n → ∀ r, r < n → f r = C
  | 0, _, _, r, hr => by omega
  | n + 1, h, hs, r, hr => by
    have hu : ∀ m, m ≤ n → psum f m ≤ m * C := by
      intro m
      induction m with
      | zero => intro _; simp [psum]
      | succ m ih => intro hm; have := ih (by omega); have := h m (by omega); simp only [psum, Nat.add_mul]; omega
    have h1 := hu n (Nat.le_refl _)
    have h2 := h n (by omega)
    simp only [psum, Nat.add_mul] at hs
    by_cases e : r = n
    · subst e; omega
    · exact psum_ge n (fun r hr => h r (by omega)) (by omega) r (by omega)

theorem rowCols_toFinset {x : CM α} (w : x.WF) {r : Nat} (hr : r < x.h.numRows) :
    (x.rowCols r).toFinset.card = x.rowLen r ∧ (x.rowCols r).toFinset ⊆ Finset.range x.h.numCols := by
  constructor
  · rw [List.toFinset_card_of_nodup ((w.rowCols_sorted hr).imp fun h => Nat.ne_of_lt h)]
    simp [CM.rowCols, CM.rowLen]
  · intro c hc
    obtain ⟨p, h1, h2, rfl⟩ := CM.mem_rowCols.1 (List.mem_toFinset.1 hc)
    exact Finset.mem_range.2 (w.bound r p hr h1 h2)

theorem rowLen_le {x : CM α} (w : x.WF) {r : Nat} (hr : r < x.h.numRows) : x.rowLen r ≤ x.h.numCols := by
  obtain ⟨h1, h2⟩ := rowCols_toFinset w hr
  have := Finset.card_le_card h2
  rwa [h1, Finset.card_range] at this

/-- A cell without entry exists iff there are fewer entries than cells. -/
theorem exists_unstored {x : CM α} (w : x.WF) :
    x.o x.h.numRows - x.o 0 < x.h.numRows * x.h.numCols ↔ ∃ r c, r < x.h.numRows ∧ c < x.h.numCols ∧ c ∉ x.rowCols r := by
  rw [← w.len_psum _ (Nat.le_refl _)]
  constructor
  · intro h
    obtain ⟨r, hr, h1⟩ := psum_lt _ h
    obtain ⟨h2, h3⟩ := rowCols_toFinset w hr
    by_contra hc
    have : Finset.range x.h.numCols ⊆ (x.rowCols r).toFinset := by
      intro c hc'
      by_contra hn
      exact hc ⟨r, c, hr, Finset.mem_range.1 hc', fun h => hn (List.mem_toFinset.2 h)⟩
    have := Finset.card_le_card this
    rw [h2, Finset.card_range] at this
    omega
  · rintro ⟨r, c, hr, hc, hn⟩
    by_contra h
    have h1 := psum_ge (f := x.rowLen) (C := x.h.numCols) _ (fun r hr => rowLen_le w hr) (by omega) r hr
    obtain ⟨h2, h3⟩ := rowCols_toFinset w hr
    have h4 := Finset.eq_of_subset_of_card_le h3 (by rw [h2, Finset.card_range, h1])
    exact hn (List.mem_toFinset.1 (h4 ▸ Finset.mem_range.2 hc))

/-- **C233.** Searching a matrix for a value finds it exactly if some cell has it (is NaN, if this is NaN; equals it in the sense of `==`, otherwise), no matter
if the matrix is dense or sparse, whether the sparse matrix is a view into a larger one, and whether it stores zeros. -/
theorem C233_has_special_value (eq : α → α → Bool) (isNan : α → Bool) (zero val : α) (hz : isNan zero = false) (a : Mat α) :
    (∀ x : DM α, x.Is a → ∃ b, hasSpecialDense eq isNan x val = .ok b ∧
      (b = true ↔ ∃ r c, r < a.rows ∧ c < a.cols ∧ (if isNan val then isNan (a.cell r c) else eq (a.cell r c) val) = true)) ∧
    (∀ x : CM α, x.Is zero a → ∃ b, hasSpecialCsr eq isNan zero x val = .ok b ∧
      (b = true ↔ ∃ r c, r < a.rows ∧ c < a.cols ∧ (if isNan val then isNan (a.cell r c) else eq (a.cell r c) val) = true)) := by
  constructor
  · intro x hx
    have e1 := hx.rows; have e2 := hx.cols
    obtain ⟨b, hb, hi⟩ := hasScan_ok (p := Matches eq isNan val) hx
      ((List.range x.h.numRows).flatMap fun r => (List.range x.h.numCols).map fun c => (r, c)) (by
        rintro ⟨r, c⟩ hp
        simp only [List.mem_flatMap, List.mem_range, List.mem_map, Prod.mk.injEq] at hp
        obtain ⟨r', h1, c', h2, rfl, rfl⟩ := hp
        exact ⟨by simp only; omega, by simp only; omega⟩)
    refine ⟨b, hb, hi.trans ⟨?_, ?_⟩⟩
    · rintro ⟨⟨r, c⟩, hp, h⟩
      simp only [List.mem_flatMap, List.mem_range, List.mem_map, Prod.mk.injEq] at hp
      obtain ⟨r', h1, c', h2, rfl, rfl⟩ := hp
      exact ⟨r', c', by omega, by omega, h⟩
    · rintro ⟨r, c, h1, h2, h⟩
      refine ⟨(r, c), ?_, h⟩
      simp only [List.mem_flatMap, List.mem_range, List.mem_map, Prod.mk.injEq]
      exact ⟨r, by omega, c, by omega, rfl, rfl⟩
  · intro x hx
    have e1 := hx.rows; have e2 := hx.cols
    have w := hx.wf
    have hscan : ∀ b, (b = true ↔ ∃ i ∈ List.range' (x.o 0) (x.o x.h.numRows - x.o 0), Matches eq isNan val (x.mem.vals.data i) = true) →
        (b = true ↔ ∃ r c, r < a.rows ∧ c ∈ x.rowCols r ∧ Matches eq isNan val (a.cell r c) = true) := by
      intro b hb
      refine hb.trans ⟨?_, ?_⟩
      · rintro ⟨i, hi, h⟩
        have hi := List.mem_range'_1.1 hi
        obtain ⟨r, h1, h2, h3⟩ := w.findRow hi.1 x.h.numRows (Nat.le_refl _) (by omega)
        exact ⟨r, x.mem.cols.data i, by omega, CM.mem_rowCols.2 ⟨i, h2, h3, rfl⟩, by rw [hx.entry r i (by omega) h2 h3]; exact h⟩
      · rintro ⟨r, c, hr, hc, h⟩
        obtain ⟨i, h1, h2, rfl⟩ := CM.mem_rowCols.1 hc
        have := w.mono' (r := 0) (r' := r) (by omega) (by omega)
        have := w.mono' (r := r + 1) (r' := x.h.numRows) (by omega) (by omega)
        exact ⟨i, List.mem_range'_1.2 (by omega), by rw [← hx.entry r i hr h1 h2]; exact h⟩
    have hcell : ∀ {r c}, r < a.rows → c < a.cols → c ∉ x.rowCols r → a.cell r c = zero := by
      intro r c hr hc hn
      exact hx.rest r c hr hc fun p h1 h2 h3 => hn (CM.mem_rowCols.2 ⟨p, h1, h2, h3⟩)
    have hbound : ∀ {r c}, r < a.rows → c ∈ x.rowCols r → c < a.cols := by
      intro r c hr hc
      obtain ⟨i, h1, h2, rfl⟩ := CM.mem_rowCols.1 hc
      rw [← e2]; exact w.bound r i (by omega) h1 h2
    unfold hasSpecialCsr
    rw [w.numNonZeros, w.rowPtr (by omega), w.rowPtr (by omega)]
    simp only [Res.ok_bind]
    by_cases hc : isNan val = false ∧ x.o x.h.numRows - x.o 0 < x.h.numRows * x.h.numCols ∧ eq zero val = true
    · rw [if_pos hc]
      obtain ⟨r, c, h1, h2, h3⟩ := (exists_unstored w).1 hc.2.1
      refine ⟨true, rfl, ⟨fun _ => ⟨r, c, by omega, by omega, ?_⟩, fun _ => rfl⟩⟩
      rw [hcell (by omega) (by omega) h3, hc.1]
      exact hc.2.2
    · rw [if_neg hc]
      obtain ⟨b, hb, hi⟩ := hasScanVals_ok (p := Matches eq isNan val) (vals := x.mem.vals) (List.range' (x.o 0) (x.o x.h.numRows - x.o 0)) (by
        intro i hi
        have := List.mem_range'_1.1 hi
        have := w.topV
        have := w.mono' (r := 0) (r' := x.h.numRows) (by omega) (by omega)
        omega)
      refine ⟨b, hb, (hscan b hi).trans ⟨?_, ?_⟩⟩
      · rintro ⟨r, c, h1, h2, h3⟩
        exact ⟨r, c, h1, hbound h1 h2, h3⟩
      · rintro ⟨r, c, h1, h2, h3⟩
        refine ⟨r, c, h1, ?_, h3⟩
        by_contra hn
        rw [hcell h1 h2 hn] at h3
        cases hv : isNan val
        · rw [hv] at h3
          exact hc ⟨hv, (exists_unstored w).2 ⟨r, c, by omega, by omega, hn⟩, by simpa using h3⟩
        · rw [hv] at h3
          simp [hz] at h3

/-! ### Examples -/

/-- The second row of a matrix with the rows `1 2` and `3 0`. -/
def exView : CM Int := ⟨{ CHdr.new 1 2 with rowOff := 1 }, ⟨⟨3, fun p => [1, 2, 3].getD p 0⟩, ⟨3, fun p => [0, 1, 0].getD p 0⟩, ⟨3, fun r => [0, 2, 3].getD r 0⟩⟩⟩

example : hasSpecialCsr (fun a b => a == b) (fun _ => false) 0 exView 0 = .ok true ∧
    hasSpecialCsr (fun a b => a == b) (fun _ => false) 0 exView 2 = .ok false ∧
    hasSpecialCsr (fun a b => a == b) (fun _ => false) 0 exView 3 = .ok true := by decide +kernel

/-- NaN is modelled by `none`. -/
example : hasSpecialDense (fun a b : Option Int => a.isSome && a == b) (fun a => a.isNone)
    ⟨Hdr.new 1 2, ⟨2, fun p => if p = 1 then none else some 4⟩⟩ none = .ok true := by decide +kernel

end Verif.Check
