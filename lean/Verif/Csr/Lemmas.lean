/-
  Well-formed sparse matrices, what they contain, and element access.
-/
import Verif.Csr.Model

namespace Verif.Csr
open Verif
variable {α : Type}

/-- Row offsets of a matrix object. -/
def CM.o (x : CM α) (r : Nat) : Nat := x.mem.offs.data (x.h.rowOff + r)

/-- Well-formed sparse matrix object: offsets ascend and stay inside the arrays, column indexes are in range and strictly
ascending within each row. -/
structure CM.WF (x : CM α) : Prop where
  offsIn : x.h.rowOff + x.h.numRows < x.mem.offs.size
  mono : ∀ r, r < x.h.numRows → x.o r ≤ x.o (r + 1)
  topV : x.o x.h.numRows ≤ x.mem.vals.size
  topC : x.o x.h.numRows ≤ x.mem.cols.size
  sorted : ∀ r p q, r < x.h.numRows → x.o r ≤ p → p < q → q < x.o (r + 1) → x.mem.cols.data p < x.mem.cols.data q
  bound : ∀ r p, r < x.h.numRows → x.o r ≤ p → p < x.o (r + 1) → x.mem.cols.data p < x.h.numCols

/-- The stored entries of `x` are exactly those of the matrix `a`; cells without entry are `zero`. -/
structure CM.Is (zero : α) (x : CM α) (a : Mat α) : Prop where
  wf : x.WF
  rows : x.h.numRows = a.rows
  cols : x.h.numCols = a.cols
  entry : ∀ r p, r < a.rows → x.o r ≤ p → p < x.o (r + 1) → a.cell r (x.mem.cols.data p) = x.mem.vals.data p
  rest : ∀ r c, r < a.rows → c < a.cols → (∀ p, x.o r ≤ p → p < x.o (r + 1) → x.mem.cols.data p ≠ c) → a.cell r c = zero

theorem CM.WF.mono' {x : CM α} (w : x.WF) {r r' : Nat} (h : r ≤ r') (h' : r' ≤ x.h.numRows) : x.o r ≤ x.o r' := by
  induction r' with
  | zero => have : r = 0 := by omega
            subst this; exact Nat.le_refl _
  | succ k ih =>
    by_cases e : r = k + 1
    · subst e; exact Nat.le_refl _
    · have := ih (by omega) (by omega)
      have := w.mono k (by omega)
      omega

theorem CM.WF.rowTop {x : CM α} (w : x.WF) {r : Nat} (hr : r < x.h.numRows) :
    x.o (r + 1) ≤ x.mem.vals.size ∧ x.o (r + 1) ≤ x.mem.cols.size := by
  have := w.mono' (r := r + 1) (r' := x.h.numRows) (by omega) (Nat.le_refl _)
  have := w.topV; have := w.topC
  omega

theorem CM.WF.off {x : CM α} (w : x.WF) {r : Nat} (hr : r ≤ x.h.numRows) : x.h.off x.mem r = .ok (x.o r) := by
  unfold CHdr.off CM.o
  exact Buf.read_eq (by have := w.offsIn; omega)

theorem CM.WF.rowPtr {x : CM α} (w : x.WF) {r : Nat} (hr : r ≤ x.h.numRows) : x.h.rowPtr x.mem r = .ok (x.o r) := by
  unfold CHdr.rowPtr
  rw [if_neg (by omega), w.off hr]

/-- Binary search in an ascending range finds the first position whose element is not smaller. -/
theorem lowerBound_ok {b : Buf Nat} {c : Nat} : ∀ (fuel first len : Nat), len ≤ fuel → first + len ≤ b.size →
    (∀ p q, first ≤ p → p < q → q < first + len → b.data p < b.data q) →
    Res.Ok (lowerBound b c fuel first len) (fun p => first ≤ p ∧ p ≤ first + len ∧
      (∀ q, first ≤ q → q < p → b.data q < c) ∧ (∀ q, p ≤ q → q < first + len → c ≤ b.data q)) := by
  intro fuel
  induction fuel with
  | zero =>
    intro first len h1 h2 _
    exact ⟨first, rfl, Nat.le_refl _, by omega, fun q _ _ => by omega, fun q _ _ => by omega⟩
  | succ fuel ih =>
    intro first len h1 h2 h3
    unfold lowerBound
    by_cases hl : len = 0
    · rw [if_pos hl]
      exact ⟨first, rfl, Nat.le_refl _, by omega, fun q _ _ => by omega, fun q _ _ => by omega⟩
    · rw [if_neg hl, Buf.read_eq (by omega)]
      simp only [Res.ok_bind]
      have hle : ∀ p q, first ≤ p → p ≤ q → q < first + len → b.data p ≤ b.data q := by
        intro p q ha hb hc
        by_cases e : p = q
        · subst e; exact Nat.le_refl _
        · exact Nat.le_of_lt (h3 p q ha (by omega) hc)
      by_cases hx : b.data (first + len / 2) < c
      · rw [if_pos hx]
        refine (ih (first + len / 2 + 1) (len - len / 2 - 1) (by omega) (by omega)
          (fun p q ha hb hc => h3 p q (by omega) hb (by omega))).mono ?_
        rintro p ⟨g1, g2, g3, g4⟩
        refine ⟨by omega, by omega, fun q ha hb => ?_, fun q ha hb => g4 q ha (by omega)⟩
        by_cases hq : first + len / 2 + 1 ≤ q
        · exact g3 q hq hb
        · have := hle q (first + len / 2) ha (by omega) (by omega)
          omega
      · rw [if_neg hx]
        refine (ih first (len / 2) (by omega) (by omega) (fun p q ha hb hc => h3 p q ha hb (by omega))).mono ?_
        rintro p ⟨g1, g2, g3, g4⟩
        refine ⟨g1, by omega, g3, fun q ha hb => ?_⟩
        by_cases hq : q < first + len / 2
        · exact g4 q ha hq
        · have := hle (first + len / 2) q (by omega) (by omega) hb
          omega

/-- The search performed by `get` and `set`. -/
theorem CM.WF.search {x : CM α} (w : x.WF) {r : Nat} (c : Nat) (hr : r < x.h.numRows) :
    Res.Ok (lowerBound x.mem.cols c (x.o (r + 1) - x.o r) (x.o r) (x.o (r + 1) - x.o r)) (fun p =>
      x.o r ≤ p ∧ p ≤ x.o (r + 1) ∧ (∀ q, x.o r ≤ q → q < p → x.mem.cols.data q < c) ∧
      (∀ q, p ≤ q → q < x.o (r + 1) → c ≤ x.mem.cols.data q)) := by
  have hm := w.mono r hr
  have ht := w.rowTop hr
  refine (lowerBound_ok _ _ _ (Nat.le_refl _) (by omega) ?_).mono ?_
  · intro p q h1 h2 h3
    exact w.sorted r p q hr h1 h2 (by omega)
  · rintro p ⟨g1, g2, g3, g4⟩
    exact ⟨g1, by omega, g3, fun q h1 h2 => g4 q h1 (by omega)⟩

/-- Reading a cell. -/
theorem CM.Is.get {zero : α} {x : CM α} {a : Mat α} (h : x.Is zero a) {r c : Nat} (hr : r < a.rows) (hc : c < a.cols) :
    x.h.get zero x.mem r c = .ok (a.cell r c) := by
  have e1 := h.rows; have e2 := h.cols
  unfold CHdr.get
  rw [if_neg (by omega), if_neg (by omega), h.wf.rowPtr (by omega), h.wf.rowPtr (by omega)]
  simp only [Res.ok_bind]
  obtain ⟨p, hp, g1, g2, g3, g4⟩ := h.wf.search (r := r) c (by omega)
  rw [hp]
  simp only [Res.ok_bind]
  have ht := h.wf.rowTop (r := r) (by omega)
  by_cases hpe : p = x.o (r + 1)
  · rw [if_pos hpe, h.rest r c hr hc]
    intro q h1 h2
    have := g3 q h1 (by omega); omega
  · rw [if_neg hpe, Buf.read_eq (by omega)]
    simp only [Res.ok_bind]
    by_cases hx : x.mem.cols.data p = c
    · rw [if_neg (by simpa using hx), Buf.read_eq (by omega)]
      have := h.entry r p hr g1 (by omega)
      rw [hx] at this
      rw [this]; congr 2; omega
    · rw [if_pos hx, h.rest r c hr hc]
      intro q h1 h2 h3
      have hpc := g4 p (Nat.le_refl _) (by omega)
      by_cases hq : q < p
      · have := g3 q h1 hq; omega
      · by_cases e : q = p
        · subst e; exact hx h3
        · have := h.wf.sorted r p q (by omega) g1 (by omega) h2
          omega

theorem get_throws (zero : α) (h : CHdr) (m : CMem α) {r c : Nat} (hn : ¬ (r < h.numRows ∧ c < h.numCols)) :
    Res.Throws (h.get zero m r c) := by
  unfold CHdr.get
  by_cases h1 : h.numRows ≤ r
  · rw [if_pos h1]; exact ⟨_, rfl⟩
  · rw [if_neg h1, if_pos (by omega)]; exact ⟨_, rfl⟩

theorem set_throws [DecidableEq α] (zero : α) (h : CHdr) (m : CMem α) {r c : Nat} (v : α) (hn : ¬ (r < h.numRows ∧ c < h.numCols)) :
    Res.Throws (h.set zero m r c v) := by
  unfold CHdr.set
  by_cases h1 : h.numRows ≤ r
  · rw [if_pos h1]; exact ⟨_, rfl⟩
  · rw [if_neg h1, if_pos (by omega)]; exact ⟨_, rfl⟩

/-- The matrix is determined by the object. -/
theorem CM.Is.same {zero : α} {x : CM α} {a b : Mat α} (h : x.Is zero a) (h' : x.Is zero b) : a.Same b := by
  refine ⟨h.rows.symm.trans h'.rows, h.cols.symm.trans h'.cols, fun r c hr hc => ?_⟩
  have h1 := h.get hr hc
  rw [h'.get (by rw [← h'.rows, h.rows]; exact hr) (by rw [← h'.cols, h.cols]; exact hc)] at h1
  injection h1 with h1; exact h1.symm

theorem CM.Is.congr {zero : α} {x : CM α} {a b : Mat α} (h : x.Is zero a) (e : a.Same b) : x.Is zero b := by
  obtain ⟨e1, e2, e3⟩ := e
  have hc := h.cols
  refine ⟨h.wf, h.rows.trans e1, h.cols.trans e2, fun r p hr h1 h2 => ?_, fun r c hr hc' h1 => ?_⟩
  · rw [← e3 r _ (by omega) (by rw [← hc]; exact h.wf.bound r p (by have := h.rows; omega) h1 h2)]
    exact h.entry r p (by omega) h1 h2
  · rw [← e3 r c (by omega) (by omega)]
    exact h.rest r c (by omega) (by omega) h1

/-- A row view of a well-formed matrix shows exactly the rows. -/
theorem CM.Is.sliceRow {zero : α} {x : CM α} {a : Mat α} (h : x.Is zero a) {rl ru : Nat} :
    (rl < ru → ru ≤ a.rows → Res.Ok (x.h.sliceRow rl ru) (fun v => CM.Is zero ⟨v, x.mem⟩ (a.window rl ru 0 a.cols) ∧
      v.rowOff = x.h.rowOff + rl ∧ v.alloc = x.h.alloc - rl ∧ v.numRows = ru - rl)) ∧
    (¬ (rl < ru ∧ ru ≤ a.rows) → Res.Throws (x.h.sliceRow rl ru)) := by
  have e1 := h.rows; have e2 := h.cols
  constructor
  · intro h1 h2
    refine ⟨⟨ru - rl, x.h.numCols, x.h.alloc - rl, decide (0 < rl), x.h.rowOff + rl, 0⟩, ?_, ?_, rfl, rfl, rfl⟩
    · unfold CHdr.sliceRow
      rw [if_neg (by omega), if_neg (by omega), if_neg (by omega)]
    · have ho : ∀ r, CM.o ⟨⟨ru - rl, x.h.numCols, x.h.alloc - rl, decide (0 < rl), x.h.rowOff + rl, 0⟩, x.mem⟩ r = x.o (rl + r) := by
        intro r; unfold CM.o; simp only [Nat.add_assoc]
      refine ⟨⟨?_, ?_, ?_, ?_, ?_, ?_⟩, rfl, ?_, ?_, ?_⟩
      · have := h.wf.offsIn; simp only; omega
      · intro r hr
        simp only at hr
        rw [ho, ho]; exact h.wf.mono (rl + r) (by omega)
      · rw [ho]
        have := (h.wf.mono' (r := rl + (ru - rl)) (r' := x.h.numRows) (by omega) (Nat.le_refl _))
        have := h.wf.topV
        simp only; omega
      · rw [ho]
        have := (h.wf.mono' (r := rl + (ru - rl)) (r' := x.h.numRows) (by omega) (Nat.le_refl _))
        have := h.wf.topC
        simp only; omega
      · intro r p q hr
        simp only at hr
        rw [ho, ho]; exact h.wf.sorted (rl + r) p q (by omega)
      · intro r p hr
        simp only at hr
        rw [ho, ho]; exact h.wf.bound (rl + r) p (by omega)
      · simp [Mat.window, e2]
      · intro r p hr
        simp only [Mat.window] at hr
        rw [ho, ho]
        simp only [Mat.window, Nat.zero_add]
        exact h.entry (rl + r) p (by omega)
      · intro r c hr hc
        simp only [Mat.window] at hr hc
        rw [ho, ho]
        simp only [Mat.window, Nat.zero_add]
        exact h.rest (rl + r) c (by omega) (by omega)
  · intro hn
    unfold CHdr.sliceRow
    split
    · exact ⟨_, rfl⟩
    · split
      · exact ⟨_, rfl⟩
      · split
        · exact ⟨_, rfl⟩
        · omega

end Verif.Csr
