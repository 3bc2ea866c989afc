/-
  C15: comparison of sparse matrices.
-/
import Verif.Csr.Append
import Mathlib.Data.List.Sort

namespace Verif.Csr
open Verif
variable {α : Type}

theorem memEq_ok {β : Type} [DecidableEq β] (a : Buf β) (i : Nat) (b : Buf β) (j n : Nat) (h1 : i + n ≤ a.size) (h2 : j + n ≤ b.size) :
    Res.Ok (memEq a i b j n) (fun r => r = true ↔ ∀ k, k < n → a.data (i + k) = b.data (j + k)) := by
  unfold memEq
  refine forLoop_ok (fun m (r : Bool) => r = true ↔ ∀ k, k < m → a.data (i + k) = b.data (j + k)) 0 n _ (Nat.zero_le _) (by simp) ?_
  rintro m r - hm ih
  by_cases hr : r = true
  · rw [if_pos hr, Buf.read_eq (by omega)]
    simp only [Res.ok_bind]
    rw [Buf.read_eq (by omega)]
    simp only [Res.ok_bind]
    refine Res.ok_iff.2 ?_
    simp only [decide_eq_true_eq]
    constructor
    · intro h k hk
      by_cases e : k = m
      · subst e; exact h
      · exact ih.1 hr k (by omega)
    · intro h; exact h m (by omega)
  · rw [if_neg hr]
    refine Res.ok_iff.2 ?_
    simp only [Bool.false_eq_true, false_iff]
    intro h; exact hr (ih.2 fun k hk => h k (by omega))

/-- Column indexes stored in row `r`. -/
def CM.rowCols (x : CM α) (r : Nat) : List Nat := (List.range (x.o (r + 1) - x.o r)).map fun k => x.mem.cols.data (x.o r + k)

theorem CM.WF.rowCols_sorted {x : CM α} (w : x.WF) {r : Nat} (hr : r < x.h.numRows) : (x.rowCols r).Pairwise (· < ·) := by
  unfold CM.rowCols
  rw [List.pairwise_map]
  refine List.Pairwise.imp_of_mem ?_ (List.pairwise_lt_range (n := x.o (r + 1) - x.o r))
  intro a b ha hb hab
  rw [List.mem_range] at ha hb
  exact w.sorted r _ _ hr (by omega) (by omega) (by omega)

theorem CM.mem_rowCols {x : CM α} {r c : Nat} : c ∈ x.rowCols r ↔ ∃ p, x.o r ≤ p ∧ p < x.o (r + 1) ∧ x.mem.cols.data p = c := by
  unfold CM.rowCols
  simp only [List.mem_map, List.mem_range]
  constructor
  · rintro ⟨k, h1, h2⟩; exact ⟨x.o r + k, by omega, by omega, h2⟩
  · rintro ⟨p, h1, h2, h3⟩; exact ⟨p - x.o r, by omega, by rw [show x.o r + (p - x.o r) = p by omega]; exact h3⟩

/-- The matrix stores no explicit zeros. -/
def CM.NoZeros (zero : α) (x : CM α) : Prop := ∀ r p, r < x.h.numRows → x.o r ≤ p → p < x.o (r + 1) → x.mem.vals.data p ≠ zero

theorem CM.Is.mem_rowCols_iff {zero : α} {x : CM α} {a : Mat α} (h : x.Is zero a) (nz : x.NoZeros zero) {r c : Nat} (hr : r < a.rows) :
    c ∈ x.rowCols r ↔ (c < a.cols ∧ a.cell r c ≠ zero) := by
  have e1 := h.rows; have e2 := h.cols
  rw [CM.mem_rowCols]
  constructor
  · rintro ⟨p, h1, h2, rfl⟩
    exact ⟨by rw [← e2]; exact h.wf.bound r p (by omega) h1 h2, by rw [h.entry r p hr h1 h2]; exact nz r p (by omega) h1 h2⟩
  · rintro ⟨h1, h2⟩
    by_contra hno
    refine h2 (h.rest r c hr h1 fun p a1 a2 a3 => hno ⟨p, a1, a2, a3⟩)

/-- Matrices with the same cells and no explicit zeros have the same arrays. -/
theorem same_arrays {zero : α} {x y : CM α} {a b : Mat α} (hx : x.Is zero a) (hy : y.Is zero b) (nx : x.NoZeros zero) (ny : y.NoZeros zero)
    (hs : a.Same b) : ∀ r, r ≤ a.rows → x.o r - x.o 0 = y.o r - y.o 0 ∧ ∀ k, k < x.o r - x.o 0 →
      x.mem.cols.data (x.o 0 + k) = y.mem.cols.data (y.o 0 + k) ∧ x.mem.vals.data (x.o 0 + k) = y.mem.vals.data (y.o 0 + k) := by
  obtain ⟨s1, s2, s3⟩ := hs
  have e1 := hx.rows; have e2 := hx.cols; have f1 := hy.rows; have f2 := hy.cols
  intro r
  induction r with
  | zero => intro _; exact ⟨by omega, fun k hk => by omega⟩
  | succ r ih =>
    intro hr
    obtain ⟨i1, i2⟩ := ih (by omega)
    have mx := hx.wf.mono' (r := 0) (r' := r) (by omega) (by omega)
    have my := hy.wf.mono' (r := 0) (r' := r) (by omega) (by omega)
    have mx' := hx.wf.mono r (by omega)
    have my' := hy.wf.mono r (by omega)
    have hl : x.rowCols r = y.rowCols r := by
      refine (hx.wf.rowCols_sorted (by omega)).eq_of_mem_iff (hy.wf.rowCols_sorted (by omega)) fun c => ?_
      rw [hx.mem_rowCols_iff nx (by omega), hy.mem_rowCols_iff ny (by omega), ← s2]
      constructor
      · rintro ⟨h1, h2⟩; exact ⟨h1, by rw [← s3 r c (by omega) h1]; exact h2⟩
      · rintro ⟨h1, h2⟩; exact ⟨h1, by rw [s3 r c (by omega) h1]; exact h2⟩
    have hlen := congrArg List.length hl
    simp only [CM.rowCols, List.length_map, List.length_range] at hlen
    have hcol : ∀ k, k < x.o (r + 1) - x.o r → x.mem.cols.data (x.o r + k) = y.mem.cols.data (y.o r + k) := by
      intro k hk
      have h1 := congrArg (fun l => l[k]?) hl
      simp only [CM.rowCols, List.getElem?_map] at h1
      rw [List.getElem?_range hk, List.getElem?_range (by omega)] at h1
      simpa using h1
    refine ⟨by omega, fun k hk => ?_⟩
    by_cases hk' : k < x.o r - x.o 0
    · exact i2 k hk'
    · have h1 := hcol (k - (x.o r - x.o 0)) (by omega)
      rw [show x.o r + (k - (x.o r - x.o 0)) = x.o 0 + k by omega, show y.o r + (k - (x.o r - x.o 0)) = y.o 0 + k by omega] at h1
      refine ⟨h1, ?_⟩
      have h2 := hx.entry r (x.o 0 + k) (by omega) (by omega) (by omega)
      have h3 := hy.entry r (y.o 0 + k) (by omega) (by omega) (by omega)
      rw [← h2, ← h3, ← h1]
      refine s3 r _ (by omega) ?_
      rw [← e2]; exact hx.wf.bound r _ (by omega) (by omega) (by omega)

/-- What the comparison computes. -/
theorem eq_ok [DecidableEq α] {x y : CM α} (wx : x.WF) (wy : y.WF) (sameAlloc : Bool) (hsame : sameAlloc = true → x.mem = y.mem) :
    Res.Ok (CM.eq sameAlloc x y) (fun r => r = true ↔ (x.h.numRows = y.h.numRows ∧ x.h.numCols = y.h.numCols ∧
      x.o x.h.numRows - x.o 0 = y.o x.h.numRows - y.o 0 ∧ ∀ k, k < x.o x.h.numRows - x.o 0 →
      x.mem.cols.data (x.o 0 + k) = y.mem.cols.data (y.o 0 + k) ∧ x.mem.vals.data (x.o 0 + k) = y.mem.vals.data (y.o 0 + k))) := by
  unfold CM.eq
  by_cases hd : x.h.numRows ≠ y.h.numRows ∨ x.h.numCols ≠ y.h.numCols
  · rw [if_pos hd]
    refine Res.ok_iff.2 ?_
    simp only [Bool.false_eq_true, false_iff]
    rintro ⟨h1, h2, _⟩
    rcases hd with h | h
    · exact h h1
    · exact h h2
  · rw [if_neg hd]
    rw [not_or, not_ne_iff, not_ne_iff] at hd
    obtain ⟨d1, d2⟩ := hd
    rw [wx.rowPtr (Nat.zero_le _), wx.rowPtr (Nat.le_refl _), wy.rowPtr (Nat.zero_le _), wy.rowPtr (by omega)]
    simp only [Res.ok_bind]
    have mx := wx.mono' (Nat.zero_le _) (Nat.le_refl x.h.numRows)
    have my := wy.mono' (Nat.zero_le _) (show x.h.numRows ≤ y.h.numRows by omega)
    have tx := wx.topV; have tx' := wx.topC
    have ty := wy.topV; have ty' := wy.topC
    rw [← d1] at ty ty'
    by_cases hn : x.o x.h.numRows - x.o 0 ≠ y.o x.h.numRows - y.o 0
    · rw [if_pos hn]
      refine Res.ok_iff.2 ?_
      simp only [Bool.false_eq_true, false_iff]
      rintro ⟨_, _, h1, _⟩; exact hn h1
    · rw [if_neg hn]
      have hn' : x.o x.h.numRows - x.o 0 = y.o x.h.numRows - y.o 0 := by omega
      by_cases hp : sameAlloc = true ∧ x.o 0 = y.o 0
      · simp only [if_pos hp, Res.ok_bind]
        rw [if_neg (by simp)]
        refine Res.ok_iff.2 ?_
        simp only [true_iff]
        refine ⟨d1, d2, hn', fun k hk => ?_⟩
        rw [← hsame hp.1, hp.2]; exact ⟨rfl, rfl⟩
      · simp only [if_neg hp, Res.ok_bind]
        refine (memEq_ok _ _ _ _ _ (by omega) (by omega)).bind fun v hv => ?_
        by_cases hvt : v = true
        · rw [if_neg (by simp [hvt])]
          refine (memEq_ok _ _ _ _ _ (by omega) (by omega)).mono fun c hc => ?_
          rw [hc]
          constructor
          · intro h; exact ⟨d1, d2, hn', fun k hk => ⟨h k hk, hv.1 hvt k hk⟩⟩
          · rintro ⟨_, _, _, h⟩ k hk; exact (h k hk).1
        · rw [if_pos (by simpa using hvt)]
          refine Res.ok_iff.2 ?_
          simp only [Bool.false_eq_true, false_iff]
          rintro ⟨_, _, _, h⟩
          exact hvt (hv.2 fun k hk => (h k hk).2)

/-- **C15 (part).** Two well-formed sparse matrices without explicit zeros and with the same contents compare equal. Two
well-formed sparse matrices that compare equal and store the same number of entries in each row have the same contents. The
other cases of the property are false, see `C15_different_rows_compare_equal`. -/
theorem C15_equality_partial [DecidableEq α] (zero : α) (x y : CM α) (a b : Mat α) (hx : x.Is zero a) (hy : y.Is zero b)
    (sameAlloc : Bool) (hsame : sameAlloc = true → x.mem = y.mem) :
    (x.NoZeros zero → y.NoZeros zero → a.Same b → CM.eq sameAlloc x y = .ok true) ∧
    (CM.eq sameAlloc x y = .ok true → (∀ r, r < a.rows → x.h.rowNumNonZeros x.mem r = y.h.rowNumNonZeros y.mem r) → a.Same b) := by
  have e1 := hx.rows; have e2 := hx.cols; have f1 := hy.rows; have f2 := hy.cols
  obtain ⟨res, er, hr⟩ := eq_ok hx.wf hy.wf sameAlloc hsame
  constructor
  · intro nx ny hs
    obtain ⟨g1, g2⟩ := same_arrays hx hy nx ny hs a.rows (Nat.le_refl _)
    rw [er, hr.2 ⟨by rw [e1, f1, hs.1], by rw [e2, f2, hs.2.1], by rw [e1]; exact g1, by rw [e1]; exact g2⟩]
  · intro ht hcnt
    rw [er] at ht
    injection ht with ht
    obtain ⟨h1, h2, h3, h4⟩ := hr.1 ht
    have ho : ∀ r, r ≤ a.rows → x.o r - x.o 0 = y.o r - y.o 0 := by
      intro r
      induction r with
      | zero => intro _; omega
      | succ r ih =>
        intro hr'
        have i1 := ih (by omega)
        have mx := hx.wf.mono' (r := 0) (r' := r) (by omega) (by omega)
        have my := hy.wf.mono' (r := 0) (r' := r) (by omega) (by omega)
        have mx' := hx.wf.mono r (by omega)
        have my' := hy.wf.mono r (by omega)
        have hc := hcnt r (by omega)
        unfold CHdr.rowNumNonZeros at hc
        rw [if_neg (by omega), if_neg (by omega), hx.wf.off (by omega), hx.wf.off (by omega), hy.wf.off (by omega), hy.wf.off (by omega)] at hc
        simp only [Res.ok_bind] at hc
        injection hc with hc
        omega
    refine ⟨by omega, by omega, fun r c hr' hc' => ?_⟩
    have i1 := ho r (by omega)
    have i2 := ho (r + 1) (by omega)
    have mx := hx.wf.mono' (r := 0) (r' := r) (by omega) (by omega)
    have my := hy.wf.mono' (r := 0) (r' := r) (by omega) (by omega)
    have mx' := hx.wf.mono r (by omega)
    have my' := hy.wf.mono r (by omega)
    have mt := hx.wf.mono' (r := r + 1) (r' := x.h.numRows) (by omega) (Nat.le_refl _)
    by_cases hex : ∃ p, x.o r ≤ p ∧ p < x.o (r + 1) ∧ x.mem.cols.data p = c
    · obtain ⟨p, p1, p2, p3⟩ := hex
      have h5 := h4 (p - x.o 0) (by omega)
      rw [show x.o 0 + (p - x.o 0) = p by omega] at h5
      have h6 := hx.entry r p hr' p1 p2
      have h7 := hy.entry r (y.o 0 + (p - x.o 0)) (by omega) (by omega) (by omega)
      rw [p3] at h6
      rw [← h5.1, p3] at h7
      rw [h6, h7, h5.2]
    · rw [hx.rest r c hr' hc' fun p p1 p2 p3 => hex ⟨p, p1, p2, p3⟩]
      symm
      refine hy.rest r c (by omega) (by omega) fun p p1 p2 p3 => hex ⟨x.o 0 + (p - y.o 0), by omega, by omega, ?_⟩
      have h5 := h4 (p - y.o 0) (by omega)
      rw [h5.1, show y.o 0 + (p - y.o 0) = p by omega]; exact p3

/-- **C15 (refuted in general).** The 2×1 matrices `[1; 0]` and `[0; 1]` compare equal: the row offsets are not compared. -/
theorem C15_different_rows_compare_equal :
    ∃ (x y : CM Nat) (a b : Mat Nat), x.Is 0 a ∧ y.Is 0 b ∧ x.NoZeros 0 ∧ y.NoZeros 0 ∧ ¬ a.Same b ∧ CM.eq false x y = .ok true := by
  let mk (o : Nat → Nat) : CM Nat := ⟨CHdr.new 2 1, ⟨⟨1, fun _ => 1⟩, ⟨1, fun _ => 0⟩, ⟨3, o⟩⟩⟩
  have ho : ∀ o r, (mk o).o r = o r := by intro o r; simp [mk, CM.o, CHdr.new]
  have hr2 : ∀ r, r < 2 → r = 0 ∨ r = 1 := by omega
  have is : ∀ (o : Nat → Nat) (R : Nat), R < 2 → (∀ i, o i = if i ≤ R then 0 else 1) → (mk o).Is 0 ⟨2, 1, fun r _ => if r = R then 1 else 0⟩ := by
    intro o R hR h
    refine ⟨⟨?_, ?_, ?_, ?_, ?_, ?_⟩, rfl, rfl, ?_, ?_⟩
    · simp [mk, CHdr.new]
    · intro r _; rw [ho, ho, h, h]; split <;> split <;> omega
    · rw [ho, h]; split <;> simp [mk]
    · rw [ho, h]; split <;> simp [mk]
    · intro r p q _ h1 h2 h3
      rw [ho, h] at h1 h3
      split at h3 <;> omega
    · intro r p _ _ _; simp [mk, CHdr.new]
    · intro r p hr h1 h2
      rw [ho, h] at h1 h2
      split at h2
      · omega
      · split at h1
        · simp only [mk]; rw [if_pos (by omega)]
        · omega
    · intro r c hr hc hno
      simp only at hr hc hno ⊢
      by_cases e : r = R
      · exfalso
        refine hno 0 ?_ ?_ ?_
        · rw [ho, h, if_pos (by omega)]
        · rw [ho, h, if_neg (by omega)]; omega
        · simp only [mk]; omega
      · rw [if_neg e]
  refine ⟨mk fun i => if i ≤ 0 then 0 else 1, mk fun i => if i ≤ 1 then 0 else 1, _, _, is _ 0 (by omega) fun i => rfl, is _ 1 (by omega) fun i => rfl, ?_, ?_, ?_, ?_⟩
  · intro r p _ _ _; simp [mk]
  · intro r p _ _ _; simp [mk]
  · rintro ⟨_, _, h⟩
    have := h 0 0 (by simp) (by simp)
    simp at this
  · rfl

end Verif.Csr
