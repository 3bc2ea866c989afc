/-
  The sparsity that is recorded for an intermediate result (C325, C326).
-/
import Verif.DataProp.Model
import Verif.Sp.Props
import Verif.Csr.Transpose
import Mathlib.Order.Interval.Finset.Nat
import Mathlib.Tactic.NormNum

namespace Verif.DataProp
open Verif Verif.Dense Verif.Csr Verif.Sp

variable {α : Type} [DecidableEq α]

/-! ### Specification -/

/-- The sparsity of a matrix: the fraction of the cells that are not zero (`Sp.Nnz` counts them). -/
noncomputable def sparsity (zero : α) (a : Mat α) : ℚ := (Nnz zero a : ℚ) / ((a.rows : ℚ) * a.cols)

theorem ratio_ok {n rows cols : Nat} (h : 0 < rows) (h' : 0 < cols) : ratio n rows cols = some ((n : ℚ) / ((rows : ℚ) * cols)) := by
  unfold ratio
  have : rows * cols ≠ 0 := by positivity
  rw [if_neg this]
  push_cast
  rfl

theorem dense_count (zero : α) (x : DM α) (a : Mat α) (hx : x.Is a) :
    recordDense zero x = .ok (ratio (Nnz zero a) a.rows a.cols) := by
  have e1 := hx.rows; have e2 := hx.cols
  have hloop : Res.Ok (forLoop 0 x.h.numRows 0 fun r n =>
    forLoop 0 x.h.numCols n fun c n => do
      let v ← x.get r c
      .ok (if v ≠ zero then n + 1 else n)) fun n => n = Nnz zero a := by
    refine forLoop_post (fun r (n : Nat) => n = ((cellsBefore a r 0).filter fun q => a.cell q.1 q.2 ≠ zero).card) 0 x.h.numRows 0 (by omega) ?_ ?_ ?_
    · simp [cellsBefore]
    · intro r n _ hr hn
      refine forLoop_post (fun c (n : Nat) => n = ((cellsBefore a r c).filter fun q => a.cell q.1 q.2 ≠ zero).card) 0 x.h.numCols n (by omega) hn ?_ ?_
      · intro c n _ hc hn
        have hread : x.get r c = .ok (a.cell r c) := by
          exact hx.2.2.2 r c (by omega) (by omega)
        have hsplit : cellsBefore a r (c + 1) = insert (r, c) (cellsBefore a r c) := by
          ext ⟨i, j⟩
          simp only [cellsBefore, Finset.mem_filter, Finset.mem_product, Finset.mem_range, Finset.mem_insert, Prod.mk.injEq]
          omega
        have hnot : (r, c) ∉ (cellsBefore a r c).filter fun q => a.cell q.1 q.2 ≠ zero := by
          simp [cellsBefore]
        rw [hread]
        refine ⟨_, rfl, ?_⟩
        show _ = _
        rw [hsplit, Finset.filter_insert]
        by_cases hz : a.cell r c = zero
        · rw [if_neg (by simp [hz]), if_neg (by simp [hz]), hn]
        · rw [if_pos (by simpa using hz), if_pos hz, Finset.card_insert_of_notMem hnot, hn]
      · intro n hn
        show _ = _
        rw [hn]
        congr 2
        ext ⟨i, j⟩
        simp only [cellsBefore, Finset.mem_filter, Finset.mem_product, Finset.mem_range]
        omega
    · intro n hn
      rw [hn]
      unfold Nnz
      congr 2
      ext ⟨i, j⟩
      simp only [cellsBefore, Finset.mem_filter, Finset.mem_product, Finset.mem_range]
      omega
  obtain ⟨n, e, h⟩ := hloop
  unfold recordDense
  rw [e, h, e1, e2]
  rfl

theorem csr_loop (zero : α) (x : CM α) (w : x.WF) :
    Res.Ok (recordCsr zero x) fun q => q = ratio ((Finset.range (x.o x.h.numRows - x.o 0)).filter fun i => x.mem.vals.data i ≠ zero).card
      x.h.numRows x.h.numCols := by
  unfold recordCsr CHdr.numNonZeros
  rw [w.off (Nat.le_refl _), w.off (Nat.zero_le _)]
  simp only [Res.ok_bind]
  refine Res.Ok.bind (P := fun n => n = ((Finset.range (x.o x.h.numRows - x.o 0)).filter fun i => x.mem.vals.data i ≠ zero).card) ?_ ?_
  · refine forLoop_post (fun i n => n = ((Finset.range i).filter fun i => x.mem.vals.data i ≠ zero).card) 0 _ 0 (by omega) (by simp) ?_ (fun _ h => h)
    intro i n _ hi hn
    rw [Buf.read_eq (by have := w.topV; omega)]
    refine ⟨_, rfl, ?_⟩
    show _ = _
    rw [Finset.range_add_one, Finset.filter_insert]
    by_cases hz : x.mem.vals.data i = zero
    · rw [if_neg (by simpa using hz), if_neg (by simpa using hz), hn]
    · rw [if_pos hz, if_pos hz, Finset.card_insert_of_notMem (by simp), hn]
  · intro n hn
    exact ⟨_, rfl, by rw [hn]⟩

theorem stored_count (zero : α) (x : CM α) (a : Mat α) (hx : x.Is zero a) :
    ((Finset.Ico (x.o 0) (x.o x.h.numRows)).filter fun i => x.mem.vals.data i ≠ zero).card = Nnz zero a := by
  have e1 := hx.rows; have e2 := hx.cols
  have w := hx.wf
  symm
  unfold Nnz
  have hpos : ∀ q ∈ ((Finset.range a.rows ×ˢ Finset.range a.cols).filter fun q => a.cell q.1 q.2 ≠ zero),
      ∃ p, x.o q.1 ≤ p ∧ p < x.o (q.1 + 1) ∧ x.mem.cols.data p = q.2 := by
    intro q hq
    rw [mem_nnz] at hq
    by_contra hn
    refine hq.2 (hx.rest q.1 q.2 hq.1.1 hq.1.2 fun p h1 h2 h3 => hn ⟨p, h1, h2, h3⟩)
  refine Finset.card_bij (fun q hq => (hpos q hq).choose) ?_ ?_ ?_
  · intro q hq
    obtain ⟨h1, h2, h3⟩ := (hpos q hq).choose_spec
    rw [mem_nnz] at hq
    rw [Finset.mem_filter, Finset.mem_Ico]
    have m1 := w.mono' (Nat.zero_le q.1) (by omega)
    have m2 := w.mono' (r := q.1 + 1) (r' := x.h.numRows) (by omega) (Nat.le_refl _)
    refine ⟨⟨by omega, by omega⟩, ?_⟩
    rw [← hx.entry q.1 _ hq.1.1 h1 h2, h3]
    exact hq.2
  · intro q hq q' hq' e
    obtain ⟨h1, h2, h3⟩ := (hpos q hq).choose_spec
    obtain ⟨k1, k2, k3⟩ := (hpos q' hq').choose_spec
    rw [← e] at k1 k2 k3
    rw [mem_nnz] at hq hq'
    have hrow : q.1 = q'.1 := by
      rcases Nat.lt_trichotomy q.1 q'.1 with h | h | h
      · have := w.mono' (r := q.1 + 1) (r' := q'.1) (by omega) (by omega); omega
      · exact h
      · have := w.mono' (r := q'.1 + 1) (r' := q.1) (by omega) (by omega); omega
    exact Prod.ext hrow (h3.symm.trans k3)
  · intro p hp
    rw [Finset.mem_filter, Finset.mem_Ico] at hp
    obtain ⟨r, h1, h2, h3⟩ := w.findRow hp.1.1 x.h.numRows (Nat.le_refl _) hp.1.2
    have hm : (r, x.mem.cols.data p) ∈ ((Finset.range a.rows ×ˢ Finset.range a.cols).filter fun q => a.cell q.1 q.2 ≠ zero) := by
      rw [mem_nnz]
      refine ⟨⟨by simp only; omega, by simp only; have := w.bound r p h1 h2 h3; omega⟩, ?_⟩
      rw [hx.entry r p (by omega) h2 h3]
      exact hp.2
    refine ⟨_, hm, ?_⟩
    obtain ⟨k1, k2, k3⟩ := (hpos _ hm).choose_spec
    simp only at k1 k2 k3 ⊢
    rcases Nat.lt_trichotomy (hpos _ hm).choose p with h | h | h
    · have := w.sorted r _ p h1 k1 h h3; omega
    · exact h
    · have := w.sorted r p _ h1 h2 h k2; omega

/-- **C325.** The sparsity recorded for a matrix with at least one cell is exactly the fraction of its cells that are not zero: for every dense matrix, including views, and for
every matrix in CSR representation whose first row starts at the beginning of the array of values; zeros that are stored explicitly are not counted. -/
theorem C325_recorded_sparsity_exact (zero : α) (a : Mat α) (h1 : 0 < a.rows) (h2 : 0 < a.cols) :
    (∀ x : DM α, x.Is a → recordDense zero x = .ok (some (sparsity zero a))) ∧
    (∀ x : CM α, x.Is zero a → x.o 0 = 0 → recordCsr zero x = .ok (some (sparsity zero a))) := by
  constructor
  · intro x hx
    rw [dense_count zero x a hx, ratio_ok h1 h2]
    rfl
  · intro x hx h0
    obtain ⟨q, e, hq⟩ := csr_loop zero x hx.wf
    rw [e, hq]
    have hc := stored_count zero x a hx
    rw [h0, ← Finset.range_eq_Ico] at hc
    rw [h0, Nat.sub_zero, hc, hx.rows, hx.cols, ratio_ok h1 h2]
    rfl

/-- A 2 x 1 matrix in CSR representation with the values 0 (stored) and 7. -/
def demo : CM Int := ⟨CHdr.new 2 1, ⟨⟨2, fun i => if i = 0 then 0 else 7⟩, ⟨2, fun _ => 0⟩, ⟨3, fun i => i⟩⟩⟩

def demoMat : Mat Int := ⟨2, 1, fun r _ => if r = 0 then 0 else 7⟩

theorem demo_is : demo.Is 0 demoMat := by
  refine ⟨⟨by decide, ?_, by decide, by decide, ?_, ?_⟩, rfl, rfl, ?_, ?_⟩
  · intro r _; show 0 + r ≤ 0 + (r + 1); omega
  · intro r p q _ h1 h2 h3
    have h1 : 0 + r ≤ p := h1
    have h3 : q < 0 + (r + 1) := h3
    omega
  · intro r p _ _ _; exact Nat.one_pos
  · intro r p hr h1 h2
    have h1 : 0 + r ≤ p := h1
    have h2 : p < 0 + (r + 1) := h2
    have : p = r := by omega
    subst this
    rfl
  · intro r c hr hc h
    exact absurd (show (0 : Nat) = c by have : c < 1 := hc; omega) (h r (show 0 + r ≤ r by omega) (show r < 0 + (r + 1) by omega))

example : recordCsr 0 demo = .ok (some (1 / 2)) := by decide +kernel

example : ∃ a : Mat Int, 0 < a.rows ∧ 0 < a.cols ∧ demo.Is 0 a ∧ demo.o 0 = 0 := ⟨demoMat, by decide, by decide, demo_is, rfl⟩

/-- **C326, refuted.** The sparsity that is recorded is not that of the matrix in general: for a row view of a matrix in CSR representation, the first values of the *viewed
matrix* are counted, so the second row (which is 7) of the 2 x 1 matrix above is recorded as having no values but zero; more generally the number that is counted is that of the
values which are not zero among the first ones of the array. And for a matrix without cells, nothing that is a number is recorded (`null` in the file). -/
theorem C326_recorded_sparsity_of_views_and_empty_partial :
    (∃ (v : CHdr), demo.h.sliceRow 1 2 = .ok v ∧ CM.Is 0 ⟨v, demo.mem⟩ (demoMat.window 1 2 0 1) ∧
      sparsity 0 (demoMat.window 1 2 0 1) = 1 ∧ recordCsr 0 ⟨v, demo.mem⟩ = .ok (some 0)) ∧
    (∀ (zero : α) (x : CM α), x.WF → 0 < x.h.numRows → 0 < x.h.numCols → Res.Ok (recordCsr zero x) fun q =>
      q = some ((((Finset.range (x.o x.h.numRows - x.o 0)).filter fun i => x.mem.vals.data i ≠ zero).card : ℚ) /
        ((x.h.numRows : ℚ) * x.h.numCols))) ∧
    (∀ (zero : α) (a : Mat α), a.rows = 0 ∨ a.cols = 0 →
      (∀ x : DM α, x.Is a → ∃ q, recordDense zero x = .ok q ∧ toJson q = .null) ∧
      (∀ x : CM α, x.Is zero a → ∃ q, recordCsr zero x = .ok q ∧ toJson q = .null)) := by
  refine ⟨?_, ?_, ?_⟩
  · obtain ⟨v, e, h, -⟩ := (demo_is.sliceRow (rl := 1) (ru := 2)).1 (by decide) (by decide)
    refine ⟨v, e, h, ?_, ?_⟩
    · have hn : Nnz 0 (demoMat.window 1 2 0 1) = 1 := by decide
      unfold sparsity
      rw [hn]
      norm_num [demoMat, Mat.window]
    · have : v = ⟨1, 1, 1, true, 1, 0⟩ := by
        have : demo.h.sliceRow 1 2 = .ok ⟨1, 1, 1, true, 1, 0⟩ := by decide
        rw [this] at e
        simp only [Except.ok.injEq] at e
        exact e.symm
      subst this
      decide +kernel
  · intro zero x w h1 h2
    refine (csr_loop zero x w).mono fun q hq => ?_
    rw [hq, ratio_ok h1 h2]
  · intro zero a h
    have hz : ∀ n, ratio n a.rows a.cols = none := by
      intro n
      unfold ratio
      rw [if_pos (by rcases h with h | h <;> simp [h])]
    refine ⟨fun x hx => ⟨_, dense_count zero x a hx, by rw [hz]; rfl⟩, fun x hx => ?_⟩
    obtain ⟨q, e, hq⟩ := csr_loop zero x hx.wf
    refine ⟨q, e, ?_⟩
    rw [hq, hx.rows, hx.cols, hz]
    rfl

end Verif.DataProp
