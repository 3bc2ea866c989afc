/-
  C17: binding sparse matrices. Also: reasoning about sparse matrices row by row.
-/
import Verif.Csr.Transpose

namespace Verif.Csr
open Verif
variable {α : Type}

/-- The array positions `[b, e)` hold the row `cell` of width `C`. -/
structure RowOk (zero : α) (cols : Nat → Nat) (vals : Nat → α) (b e C : Nat) (cell : Nat → α) : Prop where
  le : b ≤ e
  sorted : ∀ p q, b ≤ p → p < q → q < e → cols p < cols q
  bound : ∀ p, b ≤ p → p < e → cols p < C
  entry : ∀ p, b ≤ p → p < e → cell (cols p) = vals p
  rest : ∀ c, c < C → (∀ p, b ≤ p → p < e → cols p ≠ c) → cell c = zero

theorem CM.Is.row {zero : α} {x : CM α} {a : Mat α} (h : x.Is zero a) {r : Nat} (hr : r < a.rows) :
    RowOk zero x.mem.cols.data x.mem.vals.data (x.o r) (x.o (r + 1)) a.cols (a.cell r) := by
  have e1 := h.rows; have e2 := h.cols
  exact ⟨h.wf.mono r (by omega), fun p q => h.wf.sorted r p q (by omega),
    fun p h1 h2 => by rw [← e2]; exact h.wf.bound r p (by omega) h1 h2, fun p => h.entry r p hr, fun c => h.rest r c hr⟩

theorem CM.Is.ofRows {zero : α} {x : CM α} {a : Mat α} (hr : x.h.numRows = a.rows) (hc : x.h.numCols = a.cols)
    (ho : x.h.rowOff + x.h.numRows < x.mem.offs.size) (hv : x.o x.h.numRows ≤ x.mem.vals.size) (hcs : x.o x.h.numRows ≤ x.mem.cols.size)
    (rows : ∀ r, r < a.rows → RowOk zero x.mem.cols.data x.mem.vals.data (x.o r) (x.o (r + 1)) a.cols (a.cell r)) : x.Is zero a :=
  ⟨⟨ho, fun r h => (rows r (by omega)).le, hv, hcs, fun r p q h => (rows r (by omega)).sorted p q,
    fun r p h h1 h2 => by rw [hc]; exact (rows r (by omega)).bound p h1 h2⟩, hr, hc, fun r p h => (rows r h).entry p,
    fun r c h => (rows r h).rest c⟩

/-- Copying a row elsewhere. -/
theorem RowOk.shift {zero : α} {cols cols' : Nat → Nat} {vals vals' : Nat → α} {b e b' e' C : Nat} {cell : Nat → α}
    (h : RowOk zero cols vals b e C cell) (he : e' = b' + (e - b)) (hcols : ∀ k, k < e - b → cols' (b' + k) = cols (b + k))
    (hvals : ∀ k, k < e - b → vals' (b' + k) = vals (b + k)) : RowOk zero cols' vals' b' e' C cell := by
  have hle := h.le
  have cv : ∀ p, b' ≤ p → p < e' → cols' p = cols (b + (p - b')) ∧ vals' p = vals (b + (p - b')) := by
    intro p h1 h2
    have a1 := hcols (p - b') (by omega)
    have a2 := hvals (p - b') (by omega)
    rw [show b' + (p - b') = p by omega] at a1 a2
    exact ⟨a1, a2⟩
  refine ⟨by omega, fun p q h1 h2 h3 => ?_, fun p h1 h2 => ?_, fun p h1 h2 => ?_, fun c hc hno => ?_⟩
  · rw [(cv p h1 (by omega)).1, (cv q (by omega) h3).1]; exact h.sorted _ _ (by omega) (by omega) (by omega)
  · rw [(cv p h1 h2).1]; exact h.bound _ (by omega) (by omega)
  · rw [(cv p h1 h2).1, (cv p h1 h2).2]; exact h.entry _ (by omega) (by omega)
  · refine h.rest c hc fun p h1 h2 h3 => hno (b' + (p - b)) (by omega) (by omega) ?_
    rw [hcols (p - b) (by omega), show b + (p - b) = p by omega]; exact h3

/-- Two rows side by side. -/
theorem RowOk.concat {zero : α} {cols1 cols2 cols' : Nat → Nat} {vals1 vals2 vals' : Nat → α} {b1 e1 b2 e2 b' e' C1 C2 : Nat}
    {cell1 cell2 : Nat → α} (h1 : RowOk zero cols1 vals1 b1 e1 C1 cell1) (h2 : RowOk zero cols2 vals2 b2 e2 C2 cell2)
    (he : e' = b' + (e1 - b1) + (e2 - b2))
    (hc1 : ∀ k, k < e1 - b1 → cols' (b' + k) = cols1 (b1 + k)) (hv1 : ∀ k, k < e1 - b1 → vals' (b' + k) = vals1 (b1 + k))
    (hc2 : ∀ k, k < e2 - b2 → cols' (b' + (e1 - b1) + k) = cols2 (b2 + k) + C1)
    (hv2 : ∀ k, k < e2 - b2 → vals' (b' + (e1 - b1) + k) = vals2 (b2 + k)) :
    RowOk zero cols' vals' b' e' (C1 + C2) (fun c => if c < C1 then cell1 c else cell2 (c - C1)) := by
  have l1 := h1.le; have l2 := h2.le
  have low : ∀ p, b' ≤ p → p < b' + (e1 - b1) → cols' p = cols1 (b1 + (p - b')) ∧ vals' p = vals1 (b1 + (p - b')) := by
    intro p a b
    have a1 := hc1 (p - b') (by omega)
    have a2 := hv1 (p - b') (by omega)
    rw [show b' + (p - b') = p by omega] at a1 a2
    exact ⟨a1, a2⟩
  have high : ∀ p, b' + (e1 - b1) ≤ p → p < e' → cols' p = cols2 (b2 + (p - (b' + (e1 - b1)))) + C1 ∧
      vals' p = vals2 (b2 + (p - (b' + (e1 - b1)))) := by
    intro p a b
    have a1 := hc2 (p - (b' + (e1 - b1))) (by omega)
    have a2 := hv2 (p - (b' + (e1 - b1))) (by omega)
    rw [show b' + (e1 - b1) + (p - (b' + (e1 - b1))) = p by omega] at a1 a2
    exact ⟨a1, a2⟩
  refine ⟨by omega, fun p q a1 a2 a3 => ?_, fun p a1 a2 => ?_, fun p a1 a2 => ?_, fun c hc hno => ?_⟩
  · by_cases hp : p < b' + (e1 - b1)
    · by_cases hq : q < b' + (e1 - b1)
      · rw [(low p a1 hp).1, (low q (by omega) hq).1]; exact h1.sorted _ _ (by omega) (by omega) (by omega)
      · rw [(low p a1 hp).1, (high q (by omega) a3).1]
        have := h1.bound (b1 + (p - b')) (by omega) (by omega); omega
    · rw [(high p (by omega) (by omega)).1, (high q (by omega) a3).1]
      have := h2.sorted (b2 + (p - (b' + (e1 - b1)))) (b2 + (q - (b' + (e1 - b1)))) (by omega) (by omega) (by omega)
      omega
  · by_cases hp : p < b' + (e1 - b1)
    · rw [(low p a1 hp).1]; have := h1.bound (b1 + (p - b')) (by omega) (by omega); omega
    · rw [(high p (by omega) a2).1]
      have := h2.bound (b2 + (p - (b' + (e1 - b1)))) (by omega) (by omega); omega
  · by_cases hp : p < b' + (e1 - b1)
    · rw [(low p a1 hp).1, (low p a1 hp).2]
      rw [if_pos (h1.bound _ (by omega) (by omega))]
      exact h1.entry _ (by omega) (by omega)
    · rw [(high p (by omega) a2).1, (high p (by omega) a2).2, if_neg (by omega), Nat.add_sub_cancel]
      exact h2.entry _ (by omega) (by omega)
  · by_cases hc1' : c < C1
    · simp only [hc1', if_true]
      refine h1.rest c hc1' fun p a1 a2 a3 => hno (b' + (p - b1)) (by omega) (by omega) ?_
      rw [hc1 (p - b1) (by omega), show b1 + (p - b1) = p by omega]; exact a3
    · simp only [hc1', if_false]
      refine h2.rest (c - C1) (by omega) fun p a1 a2 a3 => hno (b' + (e1 - b1) + (p - b2)) (by omega) (by omega) ?_
      rw [hc2 (p - b2) (by omega), show b2 + (p - b2) = p by omega, a3]; omega

/-- Writing one offset per row. -/
theorem writeOffs_ok (f : Nat → Nat) (g : Nat → Res Nat) (n base : Nat) (offs : Buf Nat) (hg : ∀ r, r < n → g r = .ok (f r))
    (hs : base + n ≤ offs.size) :
    Res.Ok (forLoop 0 n offs fun r offs => do
        let o ← g r
        offs.write (r + base) o) (fun o => o.size = offs.size ∧
      ∀ i, o.data i = if base ≤ i ∧ i < base + n then f (i - base) else offs.data i) := by
  refine forLoop_ok (fun r (o : Buf Nat) => o.size = offs.size ∧
      ∀ i, o.data i = if base ≤ i ∧ i < base + r then f (i - base) else offs.data i) 0 n _ (Nat.zero_le _) ?_ ?_
  · exact ⟨rfl, fun i => by rw [if_neg (by omega)]⟩
  · rintro r o - hr ⟨i1, i2⟩
    rw [hg r hr]
    simp only [Res.ok_bind]
    rw [Buf.write_eq (by omega)]
    refine Res.ok_iff.2 ⟨by simpa using i1, fun i => ?_⟩
    simp only [Buf.put_data]
    by_cases e : i = r + base
    · rw [if_pos e, if_pos (by omega)]; congr 1; omega
    · rw [if_neg e, i2]
      by_cases h : base ≤ i ∧ i < base + r
      · rw [if_pos h, if_pos (by omega)]
      · rw [if_neg h, if_neg (by omega)]

/-- **C17 (rowBind).** Row-binding sparse matrices or row views with the same number of columns stacks their cells; the
upper operand must be recognised as a view, or start at offset 0 (all originals, and all direct row views; see
`C45_rowBind_nested_view_wrong` for the remaining objects). Different numbers of columns are rejected. -/
theorem C17_rowBind (zero : α) (x y : CM α) (a b : Mat α) (hx : x.Is zero a) (hy : y.Is zero b) (jv : Nat → α) (jc jo : Nat → Nat) :
    (a.cols = b.cols → (x.h.isView = true ∨ x.o 0 = 0) → Res.Ok (rowBind x y jv jc jo) (fun z => z.Is zero (a.vcat b))) ∧
    (a.cols ≠ b.cols → Res.Throws (rowBind x y jv jc jo)) := by
  have e1 := hx.rows; have e2 := hx.cols; have f1 := hy.rows; have f2 := hy.cols
  constructor
  · intro hcols hstart
    unfold rowBind
    rw [if_neg (by omega), hx.wf.numNonZeros, hy.wf.numNonZeros, hx.wf.off (Nat.zero_le _), hy.wf.off (Nat.zero_le _)]
    simp only [Res.ok_bind, CM.create]
    have mx : ∀ r, r ≤ x.h.numRows → x.o 0 ≤ x.o r := fun r h => hx.wf.mono' (Nat.zero_le _) h
    have my : ∀ r, r ≤ y.h.numRows → y.o 0 ≤ y.o r := fun r h => hy.wf.mono' (Nat.zero_le _) h
    have mxe := mx x.h.numRows (Nat.le_refl _)
    have mye := my y.h.numRows (Nat.le_refl _)
    have tx := hx.wf.topV; have tx' := hx.wf.topC; have ty := hy.wf.topV; have ty' := hy.wf.topC
    have hox := hx.wf.offsIn; have hoy := hy.wf.offsIn
    generalize hnu : x.o x.h.numRows - x.o 0 = nu at *
    generalize hnl : y.o y.h.numRows - y.o 0 = nl at *
    -- offsets of the upper part
    have hup : Res.Ok (rowBindUpper x (x.o 0) ⟨x.h.numRows + y.h.numRows + 1, jo⟩)
      (fun o => o.size = x.h.numRows + y.h.numRows + 1 ∧ ∀ i, i < x.h.numRows → o.data i = x.o i - x.o 0) := by
      unfold rowBindUpper
      by_cases hv : x.h.isView = true
      · rw [if_pos hv]
        have := writeOffs_ok (fun r => x.o r - x.o 0) (fun r => do let o ← x.h.off x.mem r; .ok (o - x.o 0)) x.h.numRows 0
          ⟨x.h.numRows + y.h.numRows + 1, jo⟩ (fun r hr => by rw [hx.wf.off (by omega)]; rfl) (by simp only; omega)
        have e : (fun r (offs : Buf Nat) => (do let o ← x.h.off x.mem r; offs.write r (o - x.o 0) : Res (Buf Nat))) =
            (fun r offs => do let o ← (do let o ← x.h.off x.mem r; (.ok (o - x.o 0) : Res Nat)); offs.write (r + 0) o) := by
          funext r offs
          cases x.h.off x.mem r <;> rfl
        rw [e]
        refine this.mono ?_
        rintro o ⟨g1, g2⟩
        exact ⟨g1, fun i hi => by rw [g2, if_pos (by omega)]; rfl⟩
      · rw [if_neg hv]
        have h0 : x.o 0 = 0 := hstart.resolve_left hv
        refine (Buf.copy_ok (.inr (by omega)) (.inr (by simp only; omega))).mono ?_
        rintro o ⟨g1, g2⟩
        refine ⟨g1, fun i hi => ?_⟩
        rw [g2, if_pos (by omega), h0, Nat.sub_zero, Nat.sub_zero]; rfl
    refine hup.bind ?_
    rintro o1 ⟨s1, d1⟩
    refine (Buf.copy_ok (.inr (by omega)) (.inr (by simp only; omega))).bind ?_
    rintro v1 ⟨sv1, dv1⟩
    refine (Buf.copy_ok (.inr (by omega)) (.inr (by simp only; omega))).bind ?_
    rintro c1 ⟨sc1, dc1⟩
    have hlow := writeOffs_ok (fun r => y.o r - y.o 0 + nu) (fun r => do let o ← y.h.off y.mem r; .ok (o - y.o 0 + nu)) y.h.numRows x.h.numRows
      o1 (fun r hr => by rw [hy.wf.off (by omega)]; rfl) (by omega)
    have e : (fun r (offs : Buf Nat) => (do let o ← y.h.off y.mem r; offs.write (r + x.h.numRows) (o - y.o 0 + nu) : Res (Buf Nat))) =
        (fun r offs => do let o ← (do let o ← y.h.off y.mem r; (.ok (o - y.o 0 + nu) : Res Nat)); offs.write (r + x.h.numRows) o) := by
      funext r offs
      cases y.h.off y.mem r <;> rfl
    rw [e]
    refine hlow.bind ?_
    rintro o2 ⟨s2, d2⟩
    simp only at sv1 sc1 dv1 dc1
    refine (Buf.copy_ok (.inr (by omega)) (.inr (by omega))).bind ?_
    rintro v2 ⟨sv2, dv2⟩
    refine (Buf.copy_ok (.inr (by omega)) (.inr (by omega))).bind ?_
    rintro c2 ⟨sc2, dc2⟩
    rw [Buf.write_eq (by omega)]
    simp only [Res.ok_bind]
    have hO : ∀ i, CM.o ⟨CHdr.new (x.h.numRows + y.h.numRows) x.h.numCols, ⟨v2, c2, o2.put (x.h.numRows + y.h.numRows) (nu + nl)⟩⟩ i
        = if i = x.h.numRows + y.h.numRows then nu + nl else o2.data i := by
      intro i; simp [CM.o, CHdr.new, Buf.put_data]
    have hOx : ∀ i, i ≤ x.h.numRows → CM.o ⟨CHdr.new (x.h.numRows + y.h.numRows) x.h.numCols, ⟨v2, c2, o2.put (x.h.numRows + y.h.numRows) (nu + nl)⟩⟩ i
        = x.o i - x.o 0 := by
      intro i hi
      rw [hO]
      by_cases h1 : i = x.h.numRows + y.h.numRows
      · have : y.h.numRows = 0 := by omega
        rw [if_pos h1, show i = x.h.numRows by omega, hnu]
        rw [this] at hnl; omega
      · rw [if_neg h1, d2]
        by_cases h2 : i = x.h.numRows
        · rw [if_pos (by omega), h2, Nat.sub_self, Nat.sub_self, hnu, Nat.zero_add]
        · rw [if_neg (by omega), d1 i (by omega)]
    have hOy : ∀ i, i ≤ y.h.numRows → CM.o ⟨CHdr.new (x.h.numRows + y.h.numRows) x.h.numCols, ⟨v2, c2, o2.put (x.h.numRows + y.h.numRows) (nu + nl)⟩⟩ (x.h.numRows + i)
        = nu + (y.o i - y.o 0) := by
      intro i hi
      rw [hO]
      by_cases h1 : i = y.h.numRows
      · rw [if_pos (by omega), h1, hnl]
      · rw [if_neg (by omega), d2, if_pos (by omega), Nat.add_sub_cancel_left]; omega
    refine Res.ok_iff.2 (CM.Is.ofRows ?_ ?_ ?_ ?_ ?_ ?_)
    · simp only [CHdr.new, Mat.vcat]; omega
    · simp only [CHdr.new, Mat.vcat]; omega
    · simp only [CHdr.new, Buf.put_size]; omega
    · have := hOy y.h.numRows (Nat.le_refl _)
      rw [show (CHdr.new (x.h.numRows + y.h.numRows) x.h.numCols).numRows = x.h.numRows + y.h.numRows from rfl, this]
      simp only; omega
    · have := hOy y.h.numRows (Nat.le_refl _)
      rw [show (CHdr.new (x.h.numRows + y.h.numRows) x.h.numCols).numRows = x.h.numRows + y.h.numRows from rfl, this]
      simp only; omega
    · intro r hr
      simp only [Mat.vcat] at hr ⊢
      by_cases h1 : r < a.rows
      · simp only [h1, if_true]
        rw [hOx r (by omega), hOx (r + 1) (by omega)]
        have m0 := mx r (by omega)
        have m1 := hx.wf.mono r (by omega)
        have m2 := hx.wf.mono' (r := r + 1) (r' := x.h.numRows) (by omega) (Nat.le_refl _)
        refine (hx.row h1).shift (by omega) ?_ ?_
        · intro k hk
          rw [dc2, if_neg (by omega), dc1, if_pos (by omega)]; congr 1; omega
        · intro k hk
          rw [dv2, if_neg (by omega), dv1, if_pos (by omega)]; congr 1; omega
      · simp only [h1, if_false]
        have er : r = x.h.numRows + (r - a.rows) := by omega
        have er' : r + 1 = x.h.numRows + (r - a.rows + 1) := by omega
        rw [er', hOy _ (by omega)]
        rw [show CM.o _ r = _ from (congrArg _ er).trans (hOy _ (by omega))]
        have m0 := my (r - a.rows) (by omega)
        have m1 := hy.wf.mono (r - a.rows) (by omega)
        have m2 := hy.wf.mono' (r := r - a.rows + 1) (r' := y.h.numRows) (by omega) (Nat.le_refl _)
        rw [hcols]
        refine (hy.row (r := r - a.rows) (by omega)).shift (by omega) ?_ ?_
        · intro k hk
          rw [dc2, if_pos (by omega)]; congr 1; omega
        · intro k hk
          rw [dv2, if_pos (by omega)]; congr 1; omega
  · intro hne
    unfold rowBind
    rw [if_pos (by omega)]; exact ⟨_, rfl⟩

/-- **C17 (colBind).** Column-binding sparse matrices or row views with the same number of rows puts their cells side by side;
different numbers of rows are rejected. -/
theorem C17_colBind (zero : α) (x y : CM α) (a b : Mat α) (hx : x.Is zero a) (hy : y.Is zero b) (jv : Nat → α) (jc jo : Nat → Nat) :
    (a.rows = b.rows → Res.Ok (colBind x y jv jc jo) (fun z => z.Is zero (a.hcat b))) ∧
    (a.rows ≠ b.rows → Res.Throws (colBind x y jv jc jo)) := by
  have e1 := hx.rows; have e2 := hx.cols; have f1 := hy.rows; have f2 := hy.cols
  constructor
  · intro hrows
    unfold colBind
    rw [if_neg (by omega), hx.wf.numNonZeros, hy.wf.numNonZeros, hx.wf.off (Nat.zero_le _), hy.wf.off (Nat.zero_le _)]
    simp only [Res.ok_bind, CM.create]
    have tx := hx.wf.topV; have tx' := hx.wf.topC; have ty := hy.wf.topV; have ty' := hy.wf.topC
    have mxe := hx.wf.mono' (Nat.zero_le _) (Nat.le_refl x.h.numRows)
    have mye := hy.wf.mono' (Nat.zero_le _) (Nat.le_refl y.h.numRows)
    generalize hnl : x.o x.h.numRows - x.o 0 = nl at *
    generalize hnr : y.o y.h.numRows - y.o 0 = nr at *
    -- start of row `r` of the result
    let st : Nat → Nat := fun r => (x.o r - x.o 0) + (y.o r - y.o 0)
    let Inv : Nat → CMem α × Nat → Prop := fun r s => s.1.vals.size = nl + nr ∧ s.1.cols.size = nl + nr ∧
      s.1.offs.size = x.h.numRows + 1 ∧ s.2 = st r ∧ (∀ i, i < r → s.1.offs.data i = st i) ∧
      (∀ i, i < r → RowOk zero s.1.cols.data s.1.vals.data (st i) (st (i + 1)) (a.cols + b.cols)
        (fun c => if c < a.cols then a.cell i c else b.cell i (c - a.cols)))
    refine (forLoop_ok Inv 0 x.h.numRows _ (Nat.zero_le _) ?_ ?_).bind ?_
    · refine ⟨rfl, rfl, rfl, ?_, fun i h => by omega, fun i h => by omega⟩
      simp [st]
    · rintro r ⟨m, pe⟩ - hr ⟨i1, i2, i3, i4, i5, i6⟩
      simp only at i1 i2 i3 i4 i5 i6 ⊢
      rw [hx.wf.off (by omega), hx.wf.off (by omega), hy.wf.off (by omega), hy.wf.off (by omega)]
      simp only [Res.ok_bind]
      have mx0 := hx.wf.mono' (r := 0) (r' := r) (Nat.zero_le _) (by omega)
      have my0 := hy.wf.mono' (r := 0) (r' := r) (Nat.zero_le _) (by omega)
      have mx1 := hx.wf.mono r (by omega)
      have my1 := hy.wf.mono r (by omega)
      have mx2 := hx.wf.mono' (r := r + 1) (r' := x.h.numRows) (by omega) (Nat.le_refl _)
      have my2 := hy.wf.mono' (r := r + 1) (r' := y.h.numRows) (by omega) (Nat.le_refl _)
      have hst : st (r + 1) = st r + (x.o (r + 1) - x.o r) + (y.o (r + 1) - y.o r) := by simp only [st]; omega
      have hstN : st (r + 1) ≤ nl + nr := by simp only [st]; omega
      subst i4
      refine (Buf.copy_ok (.inr (by omega)) (.inr (by omega))).bind ?_
      rintro v1 ⟨sv1, dv1⟩
      refine (Buf.copy_ok (.inr (by omega)) (.inr (by omega))).bind ?_
      rintro v2 ⟨sv2, dv2⟩
      refine (Buf.copy_ok (.inr (by omega)) (.inr (by omega))).bind ?_
      rintro c1 ⟨sc1, dc1⟩
      have hcl : Res.Ok (forLoop 0 (y.o (r + 1) - y.o r) c1 fun c cols => do
          let k ← y.mem.cols.read (y.o r + c)
          cols.write (st r + (x.o (r + 1) - x.o r) + c) (k + x.h.numCols)) (fun c2 => c2.size = c1.size ∧
          ∀ i, c2.data i = if st r + (x.o (r + 1) - x.o r) ≤ i ∧ i < st r + (x.o (r + 1) - x.o r) + (y.o (r + 1) - y.o r) then
            y.mem.cols.data (y.o r + (i - (st r + (x.o (r + 1) - x.o r)))) + x.h.numCols else c1.data i) := by
        refine forLoop_ok (fun n (c2 : Buf Nat) => c2.size = c1.size ∧
          ∀ i, c2.data i = if st r + (x.o (r + 1) - x.o r) ≤ i ∧ i < st r + (x.o (r + 1) - x.o r) + n then
            y.mem.cols.data (y.o r + (i - (st r + (x.o (r + 1) - x.o r)))) + x.h.numCols else c1.data i) 0 _ _ (Nat.zero_le _) ?_ ?_
        · exact ⟨rfl, fun i => by rw [if_neg (by omega)]⟩
        · rintro n c2 - hn ⟨g1, g2⟩
          rw [Buf.read_eq (by omega)]
          simp only [Res.ok_bind]
          rw [Buf.write_eq (by omega)]
          refine Res.ok_iff.2 ⟨by simpa using g1, fun i => ?_⟩
          simp only [Buf.put_data]
          by_cases e : i = st r + (x.o (r + 1) - x.o r) + n
          · rw [if_pos e, if_pos (by omega), e, Nat.add_sub_cancel_left]
          · rw [if_neg e, g2]
            by_cases h : st r + (x.o (r + 1) - x.o r) ≤ i ∧ i < st r + (x.o (r + 1) - x.o r) + n
            · rw [if_pos h, if_pos (by omega)]
            · rw [if_neg h, if_neg (by omega)]
      refine hcl.bind ?_
      rintro c2 ⟨sc2, dc2⟩
      rw [Buf.write_eq (by omega)]
      simp only [Res.ok_bind]
      refine Res.ok_iff.2 ⟨by simp only; omega, by simp only; omega, by simpa using i3, by simp only; omega, fun i hi => ?_, fun i hi => ?_⟩
      · simp only [Buf.put_data]
        by_cases e : i = r
        · rw [if_pos e, e]; simp only [st]; omega
        · rw [if_neg e]; exact i5 i (by omega)
      · simp only
        by_cases e : i = r
        · subst e
          rw [hst]
          refine RowOk.concat (hx.row (r := i) (by omega)) (hy.row (r := i) (by omega)) rfl ?_ ?_ ?_ ?_
          · intro k hk
            rw [dc2, if_neg (by omega), dc1, if_pos (by omega), Nat.add_sub_cancel_left]
          · intro k hk
            rw [dv2, if_neg (by omega), dv1, if_pos (by omega), Nat.add_sub_cancel_left]
          · intro k hk
            rw [dc2, if_pos (by omega), Nat.add_sub_cancel_left, e2]
          · intro k hk
            rw [dv2, if_pos (by omega), Nat.add_sub_cancel_left]
        · have hlt : i < r := by omega
          have g := i6 i hlt
          have hle := g.le
          have s1 : st (i + 1) ≤ st r := by
            have q1 := hx.wf.mono' (r := i + 1) (r' := r) (by omega) (by omega)
            have q2 := hy.wf.mono' (r := i + 1) (r' := r) (by omega) (by omega)
            simp only [st]; omega
          refine g.shift (by omega) ?_ ?_
          · intro k hk
            rw [dc2, if_neg (by omega), dc1, if_neg (by omega)]
          · intro k hk
            rw [dv2, if_neg (by omega), dv1, if_neg (by omega)]
    · rintro ⟨m, pe⟩ ⟨i1, i2, i3, i4, i5, i6⟩
      simp only at i1 i2 i3 i4 i5 i6 ⊢
      rw [Buf.write_eq (by omega)]
      simp only [Res.ok_bind]
      have stN : st x.h.numRows = nl + nr := by
        simp only [st]; rw [show y.o x.h.numRows = y.o y.h.numRows by congr 1; omega]; omega
      have hO : ∀ i, i ≤ x.h.numRows → CM.o ⟨CHdr.new x.h.numRows (x.h.numCols + y.h.numCols), ⟨m.vals, m.cols, m.offs.put x.h.numRows (nl + nr)⟩⟩ i
          = st i := by
        intro i hi
        simp only [CM.o, CHdr.new, Buf.put_data, Nat.zero_add]
        by_cases e : i = x.h.numRows
        · rw [if_pos e, e, stN]
        · rw [if_neg e]; exact i5 i (by omega)
      refine Res.ok_iff.2 (CM.Is.ofRows ?_ ?_ ?_ ?_ ?_ ?_)
      · simp only [CHdr.new, Mat.hcat]; omega
      · simp only [CHdr.new, Mat.hcat]; omega
      · simp only [CHdr.new, Buf.put_size]; omega
      · have := hO _ (Nat.le_refl _)
        rw [show (CHdr.new x.h.numRows (x.h.numCols + y.h.numCols)).numRows = x.h.numRows from rfl, this]
        simp only; omega
      · have := hO _ (Nat.le_refl _)
        rw [show (CHdr.new x.h.numRows (x.h.numCols + y.h.numCols)).numRows = x.h.numRows from rfl, this]
        simp only; omega
      · intro r hr
        simp only [Mat.hcat] at hr ⊢
        rw [hO r (by omega), hO (r + 1) (by omega)]
        exact i6 r (by omega)
  · intro hne
    unfold colBind
    rw [if_pos (by omega)]; exact ⟨_, rfl⟩

/-! ### Example object -/

/-- The sparse matrix `[[0, 5, 0], [7, 0, 9]]`, stored behind another row `[1, 0, 0]` of a larger allocation. -/
def exView : CM Nat := ⟨⟨2, 3, 2, true, 1, 0⟩, ⟨⟨4, fun p => if p = 0 then 1 else if p = 1 then 5 else if p = 2 then 7 else 9⟩,
  ⟨4, fun p => if p = 0 then 0 else if p = 1 then 1 else if p = 2 then 0 else 2⟩, ⟨4, fun i => if i = 3 then 4 else i⟩⟩⟩

def exMat : Mat Nat := ⟨2, 3, fun r c => if r = 0 ∧ c = 1 then 5 else if r = 1 ∧ c = 0 then 7 else if r = 1 ∧ c = 2 then 9 else 0⟩

theorem exView_is : exView.Is 0 exMat := by
  have o0 : exView.o 0 = 1 := rfl
  have o1 : exView.o 1 = 2 := rfl
  have o2 : exView.o 2 = 4 := rfl
  refine CM.Is.ofRows rfl rfl (by simp [exView]) (by simp [exView, CM.o]) (by simp [exView, CM.o]) ?_
  intro r hr
  have : r = 0 ∨ r = 1 := by simp only [exMat] at hr; omega
  rcases this with rfl | rfl
  · simp only [Nat.zero_add, o0, o1]
    refine ⟨by omega, by omega, fun p h1 h2 => ?_, fun p h1 h2 => ?_, fun c hc hno => ?_⟩
    · have : p = 1 := by omega
      subst this; decide
    · have : p = 1 := by omega
      subst this; decide
    · have h1 := hno 1 (by omega) (by omega)
      have hc' : c < 3 := hc
      have : c ≠ 1 := fun h => h1 (by subst h; rfl)
      simp only [exMat]; rw [if_neg (by omega), if_neg (by omega), if_neg (by omega)]
  · simp only [o1, o2]
    refine ⟨by omega, fun p q h1 h2 h3 => ?_, fun p h1 h2 => ?_, fun p h1 h2 => ?_, fun c hc hno => ?_⟩
    · have h4 : p = 2 := by omega
      have h5 : q = 3 := by omega
      subst h4; subst h5; decide
    · have : p = 2 ∨ p = 3 := by omega
      rcases this with rfl | rfl <;> decide
    · have : p = 2 ∨ p = 3 := by omega
      rcases this with rfl | rfl <;> decide
    · have h1 := hno 2 (by omega) (by omega)
      have h2 := hno 3 (by omega) (by omega)
      have hc' : c < 3 := hc
      have a1 : c ≠ 0 := fun h => h1 (by subst h; rfl)
      have a2 : c ≠ 2 := fun h => h2 (by subst h; rfl)
      simp only [exMat]; rw [if_neg (by omega), if_neg (by omega), if_neg (by omega)]

/-- Instances of C16 and C17 for a row view with a non-zero start offset. -/
example : Res.Ok (transpose exView (fun _ => 0) (fun _ => 0) (fun _ => 0)) (fun y => y.h.get 0 y.mem 2 1 = .ok 9) :=
  (C16_transpose 0 exView exMat exView_is _ _ _).mono fun _ h => h.get (by decide) (by decide)

example : Res.Ok (rowBind exView exView (fun _ => 0) (fun _ => 0) (fun _ => 0)) (fun y => y.h.get 0 y.mem 3 2 = .ok 9) :=
  ((C17_rowBind 0 exView exView exMat exMat exView_is exView_is _ _ _).1 rfl (.inl rfl)).mono fun _ h => h.get (by decide) (by decide)

example : Res.Ok (colBind exView exView (fun _ => 0) (fun _ => 0) (fun _ => 0)) (fun y => y.h.get 0 y.mem 1 3 = .ok 7) :=
  ((C17_colBind 0 exView exView exMat exMat exView_is exView_is _ _ _).1 rfl).mono fun _ h => h.get (by decide) (by decide)

/-- **C45 (refuted).** Row-binding where the upper operand is a view of all rows of a view: take rows `[1, 3)` of
`[1; 2; 3]` and of that view the rows `[0, 2)`. This object is not recognised as a view, its row offsets are copied without
subtracting the start offset, and cell `(0, 0)` of the result, which should be 2, is 3. -/
theorem C45_rowBind_nested_view_wrong :
    ∃ (m : CMem Nat) (v u : CHdr) (z : CM Nat), (CHdr.new 3 1).sliceRow 1 3 = .ok v ∧ v.sliceRow 0 2 = .ok u ∧
      u.get 0 m 0 0 = .ok 2 ∧ rowBind ⟨u, m⟩ ⟨u, m⟩ (fun _ => 0) (fun _ => 0) (fun _ => 0) = .ok z ∧ z.h.get 0 z.mem 0 0 = .ok 3 := by
  refine ⟨⟨⟨3, fun i => i + 1⟩, ⟨3, fun _ => 0⟩, ⟨4, fun i => i⟩⟩, _, _, _, rfl, rfl, rfl, rfl, rfl⟩

end Verif.Csr
