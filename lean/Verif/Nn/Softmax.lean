import Verif.Nn.NormModel
import Mathlib.Algebra.Order.BigOperators.Group.Finset
import Mathlib.Algebra.BigOperators.Field
import Mathlib.Analysis.Complex.Exponential
/-
  C221: softmax.
-/
namespace Verif.Nn
open Verif Verif.Dense Verif.Csr

variable {α : Type}

/-- What is assumed of the exponential function. -/
structure IsExp [Field α] [LinearOrder α] (exp : α → α) : Prop where
  pos : ∀ a, 0 < exp a
  sub : ∀ a b, exp (a - b) = exp a / exp b

/-- Entry `(r, c)` of the row-wise softmax. -/
def softmaxSpec [Field α] (exp : α → α) (x : Mat α) (r c : Nat) : α := exp (x.cell r c) / ∑ j ∈ Finset.range x.cols, exp (x.cell r j)

/-- The last loop of both kernels: normalising a row. -/
theorem normalise_ok [Field α] {n r N : Nat} {v : Nat → α} {S : α} {b : Buf α} (hb : b.size = N) (hin : r * n + n ≤ N)
    (hv : ∀ c, c < n → b.data (r * n + c) = v c) :
    Res.Ok (forLoop 0 n b fun c b => do
      let w ← b.read (r * n + c)
      b.write (r * n + c) (w * (1 / S))) (fun b' => b'.size = N ∧ ∀ o, b'.data o = if r * n ≤ o ∧ o < r * n + n then v (o - r * n) * (1 / S) else b.data o) := by
  refine forLoop_ok (fun k (b' : Buf α) => b'.size = N ∧ ∀ o, b'.data o = if r * n ≤ o ∧ o < r * n + k then v (o - r * n) * (1 / S) else b.data o)
    0 n b (Nat.zero_le _) ⟨hb, fun o => by rw [if_neg (by omega)]⟩ ?_
  intro c b1 _ hc ⟨h1, h2⟩
  rw [Buf.read_eq (by omega), Res.ok_bind, Buf.write_iff]
  refine ⟨by omega, h1, fun o => ?_⟩
  have hcell : b1.data (r * n + c) = v c := by rw [h2 (r * n + c), if_neg (by omega), hv c hc]
  rw [Buf.put_data, hcell]
  by_cases e : o = r * n + c
  · rw [if_pos e, if_pos (by omega), e, Nat.add_sub_cancel_left]
  · rw [if_neg e, h2 o]
    by_cases q : r * n ≤ o ∧ o < r * n + c
    · rw [if_pos q, if_pos (by omega)]
    · rw [if_neg q, if_neg (by omega)]

theorem exp_ratio [Field α] [LinearOrder α] [IsStrictOrderedRing α] {exp : α → α} (he : IsExp exp) (x : Mat α) (r c : Nat) (mx : α) (hn : 0 < x.cols) :
    exp (x.cell r c - mx) * (1 / ∑ j ∈ Finset.range x.cols, exp (x.cell r j - mx)) = softmaxSpec exp x r c := by
  unfold softmaxSpec
  simp only [he.sub]
  rw [← Finset.sum_div]
  have h1 : exp mx ≠ 0 := ne_of_gt (he.pos mx)
  have h2 : (∑ j ∈ Finset.range x.cols, exp (x.cell r j)) ≠ 0 :=
    ne_of_gt (Finset.sum_pos (fun j _ => he.pos _) ⟨0, Finset.mem_range.2 hn⟩)
  field_simp

/-- What the loop over the rows has to do. -/
theorem softmax_rows [Field α] {exp : α → α} {x : Mat α} {body : Nat → Buf α → Res (Buf α)}
    (hbody : ∀ r b, r < x.rows → b.size = x.rows * x.cols → Res.Ok (body r b) (fun b' => b'.size = x.rows * x.cols ∧ ∀ o, b'.data o =
      if r * x.cols ≤ o ∧ o < r * x.cols + x.cols then softmaxSpec exp x r (o - r * x.cols) else b.data o)) :
    Res.Ok (forLoop 0 x.rows (⟨x.rows * x.cols, fun _ => 0⟩ : Buf α) body) (fun b => b.size = x.rows * x.cols ∧
      ∀ r c, r < x.rows → c < x.cols → b.data (r * x.cols + c) = softmaxSpec exp x r c) := by
  refine forLoop_ok (fun k (b : Buf α) => b.size = x.rows * x.cols ∧ ∀ r c, r < k → c < x.cols → b.data (r * x.cols + c) = softmaxSpec exp x r c)
    0 x.rows _ (Nat.zero_le _) ⟨rfl, fun r c hr => absurd hr (Nat.not_lt_zero _)⟩ ?_
  intro r b _ hr ⟨h1, h2⟩
  refine (hbody r b hr h1).mono fun b' ⟨k1, k2⟩ => ⟨k1, fun r' c hr' hc => ?_⟩
  rw [k2]
  by_cases e : r' = r
  · subst e
    rw [if_pos (by omega), Nat.add_sub_cancel_left]
  · have hlt : r' < r := by omega
    have := Nat.mul_le_mul_right x.cols (show r' + 1 ≤ r from hlt)
    rw [Nat.add_mul, Nat.one_mul] at this
    rw [if_neg (by omega)]
    exact h2 r' c hlt hc

theorem softmaxDense_ok [Field α] [LinearOrder α] [IsStrictOrderedRing α] {exp : α → α} (he : IsExp exp) {arg : DM α} {x : Mat α} (hx : arg.Is x) (hn : 0 < x.cols) :
    Res.Ok (softmaxDense exp arg) (fun d => d.Is ⟨x.rows, x.cols, softmaxSpec exp x⟩) := by
  unfold softmaxDense
  dsimp only
  rw [hx.rows, hx.cols]
  refine Res.Ok.bind (P := fun b : Buf α => b.size = x.rows * x.cols ∧ ∀ r c, r < x.rows → c < x.cols → b.data (r * x.cols + c) = softmaxSpec exp x r c) ?_ ?_
  swap
  · intro b ⟨h1, h2⟩
    exact ⟨_, rfl, is_new h1 h2⟩
  refine softmax_rows fun r b hr hb => ?_
  have hrow : r * x.cols + x.cols ≤ x.rows * x.cols := by
    have := Nat.mul_le_mul_right x.cols (show r + 1 ≤ x.rows from hr)
    rw [Nat.add_mul, Nat.one_mul] at this; exact this
  rw [hx.read hr hn, Res.ok_bind]
  refine Res.Ok.bind (P := fun _ : α => True) ?_ ?_
  · refine forLoop_ok (fun _ _ => True) 1 x.cols _ (by omega) trivial ?_
    intro c m _ hc _
    rw [hx.read hr hc]
    exact ⟨_, rfl, trivial⟩
  intro mx _
  refine Res.Ok.bind (P := fun s : α × Buf α => s.1 = ∑ j ∈ Finset.range x.cols, exp (x.cell r j - mx) ∧ s.2.size = x.rows * x.cols ∧
    ∀ o, s.2.data o = if r * x.cols ≤ o ∧ o < r * x.cols + x.cols then exp (x.cell r (o - r * x.cols) - mx) else b.data o) ?_ ?_
  · refine forLoop_ok (fun k (s : α × Buf α) => s.1 = ∑ j ∈ Finset.range k, exp (x.cell r j - mx) ∧ s.2.size = x.rows * x.cols ∧
      ∀ o, s.2.data o = if r * x.cols ≤ o ∧ o < r * x.cols + k then exp (x.cell r (o - r * x.cols) - mx) else b.data o) 0 x.cols _ (Nat.zero_le _)
      ⟨rfl, hb, fun o => by rw [if_neg (by omega)]⟩ ?_
    intro c s _ hc ⟨e1, e2, e3⟩
    rw [hx.read hr hc]
    simp only [Res.ok_bind]
    rw [Buf.write_eq (by omega), Res.ok_bind, Buf.read_eq (by rw [Buf.put_size]; omega), Res.ok_bind]
    refine ⟨_, rfl, ?_, e2, fun o => ?_⟩
    · rw [Finset.sum_range_succ, ← e1]
      simp
    · rw [Buf.put_data]
      by_cases e : o = r * x.cols + c
      · rw [if_pos e, if_pos (by omega), e, Nat.add_sub_cancel_left]
      · rw [if_neg e, e3 o]
        by_cases q : r * x.cols ≤ o ∧ o < r * x.cols + c
        · rw [if_pos q, if_pos (by omega)]
        · rw [if_neg q, if_neg (by omega)]
  · intro s ⟨e1, e2, e3⟩
    refine (normalise_ok (S := s.1) (v := fun c => exp (x.cell r c - mx)) e2 hrow fun c hc => ?_).mono fun b' ⟨k1, k2⟩ => ⟨k1, fun o => ?_⟩
    · rw [e3, if_pos (by omega), Nat.add_sub_cancel_left]
    · rw [k2 o]
      by_cases q : r * x.cols ≤ o ∧ o < r * x.cols + x.cols
      · rw [if_pos q, if_pos q, e1, exp_ratio he x r _ mx hn]
      · rw [if_neg q, if_neg q, e3 o, if_neg q]

theorem softmaxSparse_ok [Field α] [LinearOrder α] [IsStrictOrderedRing α] {exp : α → α} (he : IsExp exp) {arg : CM α} {x : Mat α} (hx : arg.Is 0 x) :
    Res.Ok (softmaxSparse exp arg) (fun d => d.Is ⟨x.rows, x.cols, softmaxSpec exp x⟩) := by
  unfold softmaxSparse
  dsimp only
  have hwf := hx.wf
  rw [hx.rows, hx.cols]
  refine Res.Ok.bind (P := fun b : Buf α => b.size = x.rows * x.cols ∧ ∀ r c, r < x.rows → c < x.cols → b.data (r * x.cols + c) = softmaxSpec exp x r c) ?_ ?_
  swap
  · intro b ⟨h1, h2⟩
    exact ⟨_, rfl, is_new h1 h2⟩
  refine softmax_rows fun r b hr hb => ?_
  have hrow : r * x.cols + x.cols ≤ x.rows * x.cols := by
    have := Nat.mul_le_mul_right x.cols (show r + 1 ≤ x.rows from hr)
    rw [Nat.add_mul, Nat.one_mul] at this; exact this
  have hr' : r < arg.h.numRows := by rw [hx.rows]; exact hr
  have htop := hwf.rowTop hr'
  have hmono := hwf.mono r hr'
  have hnnz : arg.h.rowNumNonZeros arg.mem r = .ok (arg.o (r + 1) - arg.o r) := by
    unfold CHdr.rowNumNonZeros
    rw [if_neg (by omega), hwf.off (show r + 1 ≤ arg.h.numRows by omega), hwf.off (show r ≤ arg.h.numRows by omega)]; rfl
  rw [hnnz, hwf.rowPtr (by omega)]
  simp only [Res.ok_bind]
  generalize hk : arg.o (r + 1) - arg.o r = nnz
  refine Res.Ok.bind (P := fun _ : α => True) ?_ ?_
  · unfold firstOrZero
    split
    · rw [Buf.read_eq (by omega)]; exact ⟨_, rfl, trivial⟩
    · exact ⟨_, rfl, trivial⟩
  intro m0 _
  refine Res.Ok.bind (P := fun _ : α => True) ?_ ?_
  · by_cases h1 : nnz ≤ 1
    · rw [forLoop_empty _ _ _ h1]; exact ⟨_, rfl, trivial⟩
    · refine forLoop_ok (fun _ _ => True) 1 nnz _ (by omega) trivial ?_
      intro i m _ hi _
      rw [Buf.read_eq (by omega)]
      exact ⟨_, rfl, trivial⟩
  intro mx _
  refine (Buf.fill_ok (Or.inr (by omega))).bind fun b0 ⟨f1, f2⟩ => ?_
  refine Res.Ok.bind (P := fun s : α × Buf α => s.1 = ∑ j ∈ Finset.range x.cols, exp (x.cell r j - mx) ∧ s.2.size = x.rows * x.cols ∧
    ∀ o, s.2.data o = if r * x.cols ≤ o ∧ o < r * x.cols + x.cols then exp (x.cell r (o - r * x.cols) - mx) else b.data o) ?_ ?_
  · refine forLoop_post (fun k (s : α × Buf α) => s.1 = ∑ j ∈ Finset.range x.cols, s.2.data (r * x.cols + j) ∧ s.2.size = x.rows * x.cols ∧
      (∀ o, ¬ (r * x.cols ≤ o ∧ o < r * x.cols + x.cols) → s.2.data o = b.data o) ∧
      (∀ c, c < x.cols → (∀ i, i < k → arg.mem.cols.data (arg.o r + i) ≠ c) → s.2.data (r * x.cols + c) = exp (0 - mx)) ∧
      (∀ i, i < k → s.2.data (r * x.cols + arg.mem.cols.data (arg.o r + i)) = exp (arg.mem.vals.data (arg.o r + i) - mx))) 0 nnz _ (Nat.zero_le _) ?_ ?_ ?_
    · refine ⟨?_, by rw [f1, hb], ?_, ?_, ?_⟩
      · rw [Finset.sum_congr rfl (g := fun _ => exp (0 - mx)), Finset.sum_const, Finset.card_range, nsmul_eq_mul, mul_comm]
        intro j hj
        rw [Finset.mem_range] at hj
        show b0.data _ = _
        rw [f2, if_pos (by omega)]
      · intro o ho
        show b0.data _ = _
        rw [f2, if_neg ho]
      · intro c hc _
        show b0.data _ = _
        rw [f2, if_pos (by omega)]
      · intro i hi; omega
    · intro i s _ hi ⟨e1, e2, e3, e4, e5⟩
      have hb1 : arg.mem.cols.data (arg.o r + i) < x.cols := by
        rw [← hx.cols]; exact hwf.bound r _ hr' (by omega) (by omega)
      rw [Buf.read_eq (by omega), Buf.read_eq (by omega)]
      simp only [Res.ok_bind]
      have hne : ∀ i', i' < i → arg.mem.cols.data (arg.o r + i') ≠ arg.mem.cols.data (arg.o r + i) := fun i' hi' =>
        ne_of_lt (hwf.sorted r _ _ hr' (by omega) (by omega) (by omega))
      have hold := e4 _ hb1 hne
      generalize hc : arg.mem.cols.data (arg.o r + i) = c at *
      rw [Buf.write_eq (by omega), Res.ok_bind]
      refine ⟨_, rfl, ?_, e2, ?_, ?_, ?_⟩
      · show s.1 + (_ - _) = ∑ j ∈ Finset.range x.cols, (s.2.put (r * x.cols + c) (exp (arg.mem.vals.data (arg.o r + i) - mx))).data (r * x.cols + j)
        have hmem : c ∈ Finset.range x.cols := Finset.mem_range.2 hb1
        rw [e1, ← Finset.add_sum_erase _ _ hmem, ← Finset.add_sum_erase _ (fun j => (s.2.put _ _).data _) hmem]
        beta_reduce
        have hrest : ∑ j ∈ (Finset.range x.cols).erase c, (s.2.put (r * x.cols + c) (exp (arg.mem.vals.data (arg.o r + i) - mx))).data (r * x.cols + j) =
            ∑ j ∈ (Finset.range x.cols).erase c, s.2.data (r * x.cols + j) := by
          refine Finset.sum_congr rfl fun j hj => ?_
          rw [Buf.put_data, if_neg]
          have := Finset.ne_of_mem_erase hj
          omega
        rw [hrest, hold, Buf.put_data, if_pos rfl]
        ring
      · intro o ho
        show (s.2.put _ _).data o = _
        rw [Buf.put_data, if_neg (by omega)]
        exact e3 o ho
      · intro c' hc' hall
        show (s.2.put _ _).data _ = _
        have : c ≠ c' := by rw [← hc]; exact hall i (by omega)
        rw [Buf.put_data, if_neg (by omega)]
        exact e4 c' hc' fun i' hi' => hall i' (by omega)
      · intro i' hi'
        show (s.2.put _ _).data _ = _
        by_cases ei : i' = i
        · subst ei
          rw [hc, Buf.put_data, if_pos rfl]
        · have := hne i' (by omega)
          rw [Buf.put_data, if_neg (by omega)]
          exact e5 i' (by omega)
    · intro s ⟨e1, e2, e3, e4, e5⟩
      have hcell : ∀ c, c < x.cols → s.2.data (r * x.cols + c) = exp (x.cell r c - mx) := by
        intro c hc
        by_cases hex : ∃ i, i < nnz ∧ arg.mem.cols.data (arg.o r + i) = c
        · obtain ⟨i, hi, rfl⟩ := hex
          rw [e5 i hi, hx.entry r _ hr (by omega) (by omega)]
        · rw [e4 c hc fun i hi e => hex ⟨i, hi, e⟩, hx.rest r c hr hc]
          intro p hp1 hp2 e
          refine hex ⟨p - arg.o r, by omega, ?_⟩
          rw [show arg.o r + (p - arg.o r) = p by omega]; exact e
      refine ⟨?_, e2, fun o => ?_⟩
      · rw [e1]
        exact Finset.sum_congr rfl fun j hj => hcell j (Finset.mem_range.1 hj)
      · by_cases q : r * x.cols ≤ o ∧ o < r * x.cols + x.cols
        · rw [if_pos q]
          have := hcell (o - r * x.cols) (by omega)
          rw [show r * x.cols + (o - r * x.cols) = o by omega] at this
          exact this
        · rw [if_neg q]; exact e3 o q
  · intro s ⟨e1, e2, e3⟩
    refine (normalise_ok (S := s.1) (v := fun c => exp (x.cell r c - mx)) e2 hrow fun c hc => ?_).mono fun b' ⟨k1, k2⟩ => ⟨k1, fun o => ?_⟩
    · rw [e3, if_pos (by omega), Nat.add_sub_cancel_left]
    · rw [k2 o]
      by_cases q : r * x.cols ≤ o ∧ o < r * x.cols + x.cols
      · rw [if_pos q, if_pos q, e1, exp_ratio he x r _ mx (by omega)]
      · rw [if_neg q, if_neg q, e3 o, if_neg q]

/-- **C221**: `softmax(X)` is, in exact arithmetic, the row-wise softmax, for a dense `X` (also a view) and for a sparse `X`; both give the same result. -/
theorem C221_softmax [Field α] [LinearOrder α] [IsStrictOrderedRing α] (exp : α → α) (he : IsExp exp) (x : Mat α) (hn : 0 < x.cols) :
    (∀ arg : DM α, arg.Is x → Res.Ok (softmaxDense exp arg) (fun d => d.Is ⟨x.rows, x.cols, fun r c =>
      exp (x.cell r c) / ∑ j ∈ Finset.range x.cols, exp (x.cell r j)⟩)) ∧
    (∀ arg : CM α, arg.Is 0 x → Res.Ok (softmaxSparse exp arg) (fun d => d.Is ⟨x.rows, x.cols, fun r c =>
      exp (x.cell r c) / ∑ j ∈ Finset.range x.cols, exp (x.cell r j)⟩)) :=
  ⟨fun _ h => softmaxDense_ok he h hn, fun _ h => softmaxSparse_ok he h⟩

/-- The real exponential function satisfies the assumptions. -/
theorem real_isExp : IsExp Real.exp := ⟨Real.exp_pos, Real.exp_sub⟩

/-- Hence the entries of a row are positive and add up to 1. -/
theorem C221_softmax_rows_sum (x : Mat ℝ) (hn : 0 < x.cols) (arg : DM ℝ) (h : arg.Is x) :
    Res.Ok (softmaxDense Real.exp arg) (fun d => ∀ y, d.Is y → ∀ r, r < x.rows → (∀ c, c < x.cols → 0 < y.cell r c) ∧
      ∑ c ∈ Finset.range x.cols, y.cell r c = 1) := by
  refine ((C221_softmax Real.exp real_isExp x hn).1 arg h).mono fun d hd y hy r hr => ?_
  have hs := hd.same hy
  have hpos : 0 < ∑ j ∈ Finset.range x.cols, Real.exp (x.cell r j) := Finset.sum_pos (fun j _ => Real.exp_pos _) ⟨0, Finset.mem_range.2 hn⟩
  constructor
  · intro c hc
    rw [← hs.2.2 r c hr hc]
    exact div_pos (Real.exp_pos _) hpos
  · rw [Finset.sum_congr rfl fun c hc => (hs.2.2 r c hr (Finset.mem_range.1 hc)).symm]
    show ∑ c ∈ Finset.range x.cols, Real.exp (x.cell r c) / ∑ j ∈ Finset.range x.cols, Real.exp (x.cell r j) = 1
    rw [← Finset.sum_div]
    exact div_self (ne_of_gt hpos)

/-- **C222** (refuted): `softmax` of a dense matrix with rows but without columns should be an empty matrix (as for a sparse one); the kernel reads the first value of each row. -/
theorem C222_softmax_no_columns_partial [Field α] [LinearOrder α] [IsStrictOrderedRing α] (exp : α → α) :
    (∃ arg : DM α, arg.Is ⟨1, 0, fun _ _ => 0⟩ ∧ Res.IsUB (softmaxDense exp arg)) ∧
    (IsExp exp → ∀ arg : CM α, arg.Is 0 ⟨1, 0, fun _ _ => 0⟩ → Res.Ok (softmaxSparse exp arg) (fun d => d.Is ⟨1, 0, fun _ _ => 0⟩)) := by
  constructor
  · exact ⟨⟨Hdr.new 1 0, ⟨0, fun _ => 0⟩⟩, is_new rfl fun _ c _ hc => absurd hc (Nat.not_lt_zero _), "out-of-bounds read", rfl⟩
  · intro he arg h
    exact (softmaxSparse_ok he h).mono fun d hd => hd.congr ⟨rfl, rfl, fun r c _ hc => absurd hc (Nat.not_lt_zero _)⟩

end Verif.Nn
