/-
  C85-C87: where the aggregation kernels do not deliver, and concrete inputs for the theorems of this directory.
-/
import Verif.Agg.Int64

namespace Verif.Agg
open Verif Verif.Dense Verif.Csr
variable {α ρ : Type}

theorem ub_bind {β γ : Type} {m : Res β} {f : β → Res γ} (h : m.IsUB) : (m >>= f).IsUB := by
  obtain ⟨w, rfl⟩ := h; exact ⟨w, rfl⟩

theorem forLoop_ub {σ : Type} {body : Nat → σ → Res σ} {lo hi : Nat} {s : σ} (h : lo < hi) (hb : (body lo s).IsUB) :
    (forLoop lo hi s body).IsUB := by
  rw [forLoop_succ lo hi s h]
  exact ub_bind hb

theorem read_ub {b : Buf α} {i : Nat} (h : b.size ≤ i) : (b.read i).IsUB := by
  unfold Buf.read
  rw [if_neg (by omega)]
  exact ⟨_, rfl⟩

/-! ### C85: empty inputs -/

/-- **C85 (refuted).** Row-wise aggregation of a matrix with rows but no columns reads the first column, for every op-code. -/
theorem C85_row_no_columns_partial (A : VT ρ) (cast : α → ρ) (less : α → α → Bool) (ofIdx junk : Nat → ρ) (junk' : Nat → α) (op : AggOp)
    (R : Nat) (hR : 0 < R) : Res.IsUB (aggRowDense A cast less ofIdx junk op (DM.create R 0 junk')) := by
  have hread : ((DM.create R 0 junk').mem.read ((DM.create R 0 junk').addr 0 0)).IsUB := by
    apply read_ub
    simp [DM.create]
  have hfold : ∀ o, (foldRow A cast o (DM.create R 0 junk') 0).IsUB := fun o => ub_bind hread
  have hidx : ∀ l, (idxRow l (DM.create R 0 junk') 0).IsUB := fun l => ub_bind hread
  have hn : (DM.create R 0 junk').numRows = R := rfl
  unfold aggRowDense
  rw [hn]
  cases op
  case idxmin => exact ub_bind (forLoop_ub hR (ub_bind (hidx _)))
  case idxmax => exact ub_bind (forLoop_ub hR (ub_bind (hidx _)))
  all_goals
    simp only [funcOp, isPure, binaryOp, Res.ok_bind, Bool.not_true, Bool.false_eq_true, if_false, if_true, reduceCtorEq]
    exact ub_bind (forLoop_ub hR (ub_bind (hfold _)))

/-- **C85 (refuted).** Column-wise aggregation (except of positions, which copies the non-existing first row) and cumulative
aggregation of a matrix with columns but no rows read the first row, for every op-code. -/
theorem C85_col_no_rows_partial (A : VT ρ) (cast : α → ρ) (less : α → α → Bool) (ofIdx junk : Nat → ρ) (junk' junk'' : Nat → α)
    (op : AggOp) (C : Nat) (hC : 0 < C) (f : BinOp → ρ → α → ρ) :
    Res.IsUB (aggColDense A cast less ofIdx junk junk' op (DM.create 0 C junk'')) ∧
    (reduction A op ≠ none → Res.IsUB (aggCum f cast junk op (DM.create 0 C junk''))) := by
  have hread : ((DM.create 0 C junk'').mem.read ((DM.create 0 C junk'').addr 0 0)).IsUB := by
    apply read_ub
    simp [DM.create]
  have hn : (DM.create 0 C junk'').numCols = C := rfl
  have hfold : ∀ o m, (foldCols A cast o (DM.create 0 C junk'') m).IsUB := by
    intro o m
    unfold foldCols
    exact ub_bind (forLoop_ub hC (ub_bind hread))
  have hcopy : ∀ m : Buf α, ((DM.create 0 C junk'').mem.copy (DM.create 0 C junk'').h.start m 0 (DM.create 0 C junk'').numCols).IsUB := by
    intro m
    unfold Buf.copy
    rw [hn, if_neg (by omega), if_pos (by simp [DM.create]; omega)]
    exact ⟨_, rfl⟩
  have hidx : ∀ l t m, (idxCols l ofIdx (DM.create 0 C junk'') t m : Res (Buf α × Buf ρ)).IsUB := fun l t m => ub_bind (hcopy t)
  refine ⟨?_, fun hp => ?_⟩
  · unfold aggColDense
    cases op
    case idxmin => exact ub_bind (hidx _ _ _)
    case idxmax => exact ub_bind (hidx _ _ _)
    all_goals
      simp only [funcOp, isPure, binaryOp, Res.ok_bind, Bool.not_true, Bool.false_eq_true, if_false, if_true, reduceCtorEq]
      exact ub_bind (hfold _ _)
  · unfold aggCum
    cases op <;> first
      | exact absurd rfl hp
      | simp only [isPure, binaryOp, Res.ok_bind, Bool.not_true, Bool.false_eq_true, if_false]
        exact ub_bind (forLoop_ub hC (ub_bind hread))

/-- **C85 (refuted).** The full integer mean (variance, standard deviation) of a matrix without cells divides by zero. -/
theorem C85_mean_of_nothing_partial (A : VT ρ) (hi : A.isInt = true) (K : Conv α ρ) (junk : Nat → α) (op : AggOp)
    (hop : op = .mean ∨ op = .var ∨ op = .stddev) : Res.IsUB (aggAllDense A K op (DM.create 0 0 junk)) := by
  have hd : ∀ v, (A.div v 0).IsUB := by
    intro v
    unfold VT.div
    simp only [hi, Bool.true_and, BEq.rfl, if_true]
    exact ⟨_, rfl⟩
  have hred : ∀ o e, reduceDense A K o e (DM.create 0 0 junk) = .ok e := by
    intro o e
    unfold reduceDense
    rw [if_pos (.inl rfl)]; rfl
  have hfin : ∀ v, (finishDense A K op v (DM.create 0 0 junk)).IsUB := fun v => ub_bind (hd v)
  unfold aggAllDense
  rcases hop with rfl | rfl | rfl <;>
    simp only [startValue, isPure, switchOp, Res.ok_bind, Bool.false_eq_true, if_false, hred] <;> exact hfin _

/-! ### C86: neutral elements that the argument type cannot represent -/

/-- **C86 (refuted).** If converting the neutral element to the argument type is undefined (e.g. infinity to `int64_t`), the full
minimum / maximum of every non-empty dense matrix is undefined. -/
theorem C86_infinite_neutral_partial (A : VT ρ) (cast : α → ρ) (back : ρ → Res α) (f : BinOp → α → α → ρ) (op : AggOp) (o : BinOp)
    (e : ρ) (hop : reduction A op = some (o, e)) (hb : (back e).IsUB) (x : DM α) (a : Mat α) (hx : x.Is a) (hr : 0 < a.rows)
    (hc : 0 < a.cols) : Res.IsUB (aggAllDense A (Conv.through cast back f) op x) := by
  have e1 : x.numRows = a.rows := hx.rows
  have e2 : x.numCols = a.cols := hx.cols
  have hbin : ∀ y, ((Conv.through cast back f).bin o e y).IsUB := fun y => ub_bind hb
  have harr : ∀ p n, 0 < n → p + n ≤ x.mem.size → (aggAllArray A (Conv.through cast back f) o x.mem p n false e).IsUB := by
    intro p n hn hin
    unfold aggAllArray aggCore
    rw [if_pos (by omega)]
    refine ub_bind ?_
    unfold aggNonEmpty
    by_cases h4 : 0 < n / 4
    · refine ub_bind (forLoop_ub h4 ?_)
      unfold round4
      rw [Buf.read_eq (by omega)]
      simp only [Res.ok_bind]
      exact ub_bind (hbin _)
    · have : n / 4 = 0 := by omega
      rw [this, forLoop_empty _ _ _ (Nat.le_refl _)]
      simp only [Res.ok_bind]
      exact ub_bind (hbin _)
  have hred : (reduceDense A (Conv.through cast back f) o e x).IsUB := by
    unfold reduceDense
    by_cases hc' : x.numCols = x.h.rowSkip ∨ x.numRows = 1
    · rw [if_pos hc']
      have hpos : 0 < x.numRows * x.numCols := Nat.mul_pos (by omega) (by omega)
      refine harr _ _ hpos ?_
      rcases contSeg_in hx hc' with h | h
      · omega
      · exact h
    · rw [if_neg hc']
      refine forLoop_ub (by omega) (ub_bind (harr _ _ (by omega) ?_))
      rcases rowSeg_in hx (r := 0) hr with h | h
      · omega
      · exact h
  unfold aggAllDense
  cases op <;> simp only [reduction, Option.some.injEq, Prod.mk.injEq, reduceCtorEq] at hop
  all_goals
    obtain ⟨rfl, rfl⟩ := hop
    simp only [startValue, isPure, neutral, switchOp, Res.ok_bind, Bool.not_true, Bool.false_eq_true, if_false, if_true]
    exact ub_bind hred

/-! ### C87: the integer mean -/

/-- **C87 (refuted).** The `int64_t` mean of a matrix with at least two (and fewer than 2^63) cells whose sum is negative is a
positive number. -/
theorem C87_integer_mean_of_negatives_partial (sq) (x : DM (BitVec 64)) (a : Mat (BitVec 64)) (hx : x.Is a)
    (h2 : 2 ≤ a.rows * a.cols) (hlt : a.rows * a.cols < 2 ^ 63) (hneg : (sumOf (int64 sq) a.cells).toInt < 0) :
    Res.Ok (aggAllDense (int64 sq) (Conv.same (int64 sq)) .mean x) (fun m => 0 < m.toInt) := by
  rw [C79_all_dense _ _ x a hx .mean (int64_lawful sq _) (same_exact _ _) ⟨by simp, by simp⟩]
  have e : List.map (Conv.same (int64 sq)).cast a.cells = a.cells := List.map_id _
  rw [e]
  simp only [aggOf, meanOf, cells_length]
  rw [div_pos (by omega)]
  refine ⟨_, rfl, ?_⟩
  show 0 < (BitVec.ofNat 64 ((sumOf (int64 sq) a.cells).toNat / (a.rows * a.cols))).toInt
  generalize sumOf (int64 sq) a.cells = s at *
  generalize a.rows * a.cols = n at *
  have hs := s.isLt
  have hge : 2 ^ 63 ≤ s.toNat := by
    rw [BitVec.toInt_eq_toNat_cond] at hneg
    split at hneg <;> omega
  have q1 : 0 < s.toNat / n := Nat.div_pos (by omega) (by omega)
  have q2 : s.toNat / n ≤ s.toNat / 2 := Nat.div_le_div_left h2 (by omega)
  rw [BitVec.toInt_eq_toNat_cond, BitVec.toNat_ofNat, Nat.mod_eq_of_lt (by omega), if_pos (by omega)]
  omega

/-! ### Concrete inputs -/

/-- Columns 1 and 2 of the 2 x 3 matrix [[0, 5, -2], [0, 7, 3]]. -/
def exView : DM (BitVec 64) := ⟨⟨2, 2, 3, 1, 0, 1, 6, true, 0, 0⟩, Buf.ofList [0, 5, -2, 0, 7, 3]⟩
def exMat : Mat (BitVec 64) := ⟨2, 2, fun r c => if r = 0 then (if c = 0 then 5 else -2) else if c = 0 then 7 else 3⟩

theorem exView_is : exView.Is exMat := by
  refine is_of_data ⟨by decide, by decide, ?_, by decide⟩ rfl rfl ?_
  · intro r c hr hc
    have h1 : r < 2 := hr
    have h2 : c < 2 := hc
    show 1 + r * 3 + c < 6
    omega
  · intro r c hr hc
    have h1 : r < 2 := hr
    have h2 : c < 2 := hc
    have : r = 0 ∨ r = 1 := by omega
    have : c = 0 ∨ c = 1 := by omega
    rcases ‹r = 0 ∨ r = 1› with rfl | rfl <;> rcases ‹c = 0 ∨ c = 1› with rfl | rfl <;> rfl

/-- The view is what slicing columns 1 and 2 of the 2 x 3 matrix gives. -/
example : (Hdr.new 2 3).view 0 2 1 3 = .ok exView.h := by decide

/-- `C79_all_dense` applies: the sum of the cells of a strided view is 13. -/
example : aggAllDense (int64 id) (Conv.same (int64 id)) .sum exView = .ok 13 := by
  rw [C79_all_dense _ _ exView exMat exView_is .sum (int64_lawful id _) (same_exact _ _) ⟨by simp, by simp⟩]
  exact congrArg Except.ok (by decide +kernel)

/-- `C81_row_dense` and `C82_col_dense` apply: minima of the rows, maxima of the columns. -/
example (less) (ofIdx junk junk') : Res.Ok (aggRowDense (int64 id) id less ofIdx junk .min exView) (fun z => ∃ b, z.Is b ∧
    b.cell 0 0 = -2 ∧ b.cell 1 0 = 3) ∧
    Res.Ok (aggColDense (int64 id) id less ofIdx junk junk' .max exView) (fun z => ∃ b, z.Is b ∧ b.cell 0 0 = 7 ∧ b.cell 0 1 = 3) := by
  constructor
  · refine (C81_row_dense (int64 id) id less ofIdx junk exView exMat exView_is (by decide) .min (int64_lawful id _)
      ⟨by simp, by simp⟩).mono ?_
    rintro z ⟨b, h1, _, _, h2⟩
    have a1 := h2 0 (by decide)
    have a2 := h2 1 (by decide)
    exact ⟨b, h1, (Except.ok.inj a1).symm.trans (by decide +kernel), (Except.ok.inj a2).symm.trans (by decide +kernel)⟩
  · refine (C82_col_dense (int64 id) id less ofIdx junk junk' exView exMat exView_is (by decide) .max (int64_lawful id _)
      ⟨by simp, by simp⟩).mono ?_
    rintro z ⟨b, h1, _, _, h2⟩
    have a1 := h2 0 (by decide)
    have a2 := h2 1 (by decide)
    exact ⟨b, h1, (Except.ok.inj a1).symm.trans (by decide +kernel), (Except.ok.inj a2).symm.trans (by decide +kernel)⟩

/-- `C83` applies with the order of the signed values. -/
example : StrictWeak fun v w : BitVec 64 => decide (v.toInt < w.toInt) :=
  ⟨by simp, by simp; omega, by simp; omega⟩

/-- Rows 1 and 2 of a sparse 3 x 2 matrix [[9, 9], [0, 4], [-6, 0]]. -/
def exSparse : CM (BitVec 64) := ⟨⟨2, 2, 2, true, 1, 0⟩, ⟨Buf.ofList [9, 9, 4, -6], Buf.ofList [0, 1, 1, 0], Buf.ofList [0, 2, 3, 4]⟩⟩
def exSparseMat : Mat (BitVec 64) := ⟨2, 2, fun r c => if r = 0 then (if c = 0 then 0 else 4) else if c = 0 then -6 else 0⟩

theorem exSparse_o : exSparse.o 0 = 2 ∧ exSparse.o 1 = 3 ∧ exSparse.o 2 = 4 := ⟨rfl, rfl, rfl⟩

theorem exSparse_is : exSparse.Is 0 exSparseMat := by
  obtain ⟨o0, o1, o2⟩ := exSparse_o
  have c2 : exSparse.mem.cols.data 2 = 1 := rfl
  have c3 : exSparse.mem.cols.data 3 = 0 := rfl
  have row : ∀ r, r < 2 → (r = 0 ∨ r = 1) := fun r h => by omega
  refine ⟨⟨by decide, ?_, by decide, by decide, ?_, ?_⟩, rfl, rfl, ?_, ?_⟩
  · intro r hr
    rcases row r hr with rfl | rfl <;> simp only [Nat.zero_add, Nat.reduceAdd, o0, o1, o2] <;> omega
  · intro r p q hr h1 h2 h3
    rcases row r hr with rfl | rfl <;> simp only [Nat.zero_add, Nat.reduceAdd, o0, o1, o2] at h1 h3 <;> omega
  · intro r p hr h1 h2
    show _ < 2
    rcases row r hr with rfl | rfl <;> simp only [Nat.zero_add, Nat.reduceAdd, o0, o1, o2] at h1 h2
    · have : p = 2 := by omega
      subst this; omega
    · have : p = 3 := by omega
      subst this; omega
  · intro r p hr h1 h2
    rcases row r hr with rfl | rfl <;> simp only [Nat.zero_add, Nat.reduceAdd, o0, o1, o2] at h1 h2
    · have : p = 2 := by omega
      subst this; rfl
    · have : p = 3 := by omega
      subst this; rfl
  · intro r c hr hc hno
    have hc' : c < 2 := hc
    rcases row r hr with rfl | rfl
    · by_cases h : c = 1
      · exact absurd (c2.trans h.symm) (hno 2 (by simp only [o0]; omega) (by simp only [Nat.zero_add, o1]; omega))
      · have : c = 0 := by omega
        subst this; rfl
    · by_cases h : c = 0
      · exact absurd (c3.trans h.symm) (hno 3 (by simp only [o1]; omega) (by simp only [Nat.reduceAdd, o2]; omega))
      · have : c = 1 := by omega
        subst this; rfl

/-- `C80_all_sparse`, `C81_row_sparse`, `C82_col_sparse` apply: the maximum takes the zeros into account. -/
example : aggAllSparse (int64 id) (Conv.same (int64 id)) .min exSparse = .ok (-6) ∧
    Res.Ok (aggColSparse (int64 id) id .max exSparse) (fun z => ∃ b, z.Is b ∧ b.cell 0 0 = 0 ∧ b.cell 0 1 = 4) := by
  constructor
  · rw [C80_all_sparse _ _ 0 rfl exSparse exSparseMat exSparse_is .min (int64_lawful id _) (same_exact _ _) ⟨by simp, by simp⟩]
    exact congrArg Except.ok (by decide +kernel)
  · refine (C82_col_sparse (int64 id) id 0 rfl exSparse exSparseMat exSparse_is .max (int64_lawful id _) ⟨by simp, by simp⟩
      (fun _ => by decide)).mono ?_
    rintro z ⟨b, h1, _, _, h2⟩
    have a1 := h2 0 (by decide)
    have a2 := h2 1 (by decide)
    exact ⟨b, h1, (Except.ok.inj a1).symm.trans (by decide +kernel), (Except.ok.inj a2).symm.trans (by decide +kernel)⟩

/-- `C84_cumulative` applies: running products down the columns. -/
example (junk) : Res.Ok (aggCum (int64 id).ap id junk .prod exView) (fun z => z.get 1 0 = .ok 35 ∧ z.get 1 1 = .ok (-6)) := by
  refine ((C84_cumulative (int64 id) (int64 id).ap id junk exView exMat exView_is (by decide) .prod).1 .mul _ rfl).mono ?_
  intro z h
  exact ⟨(h.2.2.2 1 0 (by show 1 < 2; omega) (by show 0 < 2; omega)).trans (congrArg Except.ok (by decide +kernel)),
    (h.2.2.2 1 1 (by show 1 < 2; omega) (by show 1 < 2; omega)).trans (congrArg Except.ok (by decide +kernel))⟩

/-- `C86` applies to a minimum of integers in a type with an infinite value (`none`). -/
example : Res.IsUB (aggAllDense ⟨some (0 : BitVec 64), some 1, none, none, fun _ _ b => b, fun a _ => a, fun _ a => a, fun a _ => a, false, id⟩
    (Conv.through some (fun q => match q with | some i => .ok i | none => .error (.ub "infinity has no integer value"))
      fun _ a b => some (a + b)) .min exView) :=
  C86_infinite_neutral_partial _ _ _ _ .min .min _ rfl ⟨_, rfl⟩ exView exMat exView_is (by decide) (by decide)

/-- `C87` applies to the cells -2, -4: the mean is 9223372036854775805. -/
example : aggAllDense (int64 id) (Conv.same (int64 id)) .mean ⟨Hdr.new 1 2, Buf.ofList [-2, -4]⟩ =
    .ok (BitVec.ofNat 64 9223372036854775805) := by decide +kernel

example : (sumOf (int64 id) [-2, -4]).toInt < 0 := by decide +kernel

end Verif.Agg
