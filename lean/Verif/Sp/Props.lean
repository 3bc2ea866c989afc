/-
  Inferred sparsities and symmetries (C304-C307).
-/
import Verif.Sp.Model
import Verif.Check.Special
import Mathlib.Tactic.Linarith
import Mathlib.Tactic.Positivity
import Mathlib.Tactic.FieldSimp
import Mathlib.Tactic.Ring

namespace Verif.Sp
open Verif Verif.Dense

/-! ### Specification -/

/-- A sparsity as the type of a matrix may have it: unknown, or a fraction. -/
def SpOk (s : ℚ) : Prop := s = -1 ∨ (0 ≤ s ∧ s ≤ 1)

variable {α : Type} [DecidableEq α]

/-- The number of cells that are not zero. -/
def Nnz (zero : α) (a : Mat α) : Nat :=
  ((Finset.range a.rows ×ˢ Finset.range a.cols).filter fun q => a.cell q.1 q.2 ≠ zero).card

/-- The sparsity in the type of a matrix is unknown or that of the matrix. -/
def Exact (zero : α) (s : ℚ) (a : Mat α) : Prop := s = -1 ∨ s = (Nnz zero a : ℚ) / ((a.rows : ℚ) * a.cols)

/-- The inputs of the inference are such as types (and extents) can have; the constants of `rand` and the numbers in a file are valid; the number of rows
of the vector for a diagonal matrix is known (if its sparsity is) and not zero. -/
def InputsOk : Op → Prop
  | .ewBoth l r | .ewEither l r => SpOk l ∧ SpOk r
  | .matMul l r kl kr => SpOk l ∧ SpOk r ∧ -1 ≤ kl ∧ -1 ≤ kr
  | .tri s | .fromArg s => SpOk s
  | .diag s k => SpOk s ∧ (1 ≤ k ∨ k = -1 ∧ s = -1)
  | .dense => True
  | .rand s => ∀ v, s = some v → 0 ≤ v ∧ v ≤ 1
  | .read nnz rows cols => 1 ≤ rows ∧ 1 ≤ cols ∧ (nnz = -1 ∨ 0 ≤ nnz ∧ nnz ≤ rows * cols)

theorem known {s : ℚ} (h : SpOk s) (hn : s ≠ -1) : 0 ≤ s ∧ s ≤ 1 := h.resolve_left hn

/-- **C304.** The inferred sparsity of a result is unknown or between zero and one, so that the type of the result is valid, if the arguments are. -/
theorem C304_inferred_sparsity_valid (op : Op) (h : InputsOk op) : ∃ s, infer op = some s ∧ SpOk s := by
  cases op with
  | ewBoth l r =>
    obtain ⟨h1, h2⟩ := h
    simp only [infer]
    split
    · rename_i hn
      obtain ⟨a1, a2⟩ := known h1 hn.1
      obtain ⟨b1, b2⟩ := known h2 hn.2
      refine ⟨_, rfl, .inr ⟨?_, ?_⟩⟩ <;> nlinarith
    · exact ⟨_, rfl, .inl rfl⟩
  | ewEither l r =>
    obtain ⟨h1, h2⟩ := h
    simp only [infer]
    split
    · rename_i hn
      obtain ⟨a1, a2⟩ := known h1 hn.1
      obtain ⟨b1, b2⟩ := known h2 hn.2
      refine ⟨_, rfl, .inr ⟨?_, ?_⟩⟩ <;> nlinarith
    · split
      · exact ⟨_, rfl, h1⟩
      · split
        · exact ⟨_, rfl, h2⟩
        · exact ⟨_, rfl, .inl rfl⟩
  | matMul l r kl kr =>
    obtain ⟨h1, h2, h3, h4⟩ := h
    simp only [infer]
    by_cases hu : l = -1 ∨ r = -1
    · rw [if_pos hu]; exact ⟨_, rfl, .inl rfl⟩
    · rw [if_neg hu]
      rw [not_or] at hu
      by_cases hk : (if kl = -1 then kr else kl) = -1
      · rw [if_pos hk]; exact ⟨_, rfl, .inl rfl⟩
      · rw [if_neg hk]
        obtain ⟨a1, a2⟩ := known h1 hu.1
        obtain ⟨b1, b2⟩ := known h2 hu.2
        have p1 : 0 ≤ 1 - l * r := by nlinarith
        have p2 : 1 - l * r ≤ 1 := by nlinarith
        refine ⟨_, rfl, .inr ⟨?_, ?_⟩⟩
        · have := pow_le_one₀ (n := (if kl = -1 then kr else kl).toNat) p1 p2
          linarith
        · have := pow_nonneg p1 (if kl = -1 then kr else kl).toNat
          linarith
  | tri s =>
    simp only [infer]
    split
    · exact ⟨_, rfl, .inl rfl⟩
    · rename_i hn
      obtain ⟨a1, a2⟩ := known h hn
      exact ⟨_, rfl, .inr ⟨by linarith, by linarith⟩⟩
  | fromArg s => exact ⟨s, rfl, h⟩
  | diag s k =>
    obtain ⟨h1, h2⟩ := h
    simp only [infer, quot]
    rcases h2 with hk | ⟨rfl, rfl⟩
    · have hk' : (1 : ℚ) ≤ k := by exact_mod_cast hk
      have hs : 0 ≤ (if s = -1 then (1 : ℚ) else s) ∧ (if s = -1 then (1 : ℚ) else s) ≤ 1 := by
        split
        · exact ⟨by norm_num, le_refl _⟩
        · exact known h1 (by assumption)
      rw [if_neg (by linarith)]
      refine ⟨_, rfl, .inr ⟨by apply div_nonneg hs.1; linarith, ?_⟩⟩
      rw [div_le_one (by linarith)]
      linarith [hs.2]
    · rw [if_neg (by norm_num)]
      exact ⟨_, rfl, .inl (by norm_num)⟩
  | dense => exact ⟨1, rfl, .inr ⟨by norm_num, le_refl _⟩⟩
  | rand s =>
    cases s with
    | none => exact ⟨-1, rfl, .inl rfl⟩
    | some v => exact ⟨v, rfl, .inr (h v rfl)⟩
  | read nnz rows cols =>
    obtain ⟨h1, h2, h3⟩ := h
    simp only [infer, quot]
    by_cases hn : nnz = -1
    · rw [if_pos hn]; exact ⟨_, rfl, .inl rfl⟩
    · rw [if_neg hn]
      obtain ⟨n1, n2⟩ := h3.resolve_left hn
      have q1 : (1 : ℚ) ≤ rows := by exact_mod_cast h1
      have q2 : (1 : ℚ) ≤ cols := by exact_mod_cast h2
      have q3 : (0 : ℚ) ≤ nnz := by exact_mod_cast n1
      have q4 : (nnz : ℚ) ≤ rows * cols := by exact_mod_cast n2
      rw [if_neg (by linarith)]
      simp only [Option.bind_some]
      rw [if_neg (by linarith)]
      refine ⟨_, rfl, .inr ⟨by positivity, ?_⟩⟩
      rw [div_div, div_le_one (by positivity)]
      exact q4

/-! ### Exact sparsities -/

/-- The transposed matrix. -/
def transposed (a : Mat α) : Mat α := ⟨a.cols, a.rows, fun r c => a.cell c r⟩

/-- The cells in row-major order, in another shape. -/
def reshaped (a : Mat α) (rows cols : Nat) : Mat α := ⟨rows, cols, fun r c => a.cell ((r * cols + c) / a.cols) ((r * cols + c) % a.cols)⟩

/-- The square matrix with the given column as diagonal. -/
def diagonal (zero : α) (a : Mat α) : Mat α := ⟨a.rows, a.rows, fun r c => if r = c then a.cell r 0 else zero⟩

theorem mem_nnz (a : Mat α) (zero : α) (q : Nat × Nat) :
    q ∈ ((Finset.range a.rows ×ˢ Finset.range a.cols).filter fun q => a.cell q.1 q.2 ≠ zero) ↔ (q.1 < a.rows ∧ q.2 < a.cols) ∧ a.cell q.1 q.2 ≠ zero := by
  rw [Finset.mem_filter, Finset.mem_product, Finset.mem_range, Finset.mem_range]

theorem nnz_transposed (zero : α) (a : Mat α) : Nnz zero (transposed a) = Nnz zero a := by
  unfold Nnz
  refine Finset.card_bij (fun q _ => (q.2, q.1)) ?_ ?_ ?_
  · rintro ⟨r, c⟩ h
    rw [mem_nnz] at h ⊢
    simp only [transposed] at h ⊢
    exact ⟨⟨h.1.2, h.1.1⟩, h.2⟩
  · rintro ⟨r, c⟩ _ ⟨r', c'⟩ _ h
    simp only [Prod.mk.injEq] at h ⊢
    exact ⟨h.2, h.1⟩
  · rintro ⟨r, c⟩ h
    rw [mem_nnz] at h
    refine ⟨(c, r), ?_, rfl⟩
    rw [mem_nnz]
    simp only [transposed]
    exact ⟨⟨h.1.2, h.1.1⟩, h.2⟩

theorem nnz_flat (zero : α) (a : Mat α) : Nnz zero a = ((Finset.range (a.rows * a.cols)).filter fun i => a.cell (i / a.cols) (i % a.cols) ≠ zero).card := by
  unfold Nnz
  refine Finset.card_bij (fun q _ => q.1 * a.cols + q.2) ?_ ?_ ?_
  · rintro ⟨r, c⟩ h
    simp only [Finset.mem_filter, Finset.mem_product, Finset.mem_range] at h ⊢
    obtain ⟨⟨h1, h2⟩, h3⟩ := h
    have e1 : (r * a.cols + c) / a.cols = r := by rw [Nat.mul_comm, Nat.mul_add_div (by omega), Nat.div_eq_of_lt h2, Nat.add_zero]
    have e2 : (r * a.cols + c) % a.cols = c := by rw [Nat.mul_comm, Nat.mul_add_mod, Nat.mod_eq_of_lt h2]
    refine ⟨?_, by rw [e1, e2]; exact h3⟩
    calc r * a.cols + c < r * a.cols + a.cols := by omega
      _ = (r + 1) * a.cols := by rw [Nat.add_mul]; omega
      _ ≤ a.rows * a.cols := Nat.mul_le_mul_right _ h1
  · rintro ⟨r, c⟩ h ⟨r', c'⟩ h' e
    simp only [Finset.mem_filter, Finset.mem_product, Finset.mem_range] at h h'
    have hc := h.1.2; have hc' := h'.1.2
    simp only at e
    have e1 : r = r' := by
      have := congrArg (· / a.cols) e
      simpa [Nat.mul_comm _ a.cols, Nat.mul_add_div (show 0 < a.cols by omega), Nat.div_eq_of_lt hc, Nat.div_eq_of_lt hc'] using this
    subst e1
    simp only [Prod.mk.injEq, true_and]
    omega
  · intro i h
    simp only [Finset.mem_filter, Finset.mem_range] at h
    have hpos : 0 < a.cols := by
      by_contra h0
      have : a.cols = 0 := by omega
      rw [this] at h
      simp at h
    refine ⟨(i / a.cols, i % a.cols), ?_, ?_⟩
    · simp only [Finset.mem_filter, Finset.mem_product, Finset.mem_range]
      refine ⟨⟨?_, Nat.mod_lt _ hpos⟩, h.2⟩
      rw [Nat.div_lt_iff_lt_mul hpos]
      exact h.1
    · simp only
      rw [Nat.mul_comm]
      exact Nat.div_add_mod i a.cols

theorem nnz_reshaped (zero : α) (a : Mat α) (rows cols : Nat) (h : rows * cols = a.rows * a.cols) : Nnz zero (reshaped a rows cols) = Nnz zero a := by
  rw [nnz_flat, nnz_flat]
  simp only [reshaped]
  rw [h]
  congr 1
  apply Finset.filter_congr
  intro i _
  have : i / cols * cols + i % cols = i := by rw [Nat.mul_comm]; exact Nat.div_add_mod i cols
  rw [this]

theorem nnz_diagonal (zero : α) (a : Mat α) (h : a.cols = 1) : Nnz zero (diagonal zero a) = Nnz zero a := by
  unfold Nnz
  refine Finset.card_bij (fun q _ => (q.1, 0)) ?_ ?_ ?_
  · rintro ⟨r, c⟩ hm
    rw [mem_nnz] at hm ⊢
    simp only [diagonal, h] at hm ⊢
    obtain ⟨⟨h1, _⟩, h3⟩ := hm
    refine ⟨⟨h1, by omega⟩, ?_⟩
    intro hz
    apply h3
    split
    · exact hz
    · rfl
  · rintro ⟨r, c⟩ hm ⟨r', c'⟩ hm' e
    rw [mem_nnz] at hm hm'
    simp only [diagonal] at hm hm'
    have e1 : r = c := by by_contra hn; exact hm.2 (if_neg hn)
    have e2 : r' = c' := by by_contra hn; exact hm'.2 (if_neg hn)
    simp only [Prod.mk.injEq] at e ⊢
    omega
  · rintro ⟨r, c⟩ hm
    rw [mem_nnz] at hm
    simp only [h] at hm
    have hc : c = 0 := by omega
    subst hc
    refine ⟨(r, r), ?_, rfl⟩
    rw [mem_nnz]
    simp only [diagonal]
    exact ⟨⟨hm.1.1, hm.1.1⟩, by rw [if_pos True.intro]; exact hm.2⟩

/-- Counting, row by row. -/
def cellsBefore (a : Mat α) (r c : Nat) : Finset (Nat × Nat) :=
  (Finset.range a.rows ×ˢ Finset.range a.cols).filter fun q => q.1 < r ∨ q.1 = r ∧ q.2 < c

theorem countConst_ok (zero : α) (x : DM α) (a : Mat α) (hx : x.Is a) : countConst (fun v => decide (v ≠ zero)) x = .ok (Nnz zero a) := by
  have e1 := hx.rows; have e2 := hx.cols
  have hloop : Res.Ok (countConst (fun v => decide (v ≠ zero)) x) fun n => n = Nnz zero a := by
    unfold countConst
    refine forLoop_post (fun r (n : Nat) => n = ((cellsBefore a r 0).filter fun q => a.cell q.1 q.2 ≠ zero).card) 0 x.h.numRows 0 (by omega) ?_ ?_ ?_
    · simp [cellsBefore]
    · intro r n _ hr hn
      refine forLoop_post (fun c (n : Nat) => n = ((cellsBefore a r c).filter fun q => a.cell q.1 q.2 ≠ zero).card) 0 x.h.numCols n (by omega) hn ?_ ?_
      · intro c n _ hc hn
        have hread : x.mem.read (x.h.start + r * x.h.rowSkip + c) = .ok (a.cell r c) := by
          have g := hx.2.2.2 r c (by omega) (by omega)
          rw [hx.1.get hr hc] at g
          rw [hx.1.start, Buf.read_eq (hx.1.inb r c hr hc)]
          exact g
        have hsplit : cellsBefore a r (c + 1) = insert (r, c) (cellsBefore a r c) := by
          ext ⟨i, j⟩
          simp only [cellsBefore, Finset.mem_filter, Finset.mem_product, Finset.mem_range, Finset.mem_insert, Prod.mk.injEq]
          omega
        have hnot : (r, c) ∉ (cellsBefore a r c).filter fun q => a.cell q.1 q.2 ≠ zero := by
          simp [cellsBefore]
        rw [hread]
        refine ⟨_, rfl, ?_⟩
        show _ = _
        rw [hsplit, Finset.filter_insert]
        by_cases hz : a.cell r c = zero
        · rw [if_neg (by simp [hz]), if_neg (by simp [hz]), hn]
        · rw [if_pos (by simpa using hz), if_pos hz, Finset.card_insert_of_notMem hnot, hn]
      · intro n hn
        show _ = _
        rw [hn]
        congr 2
        ext ⟨i, j⟩
        simp only [cellsBefore, Finset.mem_filter, Finset.mem_product, Finset.mem_range]
        omega
    · intro n hn
      rw [hn]
      unfold Nnz
      congr 2
      ext ⟨i, j⟩
      simp only [cellsBefore, Finset.mem_filter, Finset.mem_product, Finset.mem_range]
      omega
  obtain ⟨n, e, h⟩ := hloop
  rw [e, h]

/-- **C305.** For matrix literals, transpose, reshape and diagonal matrices, the inferred sparsity is exactly that of the result, if that of the argument is (or is
unknown; then, it is not invented, except for a diagonal matrix, where it is an upper bound). -/
theorem C305_inferred_sparsity_exact (zero : α) (a : Mat α) (s : ℚ) (h : Exact zero s a) :
    (∀ x : DM α, x.Is a → 0 < a.rows → 0 < a.cols →
      constSparsity (fun v => decide (v ≠ zero)) x = .ok (some ((Nnz zero a : ℚ) / ((a.rows : ℚ) * a.cols)))) ∧
    (∃ t, infer (.fromArg s) = some t ∧ Exact zero t (transposed a) ∧
      ∀ rows cols, rows * cols = a.rows * a.cols → Exact zero t (reshaped a rows cols)) ∧
    (a.cols = 1 → 0 < a.rows → ∃ t, infer (.diag s a.rows) = some t ∧
      (s ≠ -1 → t = (Nnz zero (diagonal zero a) : ℚ) / ((a.rows : ℚ) * a.rows)) ∧
      (Nnz zero (diagonal zero a) : ℚ) / ((a.rows : ℚ) * a.rows) ≤ t) := by
  refine ⟨?_, ?_, ?_⟩
  · intro x hx h1 h2
    have e1 := hx.rows; have e2 := hx.cols
    unfold constSparsity
    rw [countConst_ok zero x a hx]
    simp only [Res.ok_bind]
    unfold quot
    have : (((x.h.numRows * x.h.numCols : Nat)) : ℚ) = (a.rows : ℚ) * a.cols := by rw [e1, e2]; push_cast; rfl
    rw [this, if_neg (by positivity)]
  · refine ⟨s, rfl, ?_, ?_⟩
    · rcases h with h | h
      · exact .inl h
      · right
        rw [nnz_transposed, h]
        simp only [transposed]
        rw [mul_comm]
    · intro rows cols hrc
      rcases h with h | h
      · exact .inl h
      · right
        rw [nnz_reshaped zero a rows cols hrc, h]
        simp only [reshaped]
        congr 1
        exact_mod_cast hrc.symm
  · intro hc hr
    have hr' : (1 : ℚ) ≤ a.rows := by exact_mod_cast hr
    have hle : (Nnz zero a : ℚ) ≤ a.rows := by
      have : Nnz zero a ≤ a.rows * a.cols := by
        unfold Nnz
        refine (Finset.card_filter_le _ _).trans ?_
        simp
      rw [hc, Nat.mul_one] at this
      exact_mod_cast this
    simp only [infer, quot]
    rw [if_neg (by push_cast; linarith)]
    refine ⟨_, rfl, ?_, ?_⟩
    · intro hs
      have h := h.resolve_left hs
      rw [if_neg hs, nnz_diagonal zero a hc, h, hc]
      push_cast
      rw [mul_one, div_div]
    · rw [nnz_diagonal zero a hc]
      push_cast
      rw [← div_div]
      apply div_le_div_of_nonneg_right _ (by linarith)
      split
      · rw [div_le_one (by linarith)]; exact hle
      · rename_i hs
        have h := h.resolve_left hs
        rw [h, hc]
        push_cast
        rw [mul_one]

/-- **C306, refuted.** The result type is not always valid: a diagonal matrix of a vector of known sparsity, but unknown length, gets a negative
sparsity; one of an empty vector, a non-finite one; `rand` and the number of non-zeros in a file are taken over without a check. -/
theorem C306_invalid_sparsity_partial :
    (∀ s : ℚ, 0 < s → s < 1 → ∃ t, infer (.diag s (-1)) = some t ∧ ¬ SpOk t) ∧
    (∀ s : ℚ, infer (.diag s 0) = none) ∧
    (∀ s : ℚ, 1 < s → ∃ t, infer (.rand (some s)) = some t ∧ ¬ SpOk t) ∧
    (∀ nnz rows cols : ℤ, 1 ≤ rows → 1 ≤ cols → rows * cols < nnz → ∃ t, infer (.read nnz rows cols) = some t ∧ ¬ SpOk t) := by
  refine ⟨?_, ?_, ?_, ?_⟩
  · intro s h0 h1
    simp only [infer, quot]
    rw [if_neg (by norm_num), if_neg (by linarith)]
    refine ⟨_, rfl, ?_⟩
    rintro (h | ⟨h, _⟩)
    · push_cast at h
      rw [div_neg, div_one] at h
      linarith
    · push_cast at h
      rw [div_neg, div_one] at h
      linarith
  · intro s
    simp only [infer, quot]
    exact if_pos rfl
  · intro s hs
    refine ⟨s, rfl, ?_⟩
    rintro (h | ⟨_, h⟩) <;> linarith
  · intro nnz rows cols h1 h2 h3
    have q1 : (1 : ℚ) ≤ rows := by exact_mod_cast h1
    have q2 : (1 : ℚ) ≤ cols := by exact_mod_cast h2
    have q4 : (rows : ℚ) * cols < nnz := by exact_mod_cast h3
    have hn : nnz ≠ -1 := by
      rintro rfl
      nlinarith
    simp only [infer, quot]
    rw [if_neg hn, if_neg (by linarith)]
    simp only [Option.bind_some]
    rw [if_neg (by linarith)]
    refine ⟨_, rfl, ?_⟩
    have hgt : 1 < (nnz : ℚ) / rows / cols := by
      rw [div_div, lt_div_iff₀ (by positivity)]
      linarith
    rintro (h | ⟨_, h⟩) <;> linarith

/-! ### Symmetry -/

/-- The matrix is square and equal to its transpose. -/
def Symmetric (a : Mat α) : Prop := a.rows = a.cols ∧ ∀ r c, r < a.rows → c < a.cols → a.cell r c = a.cell c r

/-- What the type says about the symmetry of a matrix is right. -/
def SymOk (s : Sym) (a : Mat α) : Prop := (s = .true → Symmetric a) ∧ (s = .false → ¬ Symmetric a)

/-- **C307.** The inferred symmetry is right: for a constant matrix of known or unknown shape, and for the transpose of any matrix with a right one. It is known if the shape, or that of the input, is. -/
theorem C307_inferred_symmetry (a : Mat α) (v : α) (rows cols : Nat) (or oc : Option ℤ) (hr : ∀ n, or = some n → n = rows) (hc : ∀ n, oc = some n → n = cols) :
    SymOk (fillSym or oc) (⟨rows, cols, fun _ _ => v⟩ : Mat α) ∧ (or.isSome → oc.isSome → fillSym or oc ≠ .unknown) ∧
      (∀ s, SymOk s a → SymOk (transposeSym s) (transposed a) ∧ (s ≠ .unknown → transposeSym s ≠ .unknown)) := by
  refine ⟨?_, ?_, ?_⟩
  · unfold fillSym
    split
    · rename_i r c
      have h1 := hr r rfl
      have h2 := hc c rfl
      split
      · refine ⟨fun _ => ⟨?_, fun _ _ _ _ => rfl⟩, fun h => by cases h⟩
        show rows = cols
        omega
      · refine ⟨fun h => (by cases h), fun _ h => ?_⟩
        have h : rows = cols := h.1
        omega
    · exact ⟨fun h => (by cases h), fun h => (by cases h)⟩
  · intro h1 h2
    obtain ⟨r, rfl⟩ := Option.isSome_iff_exists.mp h1
    obtain ⟨c, rfl⟩ := Option.isSome_iff_exists.mp h2
    simp only [fillSym]
    split <;> simp
  · rintro s ⟨h1, h2⟩
    refine ⟨?_, fun h => h⟩
    have hiff : Symmetric (transposed a) → Symmetric a := by
      rintro ⟨e, h⟩
      simp only [transposed] at e h
      refine ⟨e.symm, fun r c hr hc => (h c r hc hr)⟩
    refine ⟨fun h => ?_, fun h hs => h2 h (hiff hs)⟩
    obtain ⟨e, hs⟩ := h1 h
    exact ⟨e.symm, fun r c hr hc => hs c r hc hr⟩

/-! ### Examples -/

example : InputsOk (.matMul (1 / 2) (1 / 4) (-1) 10) := ⟨.inr (by norm_num), .inr (by norm_num), by norm_num, by norm_num⟩

example : InputsOk (.diag (1 / 2) 4) ∧ infer (.diag (1 / 2) 4) = some (1 / 8) := by
  refine ⟨⟨.inr (by norm_num), .inl (by norm_num)⟩, ?_⟩
  simp only [infer, quot]
  norm_num

/-- The column `1, 0, 3, 0` has the sparsity one half. -/
example : Exact (0 : Int) (1 / 2) ⟨4, 1, fun r _ => [1, 0, 3, 0].getD r 0⟩ := by
  right
  have : Nnz (0 : Int) ⟨4, 1, fun r _ => [1, 0, 3, 0].getD r 0⟩ = 2 := by decide
  rw [this]
  norm_num

end Verif.Sp
