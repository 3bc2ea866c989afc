/-
  C192: random dense matrices.
-/
import Verif.Rand.Sample
import Mathlib.Data.Finset.Prod
import Mathlib.Data.Finset.Card
import Mathlib.Tactic.Linarith
import Mathlib.Algebra.Order.Field.Rat
import Mathlib.Data.Rat.Cast.Order

namespace Verif.Rand
open Verif Verif.Dense

variable {V : Type}

/-- Number of cells of a matrix that are not zero. -/
def nonZeros [Zero V] [DecidableEq V] (a : Mat V) : Nat :=
  ((Finset.range a.rows ×ˢ Finset.range a.cols).filter fun p => a.cell p.1 p.2 ≠ 0).card

/-- The requested fraction `s` of the cells of `a` is non-zero, up to rounding to a whole number of cells. -/
def HasSparsity [Zero V] [DecidableEq V] (a : Mat V) (s : Rat) : Prop := |(nonZeros a : Rat) - s * (a.rows * a.cols)| ≤ 1 / 2

theorem roundNat_near {q : Rat} (h : 0 ≤ q) : |(roundNat q : Rat) - q| ≤ 1 / 2 := by
  have hf : 0 ≤ ⌊q + 1 / 2⌋ := Int.floor_nonneg.2 (by linarith)
  have e : ((roundNat q : Nat) : Rat) = ((⌊q + 1 / 2⌋ : Int) : Rat) := by
    unfold roundNat
    have := Int.toNat_of_nonneg hf
    rw [← Int.cast_natCast, this]
  have h1 := Int.floor_le (q + 1 / 2)
  have h2 := Int.lt_floor_add_one (q + 1 / 2)
  rw [e, abs_le]
  constructor <;> linarith

theorem roundNat_le {q : Rat} {n : Nat} (h0 : 0 ≤ q) (h : q ≤ n) : roundNat q ≤ n := by
  have := roundNat_near h0
  rw [abs_le] at this
  by_contra hc
  have hc' : n + 1 ≤ roundNat q := by omega
  have : ((n + 1 : Nat) : Rat) ≤ (roundNat q : Rat) := by exact_mod_cast hc'
  push_cast at this
  linarith

/-- Row-major numbering of the cells. -/
theorem card_cells (rows cols : Nat) (P : Nat → Prop) [DecidablePred P] :
    ((Finset.range rows ×ˢ Finset.range cols).filter fun p => P (p.1 * cols + p.2)).card = ((Finset.range (cols * rows)).filter P).card := by
  refine Finset.card_bij (fun p _ => p.1 * cols + p.2) ?_ ?_ ?_
  · rintro ⟨r, c⟩ h
    simp only [Finset.mem_filter, Finset.mem_product, Finset.mem_range] at h ⊢
    refine ⟨?_, h.2⟩
    have := rm_lt h.1.1 h.1.2 (Nat.le_refl cols)
    rwa [Nat.mul_comm cols rows]
  · rintro ⟨r, c⟩ h ⟨r', c'⟩ h' e
    simp only [Finset.mem_filter, Finset.mem_product, Finset.mem_range] at h h' e
    obtain ⟨e1, e2⟩ := rm_inj h.1.2 h'.1.2 e
    rw [e1, e2]
  · intro q h
    simp only [Finset.mem_filter, Finset.mem_range] at h
    have hc : 0 < cols := by
      rcases Nat.eq_zero_or_pos cols with e | e
      · rw [e] at h; simp at h
      · exact e
    have e := Nat.div_add_mod' q cols
    refine ⟨(q / cols, q % cols), ?_, e⟩
    simp only [Finset.mem_filter, Finset.mem_product, Finset.mem_range]
    refine ⟨⟨Nat.div_lt_of_lt_mul h.1, Nat.mod_lt _ hc⟩, ?_⟩
    rw [e]; exact h.2

/-- Is the value of the kind written by the second pass? -/
def Flipped [Zero V] (dense : Bool) (v : V) : Prop := if dense then v = 0 else v ≠ 0

instance [Zero V] [DecidableEq V] (dense : Bool) (v : V) : Decidable (Flipped dense v) := by unfold Flipped; infer_instance

section
variable [LinearOrder V] [Zero V] {min max : V}

/-- Zero or between the bounds. -/
def Good (min max v : V) : Prop := v = 0 ∨ (min ≤ v ∧ v ≤ max)

theorem randFill_ok (rows cols : Nat) (dense : Bool) {draw : Nat → V} (hd : ∀ i, min ≤ draw i ∧ draw i ≤ max)
    (hz : ∀ pos, ∃ k, draw (pos + k) ≠ 0) (junk : Nat → V) :
    Res.Ok (randFill rows cols dense draw (DM.create rows cols junk)) (fun st => st.1.size = rows * cols ∧
      ∀ q, q < rows * cols → ¬ Flipped dense (st.1.data q) ∧ Good min max (st.1.data q)) := by
  unfold randFill
  have hstart : (DM.create rows cols junk).h.start = 0 := by simp [DM.create, Hdr.start, Hdr.isPartial, Hdr.new]
  have hskip : (DM.create rows cols junk).h.rowSkip = cols := rfl
  rw [hstart, hskip]
  refine forLoop_ok (fun r (st : Buf V × Nat) => st.1.size = rows * cols ∧
      ∀ q, q < r * cols → ¬ Flipped dense (st.1.data q) ∧ Good min max (st.1.data q)) 0 rows _ (Nat.zero_le _)
      ⟨rfl, fun q h => by omega⟩ ?_
  rintro r st _ hr ⟨h1, h2⟩
  have hle : (r + 1) * cols ≤ rows * cols := Nat.mul_le_mul_right _ hr
  have he : (r + 1) * cols = r * cols + cols := Nat.succ_mul r cols
  refine forLoop_post (fun c (st : Buf V × Nat) => st.1.size = rows * cols ∧
      ∀ q, q < r * cols + c → ¬ Flipped dense (st.1.data q) ∧ Good min max (st.1.data q)) 0 cols st (Nat.zero_le _) ⟨h1, h2⟩ ?_ ?_
  · rintro c ⟨m, pos⟩ _ hc ⟨h1, h2⟩
    simp only at h1 h2 ⊢
    cases dense with
    | true =>
      simp only [if_true]
      refine (reject_ok (hz pos)).bind ?_
      rintro ⟨v, p'⟩ ⟨hv, i, hi⟩
      simp only at hv hi ⊢
      rw [Buf.write_eq (by omega)]
      refine Res.ok_iff.2 ⟨h1, fun q hq => ?_⟩
      simp only [Buf.put_data]
      split
      · exact ⟨by simp [Flipped, hv], Or.inr (by rw [hi]; exact hd i)⟩
      · exact h2 q (by omega)
    | false =>
      simp only [Bool.false_eq_true, if_false]
      rw [Buf.write_eq (by omega)]
      refine Res.ok_iff.2 ⟨h1, fun q hq => ?_⟩
      simp only [Buf.put_data]
      split
      · exact ⟨by simp [Flipped], Or.inl rfl⟩
      · exact h2 q (by omega)
  · rintro st ⟨h1, h2⟩
    exact ⟨h1, fun q hq => h2 q (by omega)⟩

theorem randFlip_ok (rows cols : Nat) (dense : Bool) {draw : Nat → V} (hd : ∀ i, min ≤ draw i ∧ draw i ≤ max)
    (hz : ∀ pos, ∃ k, draw (pos + k) ≠ 0) {i : Nat} (hi : i < cols * rows) {m : Buf V} (hm : m.size = rows * cols) (pos : Nat) :
    Res.Ok (randFlip cols dense draw (Hdr.new rows cols) i m pos) (fun st => ∃ v, st.1 = m.put i v ∧ Flipped dense v ∧ Good min max v) := by
  unfold randFlip
  have hstart : (Hdr.new rows cols).start = 0 := by simp [Hdr.start, Hdr.isPartial, Hdr.new]
  have hskip : (Hdr.new rows cols).rowSkip = cols := rfl
  rw [hstart, hskip, Nat.div_add_mod', Nat.zero_add]
  rw [Nat.mul_comm] at hi
  cases dense with
  | true =>
    simp only [if_true]
    rw [Buf.write_eq (by omega)]
    exact Res.ok_iff.2 ⟨0, rfl, by simp [Flipped], Or.inl rfl⟩
  | false =>
    simp only [Bool.false_eq_true, if_false]
    refine (reject_ok (hz pos)).bind ?_
    rintro ⟨v, p'⟩ ⟨hv, j, hj⟩
    simp only at hv hj ⊢
    rw [Buf.write_eq (by omega)]
    exact Res.ok_iff.2 ⟨v, rfl, by simp [Flipped, hv], Or.inr (by rw [hj]; exact hd j)⟩

theorem randSelect_ok {dbl : Nat → Nat} (hp : PosConv dbl) (rows cols limit : Nat) (hl : limit ≤ cols * rows) (dense : Bool) {draw : Nat → V}
    (hd : ∀ i, min ≤ draw i ∧ draw i ≤ max) (hz : ∀ pos, ∃ k, draw (pos + k) ≠ 0) (ix : Nat → Nat) (st : Buf V × Nat) (hm : st.1.size = rows * cols)
    (h0 : ∀ q, q < rows * cols → ¬ Flipped dense (st.1.data q) ∧ Good min max (st.1.data q)) :
    Res.Ok (randSelect dbl rows cols limit dense draw ix (Hdr.new rows cols) st) (fun st => st.1.size = rows * cols ∧
      ((Finset.range (cols * rows)).filter fun q => Flipped dense (st.1.data q)).card = limit ∧
      ∀ q, q < rows * cols → Good min max (st.1.data q)) := by
  unfold randSelect
  refine forLoop_post (fun i (st : Buf V × Nat × Nat) => st.1.size = rows * cols ∧ st.2.2 ≤ limit ∧ limit + i ≤ cols * rows + st.2.2 ∧
      ((Finset.range i).filter fun q => Flipped dense (st.1.data q)).card = st.2.2 ∧
      (∀ q, i ≤ q → q < rows * cols → ¬ Flipped dense (st.1.data q)) ∧
      ∀ q, q < rows * cols → Good min max (st.1.data q)) 0 _ _ (Nat.zero_le _)
      ⟨hm, Nat.zero_le _, by omega, by simp, fun q _ h => (h0 q h).1, fun q h => (h0 q h).2⟩ ?_ ?_
  · rintro i ⟨m, pos, k⟩ _ hi ⟨h1, h2, h3, h4, h5, h6⟩
    simp only at h1 h2 h3 h4 h5 h6 ⊢
    have hi' : i < rows * cols := by rwa [Nat.mul_comm]
    -- a cell that is not selected
    have skip : limit + (i + 1) ≤ cols * rows + k → Res.Ok (.ok (m, pos, k)) (fun (st : Buf V × Nat × Nat) => st.1.size = rows * cols ∧ st.2.2 ≤ limit ∧
        limit + (i + 1) ≤ cols * rows + st.2.2 ∧ ((Finset.range (i + 1)).filter fun q => Flipped dense (st.1.data q)).card = st.2.2 ∧
        (∀ q, i + 1 ≤ q → q < rows * cols → ¬ Flipped dense (st.1.data q)) ∧ ∀ q, q < rows * cols → Good min max (st.1.data q)) := by
      intro hlim
      refine Res.ok_iff.2 ⟨h1, h2, hlim, ?_, fun q hq => h5 q (by omega), h6⟩
      simp only
      rw [Finset.range_add_one, Finset.filter_insert, if_neg (h5 i (Nat.le_refl _) hi'), h4]
    by_cases hk : k < limit
    · rw [if_pos hk]
      by_cases hpk : pick dbl (ix i) (cols * rows - i) (limit - k) = true
      · rw [if_pos hpk]
        refine (randFlip_ok rows cols dense hd hz hi h1 pos).bind ?_
        rintro ⟨m', pos'⟩ ⟨v, hv, hfl, hg⟩
        simp only at hv ⊢
        subst hv
        refine Res.ok_iff.2 ⟨h1, hk, by simp only; omega, ?_, fun q hq hq' => ?_, fun q hq => ?_⟩
        · simp only
          rw [Finset.range_add_one, Finset.filter_insert, if_pos (by rw [Buf.put_data_same]; exact hfl), Finset.card_insert_of_notMem (by simp)]
          have e : (Finset.range i).filter (fun q => Flipped dense ((m.put i v).data q)) = (Finset.range i).filter (fun q => Flipped dense (m.data q)) := by
            refine Finset.filter_congr fun q hq => ?_
            rw [Buf.put_data_ne _ _ _ _ (by have := Finset.mem_range.1 hq; omega)]
          rw [e, h4]
        · simp only
          rw [Buf.put_data_ne _ _ _ _ (by omega)]
          exact h5 q (by omega) hq'
        · simp only [Buf.put_data]
          split
          · exact hg
          · exact h6 q hq
      · rw [if_neg hpk]
        refine skip ?_
        by_contra hc
        have e : cols * rows - i = limit - k := by omega
        rw [e] at hpk
        exact hpk (pick_all hp (by omega))
    · rw [if_neg hk]
      exact skip (by omega)
  · rintro ⟨m, pos, k⟩ ⟨h1, h2, h3, h4, h5, h6⟩
    simp only at *
    exact ⟨h1, by omega, h6⟩

theorem validate_ok {rows cols : Nat} {s : Rat} (hr : 0 < rows) (hc : 0 < cols) (hmm : min ≤ max) (hnz : ¬ (min = 0 ∧ max = 0)) (hs0 : 0 ≤ s) (hs1 : s ≤ 1) :
    validate rows cols min max s = .ok () := by
  unfold validate
  rw [if_neg (by omega), if_neg (by omega), if_neg (not_lt.2 hmm), if_neg hnz, if_neg (by rw [not_or]; exact ⟨not_lt.2 hs0, not_lt.2 hs1⟩)]

/-- C192: a random dense matrix has the requested shape and number of non-zeros, and its non-zeros are between the bounds, whatever is drawn. -/
theorem C192_rand_dense (dbl : Nat → Nat) (hp : PosConv dbl) (rows cols : Nat) (s : Rat) (draw : Nat → V) (ix : Nat → Nat) (junk : Nat → V)
    (hr : 0 < rows) (hc : 0 < cols) (hmm : min ≤ max) (hnz : ¬ (min = 0 ∧ max = 0)) (hs0 : 0 ≤ s) (hs1 : s ≤ 1) (hsz : rows * cols ≤ 2 ^ 31)
    (hd : ∀ i, min ≤ draw i ∧ draw i ≤ max) (hz : ∀ pos, ∃ k, draw (pos + k) ≠ 0) :
    Res.Ok (randDense dbl rows cols min max s draw ix junk) (fun x => ∃ a, x.Is a ∧ a.rows = rows ∧ a.cols = cols ∧ HasSparsity a s ∧
      ∀ r c, r < rows → c < cols → a.cell r c = 0 ∨ (min ≤ a.cell r c ∧ a.cell r c ≤ max)) := by
  have hcells : 0 < rows * cols := Nat.mul_pos hr hc
  have hq : (0 : Rat) ≤ (cols : Rat) * rows := by positivity
  unfold randDense
  rw [validate_ok hr hc hmm hnz hs0 hs1]
  simp only [Res.ok_bind]
  have hdi : distrIndex (cols * rows) = .ok () := by
    unfold distrIndex
    rw [Nat.mul_comm cols rows, if_pos (by rw [Nat.mod_eq_of_lt (by omega)]; omega)]
  rw [hdi]
  simp only [Res.ok_bind]
  have hlim : randLimit rows cols s ≤ cols * rows := by
    unfold randLimit
    split
    · refine roundNat_le (mul_nonneg (mul_nonneg (by linarith) (by positivity)) (by positivity)) ?_
      push_cast
      rw [mul_assoc]
      nlinarith
    · refine roundNat_le (mul_nonneg (mul_nonneg (by linarith) (by positivity)) (by positivity)) ?_
      push_cast
      rw [mul_assoc]
      nlinarith
  refine (randFill_ok rows cols (decide (1 / 2 ≤ s)) hd hz junk).bind ?_
  rintro st ⟨h1, h2⟩
  refine (randSelect_ok hp rows cols _ hlim (decide (1 / 2 ≤ s)) hd hz ix st h1 h2).bind ?_
  rintro ⟨m, pos, k⟩ ⟨g1, g2, g3⟩
  simp only at g1 g2 g3 ⊢
  refine Res.ok_iff.2 ⟨⟨rows, cols, fun r c => m.data (r * cols + c)⟩, is_new g1 (fun _ _ _ _ => rfl), rfl, rfl, ?_, ?_⟩
  · unfold HasSparsity nonZeros
    simp only
    rw [card_cells rows cols (fun q => m.data q ≠ 0)]
    by_cases hs : 1 / 2 ≤ s
    · have e : ((Finset.range (cols * rows)).filter fun q => m.data q ≠ 0).card + randLimit rows cols s = cols * rows := by
        rw [← g2]
        have := Finset.card_filter_add_card_filter_not (s := Finset.range (cols * rows)) (fun q => m.data q ≠ 0)
        rw [Finset.card_range] at this
        have e2 : (Finset.range (cols * rows)).filter (fun q => Flipped (decide (1 / 2 ≤ s)) (m.data q)) =
            (Finset.range (cols * rows)).filter (fun q => ¬ m.data q ≠ 0) := Finset.filter_congr fun q _ => by rw [decide_eq_true hs]; simp [Flipped]
        rw [e2]
        exact this
      have hn := roundNat_near (q := (1 - s) * cols * rows) (mul_nonneg (mul_nonneg (by linarith) (by positivity)) (by positivity))
      unfold randLimit at e
      rw [if_pos hs] at e
      have e' : (((Finset.range (cols * rows)).filter fun q => m.data q ≠ 0).card : Rat) + (roundNat ((1 - s) * cols * rows) : Rat) = cols * rows := by
        exact_mod_cast e
      rw [abs_le] at hn ⊢
      constructor <;> nlinarith
    · have e : ((Finset.range (cols * rows)).filter fun q => m.data q ≠ 0).card = randLimit rows cols s := by
        rw [← g2]
        have e2 : (Finset.range (cols * rows)).filter (fun q => Flipped (decide (1 / 2 ≤ s)) (m.data q)) =
            (Finset.range (cols * rows)).filter (fun q => m.data q ≠ 0) := Finset.filter_congr fun q _ => by rw [decide_eq_false hs]; simp [Flipped]
        rw [e2]
      have hn := roundNat_near (q := s * cols * rows) (mul_nonneg (mul_nonneg (by linarith) (by positivity)) (by positivity))
      unfold randLimit at e
      rw [if_neg hs] at e
      rw [e]
      have e2 : s * ((rows : Rat) * cols) = s * cols * rows := by ring
      rw [e2]
      exact hn
  · intro r c hr' hc'
    exact g3 _ (rm_lt hr' hc' (Nat.le_refl _))

/-- C192: requests that make no sense are rejected, for dense and sparse results. -/
theorem C192_rand_rejects (dbl : Nat → Nat) (rows cols : Nat) (min max : V) (s : Rat) (draw : Nat → V) (ix drawRow drawCol : Nat → Nat) (junk : Nat → V) (jc jo : Nat → Nat)
    (h : rows = 0 ∨ cols = 0 ∨ max < min ∨ (min = 0 ∧ max = 0) ∨ s < 0 ∨ 1 < s) :
    Res.Throws (randDense dbl rows cols min max s draw ix junk) ∧ Res.Throws (randCsr rows cols min max s draw drawRow drawCol junk jc jo) := by
  have key : Res.Throws (validate rows cols min max s) := by
    unfold validate
    by_cases h1 : 0 < rows
    · rw [if_neg (not_not.2 h1)]
      by_cases h2 : 0 < cols
      · rw [if_neg (not_not.2 h2)]
        by_cases h3 : max < min
        · rw [if_pos h3]; exact ⟨_, rfl⟩
        · rw [if_neg h3]
          by_cases h4 : min = 0 ∧ max = 0
          · rw [if_pos h4]; exact ⟨_, rfl⟩
          · rw [if_neg h4]
            rw [if_pos (by rcases h with h | h | h | h | h <;> [omega; omega; exact absurd h h3; exact absurd h h4; exact h])]
            exact ⟨_, rfl⟩
      · rw [if_pos (by simpa using h2)]; exact ⟨_, rfl⟩
    · rw [if_pos (by simpa using h1)]; exact ⟨_, rfl⟩
  exact ⟨Res.throws_bind key, Res.throws_bind key⟩

/-- C194, refuted part: with more than 2^31 cells (up to 2^32) the index distribution gets a negative upper bound. -/
theorem C194_rand_many_cells_partial (dbl : Nat → Nat) (rows cols : Nat) (s : Rat) (draw : Nat → V) (ix : Nat → Nat) (junk : Nat → V)
    (hr : 0 < rows) (hc : 0 < cols) (hmm : min ≤ max) (hnz : ¬ (min = 0 ∧ max = 0)) (hs0 : 0 ≤ s) (hs1 : s ≤ 1)
    (h1 : 2 ^ 31 < rows * cols) (h2 : rows * cols ≤ 2 ^ 32) : Res.IsUB (randDense dbl rows cols min max s draw ix junk) := by
  unfold randDense
  rw [validate_ok hr hc hmm hnz hs0 hs1]
  simp only [Res.ok_bind]
  have hdi : distrIndex (cols * rows) = .error (.ub "uniform_int_distribution with b < a") := by
    unfold distrIndex
    rw [Nat.mul_comm cols rows, if_neg (by rw [Nat.mod_eq_of_lt (by omega)]; omega)]
  rw [hdi]
  exact ⟨_, rfl⟩

end

end Verif.Rand
