import Verif.Nn.Norm
import Mathlib.Tactic.FieldSimp
import Mathlib.Tactic.LinearCombination
/-
  C224-C225: batch normalisation, inference and gradient.
-/
namespace Verif.Nn
open Verif Verif.Dense

variable {α : Type}

/-- A matrix with one row, and a matrix with one column. -/
def rowD (n : Nat) (f : Nat → ℚ) : DM ℚ := ⟨Hdr.new 1 n, ⟨n, f⟩⟩
def colD (n : Nat) (f : Nat → ℚ) : DM ℚ := ⟨Hdr.new n 1, ⟨n, f⟩⟩
theorem rowD_is (n : Nat) (f : Nat → ℚ) : (rowD n f).Is ⟨1, n, fun _ c => f c⟩ := is_new (Nat.one_mul n).symm fun r c hr _ => by
  have : r = 0 := by have : r < 1 := hr; omega
  subst this
  show f (0 * n + c) = _
  rw [Nat.zero_mul, Nat.zero_add]
theorem colD_is (n : Nat) (f : Nat → ℚ) : (colD n f).Is ⟨n, 1, fun r _ => f r⟩ := is_new (Nat.mul_one n).symm fun r c _ hc => by
  have : c = 0 := by have : c < 1 := hc; omega
  subst this
  show f (r * 1 + 0) = _
  rw [Nat.mul_one, Nat.add_zero]
theorem colD_chan (n : Nat) (f : Nat → ℚ) : PerChannel n (colD n f) ⟨n, 1, fun r _ => f r⟩ := ⟨colD_is n f, rfl, by simp⟩

/-- **C224** (refuted): `batch_norm2d(X, gamma, beta, emaMean, emaVar, eps)` should normalise every channel with the parameters of this channel. (1) It uses parameter `i` for
all pixels of image `i`; (2) so that an image with two channels of one pixel each comes out wrong; (3) with more images than channels it reads outside the parameter matrices. -/
theorem C224_batch_norm_inference_partial :
    (∀ (α : Type) (_ : Field α) (sqrt : α → α) (inp gamma beta emaMean emaVar : DM α) (x ga be em ev : Mat α) (eps : α), inp.Is x →
      inp.h.rowSkip = inp.h.numCols → x.rows * x.cols < 2 ^ 31 → PerChannel x.rows gamma ga → PerChannel x.rows beta be → PerChannel x.rows emaMean em →
      PerChannel x.rows emaVar ev → Res.Ok (batchNormInference sqrt inp gamma beta emaMean emaVar eps) (fun d => d.Is ⟨x.rows, x.cols, fun i k =>
        flat ga i * ((x.cell i k - flat em i) / sqrt (flat ev i + eps)) + flat be i⟩)) ∧
    (∀ sqrt : ℚ → ℚ, sqrt 1 = 1 → ∃ inp gamma beta emaMean emaVar : DM ℚ, ∃ x ga be em ev : Mat ℚ, Chans 2 1 inp x ∧ PerChannel 2 gamma ga ∧ PerChannel 2 beta be ∧
      PerChannel 2 emaMean em ∧ PerChannel 2 emaVar ev ∧
      Res.Ok (batchNormInference sqrt inp gamma beta emaMean emaVar 0) (fun d => ∀ y, d.Is y →
        y.cell 0 1 ≠ flat ga 1 * ((x.cell 0 1 - flat em 1) / sqrt (flat ev 1 + 0)) + flat be 1)) ∧
    (∀ sqrt : ℚ → ℚ, ∃ inp gamma beta emaMean emaVar : DM ℚ, ∃ x ga be em ev : Mat ℚ, Chans 1 1 inp x ∧ PerChannel 1 gamma ga ∧ PerChannel 1 beta be ∧
      PerChannel 1 emaMean em ∧ PerChannel 1 emaVar ev ∧ Res.IsUB (batchNormInference sqrt inp gamma beta emaMean emaVar 0)) := by
  refine ⟨fun α _ sqrt inp gamma beta emaMean emaVar x ga be em ev eps hx hxd hsm hg hbe hem hev => batchNormInference_ok sqrt eps hx hxd hsm hg hbe hem hev, ?_, ?_⟩
  · intro sqrt h1
    refine ⟨rowD 2 (fun _ => 5), colD 2 (fun _ => 1), colD 2 (fun _ => 0), colD 2 (fun c => if c = 0 then 0 else 10), colD 2 (fun _ => 1), _, _, _, _, _,
      ⟨rowD_is 2 _, rfl, rfl, by decide⟩, colD_chan 2 _, colD_chan 2 _, colD_chan 2 _, colD_chan 2 _, ?_⟩
    refine (batchNormInference_ok sqrt 0 (rowD_is 2 _) rfl (by decide) (ga := ⟨2, 1, fun _ _ => 1⟩) (be := ⟨2, 1, fun _ _ => 0⟩)
      (em := ⟨2, 1, fun c _ => if c = 0 then 0 else 10⟩) (ev := ⟨2, 1, fun _ _ => 1⟩)
      ⟨colD_is 2 _, rfl, by decide⟩ ⟨colD_is 2 _, rfl, by decide⟩ ⟨colD_is 2 _, rfl, by decide⟩ ⟨colD_is 2 _, rfl, by decide⟩).mono fun d hd y hy => ?_
    rw [← (hd.same hy).2.2 0 1 (show (0:Nat) < 1 from by decide) (show (1:Nat) < 2 from by decide)]
    simp only [flat]
    norm_num [h1]
  · intro sqrt
    refine ⟨colD 2 (fun _ => 5), colD 1 (fun _ => 1), colD 1 (fun _ => 0), colD 1 (fun _ => 0), colD 1 (fun _ => 1), _, _, _, _, _,
      ⟨colD_is 2 _, rfl, rfl, by decide⟩, colD_chan 1 _, colD_chan 1 _, colD_chan 1 _, colD_chan 1 _, "out-of-bounds read", ?_⟩
    rfl

/-- The sums of the first loop of the backward kernel. -/
theorem backSums_ok [Field α] {C HW : Nat} {inp dout : DM α} {x d : Mat α} (hx : Chans C HW inp x) (hd : Chans C HW dout d) (hdr : d.rows = x.rows) {c : Nat} (hc : c < C)
    (mu iv ga : α) :
    Res.Ok (forLoop 0 x.rows ((0 : α), (0 : α), (0 : α)) fun i t => forLoop 0 HW t fun j t => do
      let off ← asInt (i * x.cols + c * HW + j)
      let dv ← rd dout off
      let v ← rd inp off
      .ok (t.1 + dv, t.2.1 + dv * (v - mu) * iv, t.2.2 - (dv * ga) * (v - mu) * (1 / 2) * iv ^ 3))
    (fun t => t.1 = chanSum x.rows HW c d.cell ∧ t.2.1 = chanSum x.rows HW c (fun i k => d.cell i k * (x.cell i k - mu) * iv) ∧
      t.2.2 = -chanSum x.rows HW c (fun i k => d.cell i k * ga * (x.cell i k - mu) * (1 / 2) * iv ^ 3)) := by
  have hcols : d.cols = x.cols := by rw [hd.cols, hx.cols]
  unfold chanSum
  refine forLoop_ok (fun n (t : α × α × α) => t.1 = ∑ i ∈ Finset.range n, ∑ j ∈ Finset.range HW, d.cell i (c * HW + j) ∧
      t.2.1 = ∑ i ∈ Finset.range n, ∑ j ∈ Finset.range HW, d.cell i (c * HW + j) * (x.cell i (c * HW + j) - mu) * iv ∧
      t.2.2 = -∑ i ∈ Finset.range n, ∑ j ∈ Finset.range HW, d.cell i (c * HW + j) * ga * (x.cell i (c * HW + j) - mu) * (1 / 2) * iv ^ 3) 0 x.rows _ (Nat.zero_le _)
    ⟨by simp, by simp, by simp⟩ ?_
  intro i t _ hi ⟨h1, h2, h3⟩
  refine forLoop_post (fun n (t' : α × α × α) => t'.1 = t.1 + ∑ j ∈ Finset.range n, d.cell i (c * HW + j) ∧
      t'.2.1 = t.2.1 + ∑ j ∈ Finset.range n, d.cell i (c * HW + j) * (x.cell i (c * HW + j) - mu) * iv ∧
      t'.2.2 = t.2.2 - ∑ j ∈ Finset.range n, d.cell i (c * HW + j) * ga * (x.cell i (c * HW + j) - mu) * (1 / 2) * iv ^ 3) 0 HW _ (Nat.zero_le _)
    ⟨by simp, by simp, by simp⟩ ?_ ?_
  · intro j t' _ hj ⟨k1, k2, k3⟩
    have ho := hx.off hi hc hj
    have hr := rd_ok hd.is hd.dense (r := i) (c := c * HW + j) (by omega) (by omega)
    rw [hcols] at hr
    rw [ho.1, Res.ok_bind, hr, Res.ok_bind, rd_ok hx.is hx.dense hi ho.2.2, Res.ok_bind]
    refine ⟨_, rfl, ?_, ?_, ?_⟩
    · show t'.1 + _ = _
      rw [k1, Finset.sum_range_succ, add_assoc]
    · show t'.2.1 + _ = _
      rw [k2, Finset.sum_range_succ, add_assoc]
    · show t'.2.2 - _ = _
      rw [k3, Finset.sum_range_succ, sub_sub]
  · intro t' ⟨k1, k2, k3⟩
    refine ⟨?_, ?_, ?_⟩
    · rw [k1, h1, Finset.sum_range_succ]
    · rw [k2, h2, Finset.sum_range_succ]
    · rw [k3, h3, Finset.sum_range_succ, neg_add, ← sub_eq_add_neg]

theorem chanSum_mul [Field α] (B HW c : Nat) (v : Nat → Nat → α) (k : α) : chanSum B HW c (fun i j => v i j * k) = chanSum B HW c v * k := by
  unfold chanSum; simp only [← Finset.sum_mul]

theorem chanSum_add [Field α] (B HW c : Nat) (v w : Nat → Nat → α) : chanSum B HW c (fun i j => v i j + w i j) = chanSum B HW c v + chanSum B HW c w := by
  unfold chanSum; simp only [Finset.sum_add_distrib]

/-- Deviations from the mean add up to zero. -/
theorem chanSum_dev [Field α] (x : Mat α) (HW c : Nat) (hm : ((x.rows * HW : Nat) : α) ≠ 0) : chanSum x.rows HW c (fun i k => x.cell i k - chanMean x HW c) = 0 := by
  have e : chanSum x.rows HW c (fun i k => x.cell i k - chanMean x HW c) = chanSum x.rows HW c x.cell - ((x.rows * HW : Nat) : α) * chanMean x HW c := by
    unfold chanSum
    simp only [Finset.sum_sub_distrib, Finset.sum_const, Finset.card_range, nsmul_eq_mul]
    push_cast
    ring
  rw [e]
  unfold chanMean
  rw [mul_div_cancel₀ _ hm, sub_self]

/-- The normalised pixel. -/
def xhat [Field α] (x : Mat α) (HW c : Nat) (iv : α) (i k : Nat) : α := (x.cell i k - chanMean x HW c) * iv

/-- **C225**: the backward kernel of batch normalisation, given the mean of every channel over all images and some inverse standard deviations, computes in exact arithmetic
the gradients of `beta` and `gamma` (the sums of the output gradients, plain and times the normalised pixels) and of the input: the output gradient minus its mean minus the
normalised pixel times the mean of output gradient times normalised pixel, scaled by `gamma` and the inverse standard deviation. -/
theorem C225_batch_norm_backward [Field α] (C HW : Nat) (mean invVar inp dout gamma : DM α) (me iv x d ga : Mat α) (hC : 0 < C)
    (hx : Chans C HW inp x) (hd : Chans C HW dout d) (hdr : d.rows = x.rows) (hg : PerChannel C gamma ga) (hgr : ga.rows = C) (hme : PerChannel C mean me)
    (hiv : PerChannel C invVar iv) (htrue : ∀ c, c < C → flat me c = chanMean x HW c) (hm : ((x.rows * HW : Nat) : α) ≠ 0) (h2 : (2 : α) ≠ 0) :
    Res.Ok (batchNormBackward mean invVar inp dout gamma) (fun o => ∃ dx dg db : Mat α, o.dX.Is dx ∧ o.dGamma.Is dg ∧ o.dBeta.Is db ∧
      dx.rows = x.rows ∧ dx.cols = x.cols ∧ dg.rows = C ∧ dg.cols = 1 ∧ db.rows = C ∧ db.cols = 1 ∧
      ∀ c, c < C → db.cell c 0 = chanSum x.rows HW c d.cell ∧ dg.cell c 0 = chanSum x.rows HW c (fun i k => d.cell i k * xhat x HW c (flat iv c) i k) ∧
        ∀ i j, i < x.rows → j < HW → dx.cell i (c * HW + j) = flat ga c * flat iv c * (d.cell i (c * HW + j) -
          chanSum x.rows HW c d.cell / ((x.rows * HW : Nat) : α) - xhat x HW c (flat iv c) i (c * HW + j) *
          (chanSum x.rows HW c (fun i k => d.cell i k * xhat x HW c (flat iv c) i k) / ((x.rows * HW : Nat) : α)))) := by
  unfold batchNormBackward
  dsimp only
  have hHW : x.cols / C = HW := by rw [hx.cols]; exact Nat.mul_div_cancel_left _ hC
  have hcols : d.cols = x.cols := by rw [hd.cols, hx.cols]
  rw [hg.is.rows, hgr, hx.is.rows, hx.is.cols, if_neg (by omega), hHW]
  let DX : Nat → Nat → Nat → α := fun c i k => flat ga c * flat iv c * (d.cell i k -
          chanSum x.rows HW c d.cell / ((x.rows * HW : Nat) : α) - xhat x HW c (flat iv c) i k *
          (chanSum x.rows HW c (fun i k => d.cell i k * xhat x HW c (flat iv c) i k) / ((x.rows * HW : Nat) : α)))
  refine Res.Ok.bind (P := fun s : BackBufs α => (s.dX.size = x.rows * x.cols ∧ ∀ i c j, i < x.rows → c < C → j < HW → s.dX.data (i * x.cols + (c * HW + j)) =
        DX c i (c * HW + j)) ∧
      Upto (C * 1) C (fun c => chanSum x.rows HW c (fun i k => d.cell i k * xhat x HW c (flat iv c) i k)) s.dGamma ∧
      Upto (C * 1) C (fun c => chanSum x.rows HW c d.cell) s.dBeta) ?_ ?_
  · refine forLoop_post (fun n (s : BackBufs α) => (s.dX.size = x.rows * x.cols ∧ ∀ i c j, i < x.rows → c < n → j < HW → s.dX.data (i * x.cols + (c * HW + j)) =
        DX c i (c * HW + j)) ∧
      Upto (C * 1) n (fun c => chanSum x.rows HW c (fun i k => d.cell i k * xhat x HW c (flat iv c) i k)) s.dGamma ∧
      Upto (C * 1) n (fun c => chanSum x.rows HW c d.cell) s.dBeta) 0 C _ (Nat.zero_le _) ?_ ?_ (fun s h => h)
    · refine ⟨⟨rfl, fun i c j _ hc => absurd hc (Nat.not_lt_zero _)⟩, ⟨rfl, ?_⟩, ⟨rfl, ?_⟩⟩ <;>
        exact fun c hc => absurd hc (Nat.not_lt_zero _)
    · intro c s _ hc ⟨⟨r1, r2⟩, u1, u2⟩
      have hcc : c < C * 1 := by omega
      have hrx : ∀ i j, i < x.rows → j < HW → rd inp (i * x.cols + (c * HW + j)) = .ok (x.cell i (c * HW + j)) := fun i j hi hj =>
        rd_ok hx.is hx.dense hi (hx.off hi hc hj).2.2
      have hrd : ∀ i j, i < x.rows → j < HW → rd dout (i * x.cols + (c * HW + j)) = .ok (d.cell i (c * HW + j)) := fun i j hi hj => by
        have ho := hx.off hi hc hj
        have hr := rd_ok hd.is hd.dense (r := i) (c := c * HW + j) (by omega) (by omega)
        rw [hcols] at hr; exact hr
      unfold backChannel
      dsimp only
      rw [hme.read hc, Res.ok_bind, hiv.read hc, Res.ok_bind, hg.read hc, Res.ok_bind, htrue c hc]
      refine (backSums_ok hx hd hdr hc (chanMean x HW c) (flat iv c) (flat ga c)).bind fun t ⟨t1, t2, t3⟩ => ?_
      obtain ⟨b1, e1, w1⟩ := u2.write hcc (w := t.1) t1
      obtain ⟨b2, e2, w2⟩ := u1.write hcc (w := t.2.1) (by
        rw [t2]; unfold xhat chanSum
        exact Finset.sum_congr rfl fun i _ => Finset.sum_congr rfl fun j _ => by ring)
      rw [e1, Res.ok_bind, e2, Res.ok_bind,
        channelSum_eq (t := fun i k => d.cell i k * (flat ga c * (-flat iv c)) + (x.cell i k - chanMean x HW c) * (t.2.2 * (-(2 / ((x.rows * HW : Nat) : α)))))
          (fun i j hi hj => (hx.off hi hc hj).1)
          (fun i j hi hj => by rw [hrd i j hi hj, Res.ok_bind, hrx i j hi hj, Res.ok_bind]; congr 1; ring), Res.ok_bind]
      rw [chanSum_add, chanSum_mul, chanSum_mul, chanSum_dev x HW c hm]
      refine Res.Ok.bind (chanWrite_ok (val := DX c) hx.cols hc (fun i j hi hj b hb => ?_) r1) ?_
      · have ho := hx.off hi hc hj
        rw [ho.1, Res.ok_bind, hrd i j hi hj, Res.ok_bind, hrx i j hi hj, Res.ok_bind, Buf.write_eq (by rw [hb]; exact ho.2.1)]
        congr 2
        have ht : t.2.2 = -(chanSum x.rows HW c (fun i k => d.cell i k * xhat x HW c (flat iv c) i k) * (flat ga c * (1 / 2) * flat iv c ^ 2)) := by
          rw [t3, ← chanSum_mul]
          unfold xhat chanSum
          congr 1
          exact Finset.sum_congr rfl fun i _ => Finset.sum_congr rfl fun j _ => by ring
        rw [ht]
        show _ = flat ga c * flat iv c * (_ - _ - xhat x HW c (flat iv c) i (c * HW + j) * _)
        rw [show xhat x HW c (flat iv c) i (c * HW + j) = (x.cell i (c * HW + j) - chanMean x HW c) * flat iv c from rfl]
        generalize chanSum x.rows HW c (fun i k => d.cell i k * xhat x HW c (flat iv c) i k) = S
        generalize chanSum x.rows HW c d.cell = D
        generalize chanMean x HW c = M
        field_simp
        ring
      · intro b ⟨k1, k2⟩
        refine ⟨_, rfl, ⟨k1, fun i c' j hi hc' hj => ?_⟩, w2, w1⟩
        rw [k2 i c' j hi (by omega) hj]
        by_cases e : c' = c
        · rw [if_pos e, e]
        · rw [if_neg e]; exact r2 i c' j hi (by omega) hj
  · intro s ⟨⟨r1, r2⟩, u1, u2⟩
    refine ⟨_, rfl, ⟨x.rows, x.cols, fun r c => s.dX.data (r * x.cols + c)⟩, ⟨C, 1, fun r c => s.dGamma.data (r * 1 + c)⟩,
      ⟨C, 1, fun r c => s.dBeta.data (r * 1 + c)⟩, is_new r1 fun _ _ _ _ => rfl, is_new u1.1 fun _ _ _ _ => rfl, is_new u2.1 fun _ _ _ _ => rfl,
      rfl, rfl, rfl, rfl, rfl, rfl, ?_⟩
    intro c hc
    refine ⟨?_, ?_, fun i j hi hj => r2 i c j hi hc hj⟩ <;> (show Buf.data _ (c * 1 + 0) = _; rw [Nat.mul_one, Nat.add_zero])
    · exact u2.2 c hc
    · exact u1.2 c hc

/-! ### Concrete cases -/

/-- Two images with two channels of two pixels. -/
def exB : DM ℚ := ⟨Hdr.new 2 4, ⟨8, fun o => ((o * o : Nat) : ℚ)⟩⟩
theorem exB_is : Chans 2 2 exB ⟨2, 4, fun r c => (((r * 4 + c) * (r * 4 + c) : Nat) : ℚ)⟩ := ⟨is_new rfl fun _ _ _ _ => rfl, rfl, rfl, by decide⟩

/-- The hypotheses of C223 can be met. -/
example : Res.Ok (batchNormTrain (fun v => v) exB (colD 2 fun _ => 1) (colD 2 fun _ => 0) (colD 2 fun _ => 0) (colD 2 fun _ => 1) (1 / 10) 1) (fun o =>
    ∃ y : Mat ℚ, o.res.Is y ∧ y.rows = 2 ∧ y.cols = 4) :=
  (C223_batch_norm_train (fun v => v) 2 2 exB _ _ _ _ _ _ _ _ _ (1 / 10) 1 (by decide) exB_is (colD_chan 2 _) rfl (colD_chan 2 _) (colD_chan 2 _) (colD_chan 2 _)).mono
    fun o ⟨y, _, _, _, _, h1, _, _, _, _, h2, h3, _⟩ => ⟨y, h1, h2, h3⟩
example : chanMean ⟨2, 4, fun r c => (((r * 4 + c) * (r * 4 + c) : Nat) : ℚ)⟩ 2 1 = 49 / 2 := by
  norm_num [chanMean, chanSum, Finset.sum_range_succ]

/-- The hypotheses of C225 can be met. -/
example : Res.Ok (batchNormBackward (colD 2 fun c => chanMean ⟨2, 4, fun r c => (((r * 4 + c) * (r * 4 + c) : Nat) : ℚ)⟩ 2 c) (colD 2 fun _ => 1) exB exB (colD 2 fun _ => 1))
    (fun o => ∃ y : Mat ℚ, o.dX.Is y ∧ y.rows = 2 ∧ y.cols = 4) := by
  refine (C225_batch_norm_backward 2 2 _ _ exB exB _ _ _ _ _ _ (by decide) exB_is exB_is rfl (colD_chan 2 _) rfl (colD_chan 2 _) (colD_chan 2 _) ?_ ?_ (by norm_num)).mono
    fun o ⟨y, _, _, h1, _, _, h2, h3, _⟩ => ⟨y, h1, h2, h3⟩
  · intro c _
    unfold flat
    rw [Nat.div_one]
  · decide +kernel

end Verif.Nn
