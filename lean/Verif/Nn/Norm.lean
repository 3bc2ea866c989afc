import Verif.Nn.Softmax
/-
  C223-C225: batch normalisation.
-/
namespace Verif.Nn
open Verif Verif.Dense

variable {α : Type}

/-- Sum over all pixels of channel `c` (in all `B` images with `HW` pixels per channel). -/
def chanSum [AddCommMonoid α] (B HW c : Nat) (v : Nat → Nat → α) : α := ∑ i ∈ Finset.range B, ∑ j ∈ Finset.range HW, v i (c * HW + j)

/-- Mean and variance of the pixels of a channel. -/
def chanMean [Field α] (x : Mat α) (HW c : Nat) : α := chanSum x.rows HW c x.cell / ((x.rows * HW : Nat) : α)
def chanVar [Field α] (x : Mat α) (HW c : Nat) : α :=
  chanSum x.rows HW c (fun i k => (x.cell i k - chanMean x HW c) ^ 2) / ((x.rows * HW : Nat) : α)

/-- One value per channel, stored without gaps between the rows (usually as a column). -/
structure PerChannel (C : Nat) (d : DM α) (m : Mat α) : Prop where
  is : d.Is m
  dense : d.h.rowSkip = d.h.numCols
  enough : C ≤ m.rows * m.cols

theorem PerChannel.read {C : Nat} {d : DM α} {m : Mat α} (h : PerChannel C d m) {c : Nat} (hc : c < C) : rd d c = .ok (flat m c) :=
  rd_flat h.is h.dense (Nat.lt_of_lt_of_le hc h.enough)

/-- The images as a matrix with `C * HW` columns and fewer than 2^31 entries. -/
structure Chans (C HW : Nat) (d : DM α) (x : Mat α) : Prop where
  is : d.Is x
  dense : d.h.rowSkip = d.h.numCols
  cols : x.cols = C * HW
  small : x.rows * x.cols < 2 ^ 31

theorem Chans.off {C HW : Nat} {d : DM α} {x : Mat α} (h : Chans C HW d x) {i c j : Nat} (hi : i < x.rows) (hc : c < C) (hj : j < HW) :
    asInt (i * x.cols + c * HW + j) = .ok (i * x.cols + (c * HW + j)) ∧ i * x.cols + (c * HW + j) < x.rows * x.cols ∧ c * HW + j < x.cols := by
  have h1 : c * HW + j < x.cols := by rw [h.cols]; exact rm_lt hc hj (Nat.le_refl _)
  have h2 := rm_lt hi h1 (Nat.le_refl x.cols)
  have h3 := h.small
  refine ⟨?_, h2, h1⟩
  unfold asInt
  rw [Nat.add_assoc, if_pos (by omega)]

theorem channelSum_eq [AddCommMonoid α] {B CHW HW c : Nat} {a : α} {term : Nat → Res α} {t : Nat → Nat → α}
    (hoff : ∀ i j, i < B → j < HW → asInt (i * CHW + c * HW + j) = .ok (i * CHW + (c * HW + j)))
    (ht : ∀ i j, i < B → j < HW → term (i * CHW + (c * HW + j)) = .ok (t i (c * HW + j))) :
    channelSum B CHW HW c a term = .ok (a + chanSum B HW c t) := by
  have : Res.Ok (channelSum B CHW HW c a term) (fun v => v = a + chanSum B HW c t) := by
    unfold channelSum chanSum
    refine forLoop_post (fun k v => v = a + ∑ i ∈ Finset.range k, ∑ j ∈ Finset.range HW, t i (c * HW + j)) 0 B a (Nat.zero_le _) (by simp) ?_ (fun s h => h)
    intro i v _ hi hv
    refine forLoop_post (fun k w => w = v + ∑ j ∈ Finset.range k, t i (c * HW + j)) 0 HW v (Nat.zero_le _) (by simp) ?_ ?_
    · intro j w _ hj hw
      rw [hoff i j hi hj, Res.ok_bind, ht i j hi hj, Res.ok_bind]
      refine ⟨_, rfl, ?_⟩
      rw [hw, Finset.sum_range_succ, add_assoc]
    · intro w hw
      rw [hw, hv, Finset.sum_range_succ, add_assoc]
  obtain ⟨v, e, rfl⟩ := this
  exact e

/-- Writing the pixels of one channel. -/
theorem chanWrite_ok {B C CHW HW c : Nat} {val : Nat → Nat → α} {body : Nat → Nat → Buf α → Res (Buf α)} (hcols : CHW = C * HW) (hc : c < C)
    (hbody : ∀ i j, i < B → j < HW → ∀ b : Buf α, b.size = B * CHW → body i j b = .ok (b.put (i * CHW + (c * HW + j)) (val i (c * HW + j))))
    {b : Buf α} (hb : b.size = B * CHW) :
    Res.Ok (forLoop 0 B b fun i b => forLoop 0 HW b fun j b => body i j b) (fun b' => b'.size = B * CHW ∧
      ∀ i c' j, i < B → c' < C → j < HW → b'.data (i * CHW + (c' * HW + j)) =
        if c' = c then val i (c' * HW + j) else b.data (i * CHW + (c' * HW + j))) := by
  have hk : ∀ c' j, c' < C → j < HW → c' * HW + j < CHW := fun c' j h1 h2 => by rw [hcols]; exact rm_lt h1 h2 (Nat.le_refl _)
  have main : AccB (B * CHW) (fun (_ : α) v => v) (fun b => forLoop 0 B b fun i b => forLoop 0 HW b fun j b => body i j b)
      (fun o => (List.range B).flatMap fun i => (List.range HW).flatMap fun j => if o = i * CHW + (c * HW + j) then [val i (c * HW + j)] else []) :=
    AccB.loop0 fun i hi => AccB.loop0 fun j hj => AccB.step (rm_lt hi (hk c j hc hj) (Nat.le_refl _)) fun b hb => hbody i j hi hj b hb
  refine (main b hb).mono fun b' ⟨h1, h2⟩ => ⟨h1, fun i c' j hi hc' hj => ?_⟩
  rw [h2]
  beta_reduce
  by_cases e : c' = c
  · subst e
    rw [if_pos rfl, flatMap_single hi, flatMap_single hj]
    · rw [if_pos rfl]; rfl
    · intro j' hj' hne
      rw [if_neg]
      intro e; exact hne (by omega)
    · intro i' hi' hne
      refine flatMap_nil fun j' hj' => ?_
      rw [if_neg]
      intro e; exact hne (rm_inj (hk c' j hc' hj) (hk c' j' hc' hj') e).1.symm
  · rw [if_neg e, flatMap_nil]
    · rfl
    · intro i' hi'
      refine flatMap_nil fun j' hj' => ?_
      rw [if_neg]
      intro e'
      have := (rm_inj (hk c' j hc' hj) (hk c j' hc hj') e').2
      exact e (rm_inj hj hj' this).1

/-- A vector of per-channel statistics, filled up to channel `k`. -/
def Upto (N k : Nat) (v : Nat → α) (b : Buf α) : Prop := b.size = N ∧ ∀ c, c < k → b.data c = v c

theorem Upto.write {N k : Nat} {v : Nat → α} {b : Buf α} (h : Upto N k v b) (hk : k < N) {w : α} (hw : w = v k) :
    ∃ b', b.write k w = .ok b' ∧ Upto N (k + 1) v b' := by
  refine ⟨_, Buf.write_eq (by rw [h.1]; exact hk), h.1, fun c hc => ?_⟩
  rw [Buf.put_data]
  by_cases e : c = k
  · rw [if_pos e, e, hw]
  · rw [if_neg e]; exact h.2 c (by omega)

/-- **C223**: the training kernel of batch normalisation computes, in exact arithmetic, mean and variance of every channel over all images, the running averages, and the
normalised, scaled and shifted pixels. (The four statistics come as `C x C` matrices whose first row holds the values.) -/
theorem C223_batch_norm_train [Field α] (sqrt : α → α) (C HW : Nat) (inp gamma beta emaMean emaVar : DM α) (x ga be em ev : Mat α) (eps mu : α) (hC : 0 < C)
    (hx : Chans C HW inp x) (hg : PerChannel C gamma ga) (hgr : ga.rows = C) (hbe : PerChannel C beta be) (hem : PerChannel C emaMean em)
    (hev : PerChannel C emaVar ev) :
    Res.Ok (batchNormTrain sqrt inp gamma beta emaMean emaVar eps mu) (fun o => ∃ y nm nv m iv : Mat α,
      o.res.Is y ∧ o.newMean.Is nm ∧ o.newVar.Is nv ∧ o.mean.Is m ∧ o.invVar.Is iv ∧ y.rows = x.rows ∧ y.cols = x.cols ∧
      (nm.rows, nm.cols) = (C, C) ∧ (nv.rows, nv.cols) = (C, C) ∧ (m.rows, m.cols) = (C, C) ∧ (iv.rows, iv.cols) = (C, C) ∧
      ∀ c, c < C →
        (∀ i j, i < x.rows → j < HW → y.cell i (c * HW + j) =
          flat ga c * ((x.cell i (c * HW + j) - chanMean x HW c) / sqrt (chanVar x HW c + eps)) + flat be c) ∧
        m.cell 0 c = chanMean x HW c ∧ iv.cell 0 c = 1 / sqrt (chanVar x HW c + eps) ∧
        nm.cell 0 c = (1 - mu) * flat em c + mu * chanMean x HW c ∧ nv.cell 0 c = (1 - mu) * flat ev c + mu * chanVar x HW c) := by
  unfold batchNormTrain
  dsimp only
  have hHW : x.cols / C = HW := by rw [hx.cols]; exact Nat.mul_div_cancel_left _ hC
  rw [hg.is.rows, hgr, hx.is.rows, hx.is.cols, if_neg (by omega), hHW]
  refine Res.Ok.bind (P := fun s : TrainBufs α => (s.res.size = x.rows * x.cols ∧ ∀ i c j, i < x.rows → c < C → j < HW → s.res.data (i * x.cols + (c * HW + j)) =
        flat ga c * ((x.cell i (c * HW + j) - chanMean x HW c) / sqrt (chanVar x HW c + eps)) + flat be c) ∧
      Upto (C * C) C (fun c => (1 - mu) * flat em c + mu * chanMean x HW c) s.newMean ∧ Upto (C * C) C (fun c => (1 - mu) * flat ev c + mu * chanVar x HW c) s.newVar ∧
      Upto (C * C) C (chanMean x HW) s.mean ∧ Upto (C * C) C (fun c => 1 / sqrt (chanVar x HW c + eps)) s.invVar) ?_ ?_
  · refine forLoop_post (fun k (s : TrainBufs α) => (s.res.size = x.rows * x.cols ∧ ∀ i c j, i < x.rows → c < k → j < HW → s.res.data (i * x.cols + (c * HW + j)) =
        flat ga c * ((x.cell i (c * HW + j) - chanMean x HW c) / sqrt (chanVar x HW c + eps)) + flat be c) ∧
      Upto (C * C) k (fun c => (1 - mu) * flat em c + mu * chanMean x HW c) s.newMean ∧ Upto (C * C) k (fun c => (1 - mu) * flat ev c + mu * chanVar x HW c) s.newVar ∧
      Upto (C * C) k (chanMean x HW) s.mean ∧ Upto (C * C) k (fun c => 1 / sqrt (chanVar x HW c + eps)) s.invVar) 0 C _ (Nat.zero_le _) ?_ ?_ (fun s h => h)
    · refine ⟨⟨rfl, fun i c j _ hc => absurd hc (Nat.not_lt_zero _)⟩, ⟨rfl, ?_⟩, ⟨rfl, ?_⟩, ⟨rfl, ?_⟩, ⟨rfl, ?_⟩⟩ <;>
        exact fun c hc => absurd hc (Nat.not_lt_zero _)
    · intro c s _ hc ⟨⟨r1, r2⟩, u1, u2, u3, u4⟩
      have hcc : c < C * C := Nat.lt_of_lt_of_le hc (Nat.le_mul_of_pos_right C hC)
      have hrd : ∀ i j, i < x.rows → j < HW → rd inp (i * x.cols + (c * HW + j)) = .ok (x.cell i (c * HW + j)) := fun i j hi hj =>
        rd_ok hx.is hx.dense hi (hx.off hi hc hj).2.2
      unfold trainChannel
      dsimp only
      rw [channelSum_eq (t := fun i k => x.cell i k / ((x.rows * HW : Nat) : α)) (fun i j hi hj => (hx.off hi hc hj).1)
        (fun i j hi hj => by rw [hrd i j hi hj]; rfl), Res.ok_bind]
      have hmean : 0 + chanSum x.rows HW c (fun i k => x.cell i k / ((x.rows * HW : Nat) : α)) = chanMean x HW c := by
        unfold chanMean chanSum
        simp only [← Finset.sum_div]
        rw [zero_add]
      rw [hmean, channelSum_eq (t := fun i k => (x.cell i k - chanMean x HW c) ^ 2 / ((x.rows * HW : Nat) : α)) (fun i j hi hj => (hx.off hi hc hj).1)
        (fun i j hi hj => by rw [hrd i j hi hj]; rfl), Res.ok_bind]
      have hvar : 0 + chanSum x.rows HW c (fun i k => (x.cell i k - chanMean x HW c) ^ 2 / ((x.rows * HW : Nat) : α)) = chanVar x HW c := by
        unfold chanVar chanSum
        simp only [← Finset.sum_div]
        rw [zero_add]
      rw [hvar]
      obtain ⟨b1, e1, w1⟩ := u3.write hcc (w := chanMean x HW c) rfl
      obtain ⟨b2, e2, w2⟩ := u4.write hcc (w := 1 / sqrt (chanVar x HW c + eps)) rfl
      obtain ⟨b3, e3, w3⟩ := u1.write hcc (w := (1 - mu) * flat em c + mu * chanMean x HW c) rfl
      obtain ⟨b4, e4, w4⟩ := u2.write hcc (w := (1 - mu) * flat ev c + mu * chanVar x HW c) rfl
      rw [e1, Res.ok_bind, e2, Res.ok_bind, hem.read hc, Res.ok_bind, e3, Res.ok_bind, hev.read hc, Res.ok_bind, e4, Res.ok_bind]
      refine Res.Ok.bind (chanWrite_ok (val := fun i k => flat ga c * ((x.cell i k - chanMean x HW c) / sqrt (chanVar x HW c + eps)) + flat be c) hx.cols hc
        (fun i j hi hj b hb => ?_) r1) ?_
      · have ho := hx.off hi hc hj
        rw [ho.1, Res.ok_bind, hrd i j hi hj, Res.ok_bind, hg.read hc, Res.ok_bind, hbe.read hc, Res.ok_bind, Buf.write_eq (by rw [hb]; exact ho.2.1)]
      · intro b ⟨k1, k2⟩
        refine ⟨_, rfl, ⟨k1, fun i c' j hi hc' hj => ?_⟩, w3, w4, w1, w2⟩
        rw [k2 i c' j hi (by omega) hj]
        by_cases e : c' = c
        · rw [if_pos e, e]
        · rw [if_neg e]; exact r2 i c' j hi (by omega) hj
  · intro s ⟨⟨r1, r2⟩, u1, u2, u3, u4⟩
    refine ⟨_, rfl, ⟨x.rows, x.cols, fun r c => s.res.data (r * x.cols + c)⟩, ⟨C, C, fun r c => s.newMean.data (r * C + c)⟩,
      ⟨C, C, fun r c => s.newVar.data (r * C + c)⟩, ⟨C, C, fun r c => s.mean.data (r * C + c)⟩, ⟨C, C, fun r c => s.invVar.data (r * C + c)⟩,
      is_new r1 fun _ _ _ _ => rfl, is_new u1.1 fun _ _ _ _ => rfl, is_new u2.1 fun _ _ _ _ => rfl, is_new u3.1 fun _ _ _ _ => rfl, is_new u4.1 fun _ _ _ _ => rfl,
      rfl, rfl, rfl, rfl, rfl, rfl, ?_⟩
    intro c hc
    refine ⟨fun i j hi hj => r2 i c j hi hc hj, ?_, ?_, ?_, ?_⟩ <;> (show Buf.data _ (0 * C + c) = _; rw [Nat.zero_mul, Nat.zero_add])
    · exact u3.2 c hc
    · exact u4.2 c hc
    · exact u1.2 c hc
    · exact u2.2 c hc

/-- What the inference kernel computes: the parameters are taken from position `i` for image `i`. -/
theorem batchNormInference_ok [Field α] (sqrt : α → α) {inp gamma beta emaMean emaVar : DM α} {x ga be em ev : Mat α} (eps : α) (hx : inp.Is x)
    (hxd : inp.h.rowSkip = inp.h.numCols) (hsm : x.rows * x.cols < 2 ^ 31) (hg : PerChannel x.rows gamma ga) (hbe : PerChannel x.rows beta be)
    (hem : PerChannel x.rows emaMean em) (hev : PerChannel x.rows emaVar ev) :
    Res.Ok (batchNormInference sqrt inp gamma beta emaMean emaVar eps) (fun d => d.Is ⟨x.rows, x.cols, fun i k =>
      flat ga i * ((x.cell i k - flat em i) / sqrt (flat ev i + eps)) + flat be i⟩) := by
  unfold batchNormInference
  dsimp only
  rw [hx.rows, hx.cols]
  have main : AccB (x.rows * x.cols) (fun (_ : α) v => v) (fun b => forLoop 0 x.rows b fun i b => forLoop 0 x.cols b fun j b => do
      let off ← asInt (i * x.cols + j)
      let v ← rd inp off
      let m ← rd emaMean i
      let va ← rd emaVar i
      let g ← rd gamma i
      let be ← rd beta i
      b.write off (g * ((v - m) / sqrt (va + eps)) + be))
      (fun o => (List.range x.rows).flatMap fun i => (List.range x.cols).flatMap fun j => if o = i * x.cols + j then
        [flat ga i * ((x.cell i j - flat em i) / sqrt (flat ev i + eps)) + flat be i] else []) := by
    refine AccB.loop0 fun i hi => AccB.loop0 fun j hj => ?_
    have hlt := rm_lt hi hj (Nat.le_refl x.cols)
    refine AccB.step hlt fun b hb => ?_
    have ho : asInt (i * x.cols + j) = .ok (i * x.cols + j) := by unfold asInt; rw [if_pos (by omega)]
    rw [ho, Res.ok_bind, rd_ok hx hxd hi hj, Res.ok_bind, hem.read hi, Res.ok_bind, hev.read hi, Res.ok_bind, hg.read hi, Res.ok_bind, hbe.read hi, Res.ok_bind,
      Buf.write_eq (by rw [hb]; exact hlt)]
  refine (main ⟨x.rows * x.cols, fun _ => 0⟩ rfl).bind fun b ⟨h1, h2⟩ => ?_
  refine ⟨_, rfl, is_new h1 fun i j hi hj => ?_⟩
  have hi' : i < x.rows := hi
  have hj' : j < x.cols := hj
  rw [h2]
  beta_reduce
  rw [flatMap_single hi', flatMap_single hj']
  · rw [if_pos rfl]; rfl
  · intro j' _ hne; rw [if_neg (by omega)]
  · intro i' hi2 hne
    refine flatMap_nil fun j2 hj2 => ?_
    rw [if_neg]
    intro e; exact hne (rm_inj hj' hj2 e).1.symm

end Verif.Nn
