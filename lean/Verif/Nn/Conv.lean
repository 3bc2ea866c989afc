import Verif.Nn.Lemmas
/-
  C203: `conv2d` computes the convolution (CPU kernel).
-/
namespace Verif.Nn
open Verif Verif.Dense

variable {α : Type}

/-- `K` filters, one per row, without gaps between the rows. -/
structure Filters (g : Geo) (K : Nat) (d : DM α) (f : Mat α) : Prop where
  is : d.Is f
  rows : f.rows = K
  cols : f.cols = g.C * (g.fh * g.fw)
  dense : d.h.rowSkip = d.h.numCols

theorem Filters.read {g : Geo} {K : Nat} {d : DM α} {f : Mat α} (h : Filters g K d f) {k c r s : Nat} (hk : k < K) (hc : c < g.C)
    (hr : r < g.fh) (hs : s < g.fw) :
    rd d (k * (g.C * g.fh * g.fw) + c * g.fh * g.fw + r * g.fw + s) = .ok (g.filt f k c r s) := by
  have hcc : c * (g.fh * g.fw) + (r * g.fw + s) < f.cols := by
    rw [h.cols]; exact rm_lt hc (rm_lt hr hs (Nat.le_refl _)) (Nat.le_refl _)
  have := rd_ok h.is h.dense (r := k) (by rw [h.rows]; exact hk) hcc
  rw [h.cols] at this
  rw [← show k * (g.C * (g.fh * g.fw)) + (c * (g.fh * g.fw) + (r * g.fw + s)) = k * (g.C * g.fh * g.fw) + c * g.fh * g.fw + r * g.fw + s
    by ring]
  exact this

/-- The position of an output value in the result buffer. -/
def opos (g : Geo) (K i k p q : Nat) : Nat := i * (K * (g.P * g.Q)) + g.outIdx k p q

theorem outIdx_lt {g : Geo} {K k p q : Nat} (hk : k < K) (hp : p < g.P) (hq : q < g.Q) : g.outIdx k p q < K * (g.P * g.Q) :=
  rm_lt hk (rm_lt hp hq (Nat.le_refl _)) (Nat.le_refl _)

theorem opos_lt {g : Geo} {K i k p q : Nat} (hi : i < g.B) (hk : k < K) (hp : p < g.P) (hq : q < g.Q) :
    opos g K i k p q < g.B * (K * (g.P * g.Q)) := rm_lt hi (outIdx_lt hk hp hq) (Nat.le_refl _)

theorem opos_inj {g : Geo} {K i k p q i' k' p' q' : Nat} (hk : k < K) (hp : p < g.P) (hq : q < g.Q) (hk' : k' < K)
    (hp' : p' < g.P) (hq' : q' < g.Q) (h : opos g K i k p q = opos g K i' k' p' q') : i = i' ∧ k = k' ∧ p = p' ∧ q = q' := by
  obtain ⟨rfl, h1⟩ := rm_inj (outIdx_lt hk hp hq) (outIdx_lt hk' hp' hq') h
  obtain ⟨rfl, h2⟩ := rm_inj (rm_lt hp hq (Nat.le_refl _)) (rm_lt hp' hq' (Nat.le_refl _)) h1
  obtain ⟨rfl, rfl⟩ := rm_inj hq hq' h2
  exact ⟨rfl, rfl, rfl, rfl⟩

theorem sub64_win {n f s p : Nat} (hf : f ≤ n) (hp : p < (n - f) / s + 1) : min f (sub64 n (p * s)) = f := by
  have := win_le hf hp
  unfold sub64
  rw [if_pos (by omega)]
  omega

/-- What one input channel contributes. -/
theorem convChannel_acc [Zero α] [Add α] [Mul α] {g : Geo} {K : Nat} {data filter : DM α} {x f : Mat α} (hl : g.Legal) (hs : g.Small K)
    (hx : Images g data x) (hf : Filters g K filter f) {i k c : Nat} (hi : i < g.B) (hk : k < K) (hc : c < g.C) :
    Acc (Border g) (g.B * (K * (g.P * g.Q))) (· + ·)
      (convChannel data filter g g.P g.Q (g.P * g.Q) (K * (g.P * g.Q)) i k c)
      (fun o => (List.range g.P).flatMap fun p => (List.range g.fh).flatMap fun h => (List.range g.Q).flatMap fun q =>
        (List.range g.fw).flatMap fun w => if o = opos g K i k p q then
          [g.padded x i c (p * g.sh + h) (q * g.sw + w) * g.filt f k c h w] else []) := by
  unfold convChannel
  refine Acc.setup (K := Padded g x i c)
    (pre := fun b => padding b data g.ph g.pw g.W g.H (u32 (i * (g.C * (g.H * g.W)) + c * (g.H * g.W))))
    (m := fun s => forLoop 0 g.P s fun p s =>
      forLoop 0 (min g.fh (sub64 (g.H + 2 * g.ph) (p * g.sh))) s fun h s =>
        forLoop 0 g.Q s fun q s =>
          forLoop 0 (min g.fw (sub64 (g.W + 2 * g.pw) (q * g.sw))) s fun w s =>
            convStep filter (u32 (i * (K * (g.P * g.Q)) + k * (g.P * g.Q) + p * g.Q + q))
              (u32 ((p * g.sh + h) * (g.W + 2 * g.pw) + q * g.sw + w))
              (k * (g.C * g.fh * g.fw) + c * g.fh * g.fw + h * g.fw + w) s)
    (fun b hb => padding_ok hx hs.inp hi hc hb) (fun b hb => hb.border) ?_
  refine Acc.loop0 fun p hp => ?_
  have e1 : min g.fh (sub64 (g.H + 2 * g.ph) (p * g.sh)) = g.fh := sub64_win hl.fh hp
  simp only [e1]
  refine Acc.loop0 fun h hh => Acc.loop0 fun q hq => ?_
  have e2 : min g.fw (sub64 (g.W + 2 * g.pw) (q * g.sw)) = g.fw := sub64_win hl.fw hq
  simp only [e2]
  refine Acc.loop0 fun w hw => ?_
  have hb := opos_lt hi hk hp hq
  have hso := hs.out
  have eo : u32 (i * (K * (g.P * g.Q)) + k * (g.P * g.Q) + p * g.Q + q) = opos g K i k p q := by
    have e : i * (K * (g.P * g.Q)) + k * (g.P * g.Q) + p * g.Q + q = opos g K i k p q := by unfold opos Geo.outIdx; ring
    rw [e]; exact u32_eq (by omega)
  have hwp := win_le hl.fh hp
  have hwq := win_le hl.fw hq
  have hr : p * g.sh + h < g.PH := by omega
  have hc' : q * g.sw + w < g.PW := by omega
  have hlt := rm_lt hr hc' (Nat.le_refl g.PW)
  have hsp := hs.padded
  have ep : u32 ((p * g.sh + h) * (g.W + 2 * g.pw) + q * g.sw + w) = (p * g.sh + h) * g.PW + (q * g.sw + w) := by
    rw [Nat.add_assoc, show g.W + 2 * g.pw = g.PW from rfl]
    exact u32_eq (by omega)
  rw [eo, ep]
  refine Acc.step hb fun s hJ hN => ?_
  unfold convStep
  rw [Buf.read_eq (by omega), Buf.read_eq (b := s.1) (by rw [hJ.1]; exact hlt), hf.read hk hc hh hw, hJ.2 _ _ hr hc']
  simp only [Res.ok_bind]
  rw [Buf.write_eq (by omega)]
  rfl

/-- **C203** -/
theorem conv2DForward_ok [Zero α] [Add α] [Mul α] {g : Geo} {K : Nat} {data filter bias : DM α} {x f b : Mat α} (hl : g.Legal) (hs : g.Small K)
    (hx : Images g data x) (hf : Filters g K filter f) (hb : bias.Is b) (hbd : bias.h.rowSkip = bias.h.numCols) (hbk : K ≤ b.rows * b.cols) :
    Res.Ok (conv2DForward data filter bias g) (fun r => r.resH = g.P ∧ r.resW = g.Q ∧
      ∃ y : Mat α, r.res.Is y ∧ y.rows = g.B ∧ y.cols = K * (g.P * g.Q) ∧
        ∀ i k p q, i < g.B → k < K → p < g.P → q < g.Q →
          y.cell i (g.outIdx k p q) = total (g.convTerms x f i k p q) + flat b k) := by
  unfold conv2DForward
  have hK : filter.h.numRows = K := by rw [hf.is.rows, hf.rows]
  have hPQ : g.P * g.Q < 2 ^ 32 := by
    have h1 : g.P ≤ g.PH := by
      have := Nat.div_le_self (g.PH - g.fh) g.sh
      have := hl.fh0; have := hl.fh
      unfold Geo.P; omega
    have h2 : g.Q ≤ g.PW := by
      have := Nat.div_le_self (g.PW - g.fw) g.sw
      have := hl.fw0; have := hl.fw
      unfold Geo.Q; omega
    exact Nat.lt_of_le_of_lt (Nat.mul_le_mul h1 h2) hs.padded
  rw [getPQ_eq hs.ph hl.fh hl.fh0 hl.sh hs.sh, getPQ_eq hs.pw hl.fw hl.fw0 hl.sw hs.sw, Res.ok_bind, Res.ok_bind]
  change Res.Ok (_ >>= _) _
  simp only [hK, show (g.H + 2 * g.ph - g.fh) / g.sh + 1 = g.P from rfl, show (g.W + 2 * g.pw - g.fw) / g.sw + 1 = g.Q from rfl,
    u32_eq hPQ]
  have main : Acc (Border (α := α) g) (g.B * (K * (g.P * g.Q))) (· + ·)
      (fun s => forLoop 0 g.B s fun i s =>
        forLoop 0 K s fun cn s =>
          forLoop 0 g.C s (fun c s => convChannel data filter g g.P g.Q (g.P * g.Q) (K * (g.P * g.Q)) i cn c s) >>= fun s =>
            forLoop 0 (g.P * g.Q) s fun l s => biasStep bias (i * (K * (g.P * g.Q)) + cn * (g.P * g.Q) + l) cn s)
      (fun o => (List.range g.B).flatMap fun i => (List.range K).flatMap fun k =>
        ((List.range g.C).flatMap fun c => (List.range g.P).flatMap fun p => (List.range g.fh).flatMap fun h => (List.range g.Q).flatMap fun q =>
          (List.range g.fw).flatMap fun w => if o = opos g K i k p q then
            [g.padded x i c (p * g.sh + h) (q * g.sw + w) * g.filt f k c h w] else []) ++
        (List.range (g.P * g.Q)).flatMap fun l => if o = i * (K * (g.P * g.Q)) + k * (g.P * g.Q) + l then [flat b k] else []) := by
    refine Acc.loop0 fun i hi => Acc.loop0 fun k hk => Acc.seq (Acc.loop0 fun c hc => convChannel_acc hl hs hx hf hi hk hc) ?_
    refine Acc.loop0 fun l hlt => ?_
    have hpos : i * (K * (g.P * g.Q)) + k * (g.P * g.Q) + l < g.B * (K * (g.P * g.Q)) := by
      rw [Nat.add_assoc]; exact rm_lt hi (rm_lt hk hlt (Nat.le_refl _)) (Nat.le_refl _)
    refine Acc.step hpos fun s _ hN => ?_
    unfold biasStep
    rw [Buf.read_eq (by omega), rd_flat hb hbd (by omega)]
    simp only [Res.ok_bind]
    rw [Buf.write_eq (by omega)]
    rfl
  have h0 : Border g (⟨1 * ((g.H + 2 * g.ph) * (g.W + 2 * g.pw)), fun _ => 0⟩ : Buf α) := ⟨Nat.one_mul _, fun _ _ _ _ _ => rfl⟩
  refine (main (_, ⟨g.B * (K * (g.P * g.Q)), fun _ => 0⟩) h0 rfl).bind fun s ⟨_, hsz, hdat⟩ => ?_
  refine ⟨_, rfl, rfl, rfl, ⟨g.B, K * (g.P * g.Q), fun r c => s.2.data (r * (K * (g.P * g.Q)) + c)⟩,
    is_new hsz fun _ _ _ _ => rfl, rfl, rfl, ?_⟩
  intro i k p q hi hk hp hq
  show s.2.data (opos g K i k p q) = _
  rw [hdat]
  beta_reduce
  rw [flatMap_single hi (j0 := i) ?_, flatMap_single hk (j0 := k) ?_]
  · rw [List.foldl_append]
    have hlidx : p * g.Q + q < g.P * g.Q := rm_lt hp hq (Nat.le_refl _)
    have e1 : ((List.range (g.P * g.Q)).flatMap fun l => if opos g K i k p q = i * (K * (g.P * g.Q)) + k * (g.P * g.Q) + l then [flat b k] else [])
        = [flat b k] := by
      rw [flatMap_single hlidx]
      · rw [if_pos]; unfold opos Geo.outIdx; omega
      · intro j _ hne; rw [if_neg]; unfold opos Geo.outIdx; omega
    rw [e1]
    show _ + flat b k = _
    congr 1
    show _ = List.foldl _ _ _
    congr 1
    refine flatMap_congr_range fun c hc => ?_
    rw [flatMap_single hp]
    · refine flatMap_congr_range fun h hh => ?_
      rw [flatMap_single hq]
      · simp only [if_true]
        exact List.map_eq_flatMap.symm
      · intro q' hq' hne
        refine flatMap_nil fun w hw => ?_
        rw [if_neg]
        intro e
        exact hne (opos_inj hk hp hq hk hp hq' e).2.2.2.symm
    · intro p' hp' hne
      refine flatMap_nil fun h hh => flatMap_nil fun q' hq' => flatMap_nil fun w hw => ?_
      rw [if_neg]
      intro e
      exact hne (opos_inj hk hp hq hk hp' hq' e).2.2.1.symm
  · intro k' hk' hne
    rw [List.append_eq_nil_iff]
    constructor
    · refine flatMap_nil fun c hc => flatMap_nil fun p' hp' => flatMap_nil fun h hh => flatMap_nil fun q' hq' => flatMap_nil fun w hw => ?_
      rw [if_neg]
      intro e
      exact hne (opos_inj hk hp hq hk' hp' hq' e).2.1.symm
    · refine flatMap_nil fun l hlt => ?_
      rw [if_neg]
      intro e
      have e' : opos g K i k p q = i * (K * (g.P * g.Q)) + (k' * (g.P * g.Q) + l) := by rw [e]; ring
      have := rm_inj (outIdx_lt hk hp hq) (rm_lt hk' hlt (Nat.le_refl _)) e'
      have := rm_inj (rm_lt hp hq (Nat.le_refl _)) hlt this.2
      exact hne this.1.symm
  · intro i' hi' hne
    refine flatMap_nil fun k' hk' => ?_
    rw [List.append_eq_nil_iff]
    constructor
    · refine flatMap_nil fun c hc => flatMap_nil fun p' hp' => flatMap_nil fun h hh => flatMap_nil fun q' hq' => flatMap_nil fun w hw => ?_
      rw [if_neg]
      intro e
      exact hne (opos_inj hk hp hq hk' hp' hq' e).1.symm
    · refine flatMap_nil fun l hlt => ?_
      rw [if_neg]
      intro e
      have e' : opos g K i k p q = i' * (K * (g.P * g.Q)) + (k' * (g.P * g.Q) + l) := by rw [e]; ring
      exact hne (rm_inj (outIdx_lt hk hp hq) (rm_lt hk' hlt (Nat.le_refl _)) e').1.symm

end Verif.Nn
