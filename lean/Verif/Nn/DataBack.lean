import Verif.Nn.FilterBack
/-
  C219-C220: gradient of a convolution with respect to its input.
-/
namespace Verif.Nn
open Verif Verif.Dense

variable {α : Type}

namespace Geo
/-- height and width of the buffer for the spread-out output gradient -/
def MH (g : Geo) : Nat := g.fh + g.PH - 1
def MW (g : Geo) : Nat := g.fw + g.PW - 1
end Geo

/-- The rotated filter. -/
def Rotated (g : Geo) (f : Mat α) (k c : Nat) (b : Buf α) : Prop :=
  b.size = g.fh * g.fw ∧ ∀ a e, a < g.fh → e < g.fw → b.data (a * g.fw + e) = g.filt f k c (g.fh - 1 - a) (g.fw - 1 - e)

theorem rotatedFilter_ok {g : Geo} {K : Nat} {filter : DM α} {f : Mat α} (hf : Filters g K filter f) {k c : Nat} (hk : k < K) (hc : c < g.C)
    {b : Buf α} (hb : b.size = g.fh * g.fw) :
    Res.Ok (rotatedFilter b filter g.fh g.fw (k * (g.C * g.fh * g.fw) + c * g.fh * g.fw)) (Rotated g f k c) := by
  unfold rotatedFilter
  refine forLoop_post (fun n (b' : Buf α) => b'.size = g.fh * g.fw ∧ ∀ j, j < n → b'.data j = f.cell k (c * (g.fh * g.fw) + (g.fh * g.fw - 1 - j)))
    0 _ b (Nat.zero_le _) ⟨hb, fun j hj => absurd hj (Nat.not_lt_zero _)⟩ ?_ ?_
  · intro j b' _ hj ⟨h1, h2⟩
    have hcc : c * (g.fh * g.fw) + (g.fh * g.fw - 1 - j) < f.cols := by
      rw [hf.cols]; exact rm_lt hc (by omega) (Nat.le_refl _)
    have hrd := rd_ok hf.is hf.dense (r := k) (by rw [hf.rows]; exact hk) hcc
    rw [hf.cols] at hrd
    have e : k * (g.C * g.fh * g.fw) + c * g.fh * g.fw + g.fh * g.fw - j - 1 =
        k * (g.C * (g.fh * g.fw)) + (c * (g.fh * g.fw) + (g.fh * g.fw - 1 - j)) := by
      rw [Nat.mul_assoc c, Nat.mul_assoc g.C]; omega
    rw [e, hrd, Res.ok_bind, Buf.write_iff]
    refine ⟨by omega, h1, fun o ho => ?_⟩
    rw [Buf.put_data]
    by_cases eo : o = j
    · rw [if_pos eo, eo]
    · rw [if_neg eo]; exact h2 o (by omega)
  · intro b' ⟨h1, h2⟩
    refine ⟨h1, fun a e ha he => ?_⟩
    rw [h2 _ (rm_lt ha he (Nat.le_refl _))]
    unfold Geo.filt
    obtain ⟨d, hd⟩ : ∃ d, g.fh = a + 1 + d := ⟨g.fh - (a + 1), by omega⟩
    have e1 : g.fh * g.fw = a * g.fw + g.fw + d * g.fw := by rw [hd]; ring
    have e2 : (g.fh - 1 - a) * g.fw = d * g.fw := by rw [show g.fh - 1 - a = d by omega]
    rw [e2, show g.fh * g.fw - 1 - (a * g.fw + e) = d * g.fw + (g.fw - 1 - e) by omega]

/-- The spread-out output gradient with a border of `filter size - 1`. -/
def Loss [AddCommMonoid α] (g : Geo) (y : Mat α) (i k : Nat) (b : Buf α) : Prop :=
  b.size = g.MH * g.MW ∧ ∀ r s, r < g.MH → s < g.MW → b.data (r * g.MW + s) =
    placed g.P g.Q (fun h => g.fh - 1 + h * g.sh) (fun w => g.fw - 1 + w * g.sw) (fun p q => y.cell i (g.outIdx k p q)) r s

theorem lossGradientMatrix_ok [AddCommMonoid α] {g : Geo} {K : Nat} (hl : g.Legal) (hs : g.Small K) (hm : g.MH * g.MW < 2 ^ 32) {output : DM α} {y : Mat α}
    (hy : Grads g K output y) (hP : g.P = g.fh) (hQ : g.Q = g.fw) {i k : Nat} (hi : i < g.B) (hk : k < K) {b : Buf α} (hb : b.size = g.MH * g.MW) :
    Res.Ok (lossGradientMatrix b output g.fh g.fw g.MH g.MW g.sh g.sw (u32 (i * (K * g.P * g.Q) + k * u32 (g.P * g.Q)))) (Loss g y i k) := by
  unfold lossGradientMatrix
  refine (zero_loop hb).bind fun b1 ⟨h1, h2⟩ => ?_
  have hfh := hl.fh0; have hfw := hl.fw0; have hsh := hl.sh; have hsw := hl.sw; have hfh' := hl.fh; have hfw' := hl.fw
  have hMH : g.MH = g.fh + g.PH - 1 := rfl
  have hMW : g.MW = g.fw + g.PW - 1 := rfl
  have hA : ∀ h, h < g.P → g.fh - 1 + h * g.sh < g.MH := fun h hh => by have := win_le hl.fh hh; omega
  have hB : ∀ w, w < g.Q → g.fw - 1 + w * g.sw < g.MW := fun h hh => by have := win_le hl.fw hh; omega
  conv => lhs; rw [show (forLoop 0 g.fh b1 fun h b => forLoop 0 g.fw b fun w b => do
      let v ← rd output (u32 (u32 (i * (K * g.P * g.Q) + k * u32 (g.P * g.Q)) + (h * g.fw + w)))
      b.write (u32 ((g.fh - 1) * g.MW + g.fw - 1) + h * g.sh * g.MW + w * g.sw) v) =
    (forLoop 0 g.P b1 fun h b => forLoop 0 g.Q b fun w b => do
      let v ← rd output (u32 (u32 (i * (K * g.P * g.Q) + k * u32 (g.P * g.Q)) + (h * g.Q + w)))
      b.write (u32 ((g.fh - 1) * g.MW + g.fw - 1) + h * g.sh * g.MW + w * g.sw) v) from by rw [hP, hQ]]
  refine place_ok (A := fun h => g.fh - 1 + h * g.sh) (B := fun w => g.fw - 1 + w * g.sw) (t := fun p q => y.cell i (g.outIdx k p q))
    (fun a b e => Nat.eq_of_mul_eq_mul_right hsh (by simpa using e)) (fun a b e => Nat.eq_of_mul_eq_mul_right hsw (by simpa using e)) hB
    (fun h w hh hw => rm_lt (hA h hh) (hB w hw) (Nat.le_refl _)) ?_ h1 h2
  intro h w hh hw b' hb'
  have h0 := rm_lt (hA h hh) (hB w hw) (Nat.le_refl g.MW)
  have e0 : (g.fh - 1 + h * g.sh) * g.MW = (g.fh - 1) * g.MW + h * g.sh * g.MW := by ring
  have e1 : u32 ((g.fh - 1) * g.MW + g.fw - 1) + h * g.sh * g.MW + w * g.sw = (g.fh - 1 + h * g.sh) * g.MW + (g.fw - 1 + w * g.sw) := by
    rw [u32_eq (by omega), e0]; omega
  rw [off_grad hl hs hi hk hh hw, hy.read hi hk hh hw, Res.ok_bind, e1, Buf.write_eq]
  rw [hb']; exact h0

/-- Collapsing the sum over the rotated filter. -/
theorem sum_rotated [NonUnitalNonAssocSemiring α] {fh fw P Q ρ σ sh sw : Nat} (t F : Nat → Nat → α) (hfh : 0 < fh) (hfw : 0 < fw) :
    ∑ a ∈ Finset.range fh, ∑ e ∈ Finset.range fw,
      placed P Q (fun h => fh - 1 + h * sh) (fun w => fw - 1 + w * sw) t (ρ + a) (σ + e) * F (fh - 1 - a) (fw - 1 - e) =
    ∑ p ∈ Finset.range P, ∑ q ∈ Finset.range Q,
      if p * sh ≤ ρ ∧ ρ < p * sh + fh ∧ q * sw ≤ σ ∧ σ < q * sw + fw then t p q * F (ρ - p * sh) (σ - q * sw) else 0 := by
  have e1 : ∀ a e, placed P Q (fun h => fh - 1 + h * sh) (fun w => fw - 1 + w * sw) t (ρ + a) (σ + e) * F (fh - 1 - a) (fw - 1 - e) =
      ∑ p ∈ Finset.range P, ∑ q ∈ Finset.range Q, if ρ + a = fh - 1 + p * sh ∧ σ + e = fw - 1 + q * sw then t p q * F (fh - 1 - a) (fw - 1 - e) else 0 := by
    intro a e
    unfold placed
    rw [Finset.sum_mul]
    refine Finset.sum_congr rfl fun h _ => ?_
    rw [Finset.sum_mul]
    refine Finset.sum_congr rfl fun w _ => ?_
    split
    · rfl
    · exact zero_mul _
  simp only [e1]
  have e2 : ∀ a, (∑ e ∈ Finset.range fw, ∑ p ∈ Finset.range P, ∑ q ∈ Finset.range Q,
        if ρ + a = fh - 1 + p * sh ∧ σ + e = fw - 1 + q * sw then t p q * F (fh - 1 - a) (fw - 1 - e) else 0) =
      ∑ p ∈ Finset.range P, ∑ q ∈ Finset.range Q, ∑ e ∈ Finset.range fw,
        if ρ + a = fh - 1 + p * sh ∧ σ + e = fw - 1 + q * sw then t p q * F (fh - 1 - a) (fw - 1 - e) else 0 := by
    intro a
    rw [Finset.sum_comm]
    exact Finset.sum_congr rfl fun h _ => Finset.sum_comm
  simp only [e2]
  rw [Finset.sum_comm]
  refine Finset.sum_congr rfl fun p _ => ?_
  rw [Finset.sum_comm]
  refine Finset.sum_congr rfl fun q _ => ?_
  by_cases hcov : p * sh ≤ ρ ∧ ρ < p * sh + fh ∧ q * sw ≤ σ ∧ σ < q * sw + fw
  · rw [if_pos hcov, Finset.sum_eq_single (fh - 1 + p * sh - ρ), Finset.sum_eq_single (fw - 1 + q * sw - σ)]
    · rw [if_pos (by omega), show fh - 1 - (fh - 1 + p * sh - ρ) = ρ - p * sh by omega, show fw - 1 - (fw - 1 + q * sw - σ) = σ - q * sw by omega]
    · intro e _ hne; rw [if_neg (by omega)]
    · intro hn; exact absurd (Finset.mem_range.2 (by omega)) hn
    · intro a _ hne
      exact Finset.sum_eq_zero fun e _ => by rw [if_neg (by omega)]
    · intro hn; exact absurd (Finset.mem_range.2 (by omega)) hn
  · rw [if_neg hcov]
    refine Finset.sum_eq_zero fun a ha => Finset.sum_eq_zero fun e he => ?_
    rw [Finset.mem_range] at ha he
    rw [if_neg (by omega)]

/-- **C219**: `conv2d_backward_data`, when the output has the size of a filter and the padding is the same on all sides, gives for every pixel the sum, over the
output channels and the window positions that cover the pixel, of the gradient of the output times the weight that was multiplied with the pixel. -/
theorem C219_conv2d_backward_data [NonUnitalNonAssocSemiring α] (g : Geo) (K : Nat) (filter output : DM α) (f y : Mat α) (hl : g.Legal) (hs : g.Small K)
    (hm : g.MH * g.MW < 2 ^ 32) (hP : g.P = g.fh) (hQ : g.Q = g.fw) (hpad : g.ph = g.pw) (hf : Filters g K filter f) (hy : Grads g K output y) :
    Res.Ok (conv2DBackwardData filter output g K) (fun d => ∃ z, d.Is z ∧ z.rows = g.B ∧ z.cols = g.C * (g.H * g.W) ∧
      ∀ i c r s, i < g.B → c < g.C → r < g.H → s < g.W → g.img z i c r s =
        ∑ k ∈ Finset.range K, ∑ p ∈ Finset.range g.P, ∑ q ∈ Finset.range g.Q,
          if g.Covers p q r s then y.cell i (g.outIdx k p q) * g.filt f k c (r + g.ph - p * g.sh) (s + g.pw - q * g.sw) else 0) := by
  unfold conv2DBackwardData
  rw [getPQ_eq hs.ph hl.fh hl.fh0 hl.sh hs.sh, getPQ_eq hs.pw hl.fw hl.fw0 hl.sw hs.sw, Res.ok_bind, Res.ok_bind]
  have hfh := hl.fh0; have hfw := hl.fw0; have hfh' := hl.fh; have hfw' := hl.fw
  have hPH : g.PH = g.H + 2 * g.ph := rfl
  have hPW : g.PW = g.W + 2 * g.pw := rfl
  have hMH : g.MH = g.fh + g.PH - 1 := rfl
  have hMW : g.MW = g.fw + g.PW - 1 := rfl
  dsimp only
  rw [show (g.H + 2 * g.ph - g.fh) / g.sh + 1 = g.P from rfl, show (g.W + 2 * g.pw - g.fw) / g.sw + 1 = g.Q from rfl,
    show g.fh + (g.H + 2 * g.ph) - 1 = g.MH from rfl, show g.fw + (g.W + 2 * g.pw) - 1 = g.MW from rfl]
  have main : Acc (fun b : Buf α × Buf α => b.1.size = g.fh * g.fw ∧ b.2.size = g.MH * g.MW) (g.B * (g.C * (g.H * g.W))) (· + ·)
      (fun s => forLoop 0 g.B s fun i s => forLoop 0 g.C s fun ci s => forLoop 0 K s fun co s =>
        rotatedFilter s.1.1 filter g.fh g.fw (co * (g.C * g.fh * g.fw) + ci * g.fh * g.fw) >>= fun rot =>
          lossGradientMatrix s.1.2 output g.fh g.fw g.MH g.MW g.sh g.sw (u32 (i * (K * g.P * g.Q) + co * u32 (g.P * g.Q))) >>= fun loss =>
            dataScatter g g.MW i ci ((rot, loss), s.2))
      (fun o => (List.range g.B).flatMap fun i => (List.range g.C).flatMap fun c => (List.range K).flatMap fun k =>
        (List.range g.H).flatMap fun r => (List.range g.fh).flatMap fun a => (List.range g.W).flatMap fun s =>
          (List.range g.fw).flatMap fun e => if o = ipos g i c r s then
            [placed g.P g.Q (fun h => g.fh - 1 + h * g.sh) (fun w => g.fw - 1 + w * g.sw) (fun p q => y.cell i (g.outIdx k p q)) (r + g.ph + a) (s + g.pw + e) *
              g.filt f k c (g.fh - 1 - a) (g.fw - 1 - e)] else []) := by
    refine Acc.loop0 fun i hi => Acc.loop0 fun c hc => Acc.loop0 fun k hk => ?_
    have inner : Acc (fun b : Buf α × Buf α => Rotated g f k c b.1 ∧ Loss g y i k b.2) (g.B * (g.C * (g.H * g.W))) (· + ·)
        (dataScatter g g.MW i c)
        (fun o => (List.range g.H).flatMap fun r => (List.range g.fh).flatMap fun a => (List.range g.W).flatMap fun s =>
          (List.range g.fw).flatMap fun e => if o = ipos g i c r s then
            [placed g.P g.Q (fun h => g.fh - 1 + h * g.sh) (fun w => g.fw - 1 + w * g.sw) (fun p q => y.cell i (g.outIdx k p q)) (r + g.ph + a) (s + g.pw + e) *
              g.filt f k c (g.fh - 1 - a) (g.fw - 1 - e)] else []) := by
      have l1 : g.ph + g.H - g.ph = g.H := by omega
      have l2 : g.ph + g.W - g.pw = g.W := by omega
      have : Acc (fun b : Buf α × Buf α => Rotated g f k c b.1 ∧ Loss g y i k b.2) (g.B * (g.C * (g.H * g.W))) (· + ·)
        (dataScatter g g.MW i c)
        (fun o => (List.range (g.ph + g.H - g.ph)).flatMap fun r => (List.range g.fh).flatMap fun a => (List.range (g.ph + g.W - g.pw)).flatMap fun s =>
          (List.range g.fw).flatMap fun e => if o = ipos g i c (g.ph + r - g.ph) (g.pw + s - g.pw) then
            [placed g.P g.Q (fun h => g.fh - 1 + h * g.sh) (fun w => g.fw - 1 + w * g.sw) (fun p q => y.cell i (g.outIdx k p q)) (g.ph + r + a) (g.pw + s + e) *
              g.filt f k c (g.fh - 1 - a) (g.fw - 1 - e)] else []) := by
        unfold dataScatter
        refine Acc.loop (L := fun ih o => (List.range g.fh).flatMap fun a => (List.range (g.ph + g.W - g.pw)).flatMap fun s =>
            (List.range g.fw).flatMap fun e => if o = ipos g i c (ih - g.ph) (g.pw + s - g.pw) then
              [placed g.P g.Q (fun h => g.fh - 1 + h * g.sh) (fun w => g.fw - 1 + w * g.sw) (fun p q => y.cell i (g.outIdx k p q)) (ih + a) (g.pw + s + e) *
                g.filt f k c (g.fh - 1 - a) (g.fw - 1 - e)] else []) fun ih hlo hhi => ?_
        refine Acc.loop0 fun a ha => ?_
        refine Acc.loop (L := fun iw o => (List.range g.fw).flatMap fun e => if o = ipos g i c (ih - g.ph) (iw - g.pw) then
              [placed g.P g.Q (fun h => g.fh - 1 + h * g.sh) (fun w => g.fw - 1 + w * g.sw) (fun p q => y.cell i (g.outIdx k p q)) (ih + a) (iw + e) *
                g.filt f k c (g.fh - 1 - a) (g.fw - 1 - e)] else []) fun iw hlo2 hhi2 => ?_
        refine Acc.loop0 fun e he => ?_
        have hr : ih - g.ph < g.H := by omega
        have hcl : iw - g.pw < g.W := by omega
        have hb := ipos_lt hi hc hr hcl
        have hin := hs.inp
        have ebase : i * (g.C * (g.H * g.W)) + c * (g.H * g.W) + ((ih - g.ph) * g.W + (iw - g.pw)) = ipos g i c (ih - g.ph) (iw - g.pw) := by
          unfold ipos; ring
        have e1 : u32 (i * (g.C * (g.H * g.W)) + c * (g.H * g.W)) + (ih - g.ph) * g.W + iw - g.pw = ipos g i c (ih - g.ph) (iw - g.pw) := by
          rw [u32_eq (by omega), ← ebase]; omega
        have hm1 : ih + a < g.MH := by omega
        have hm2 : iw + e < g.MW := by omega
        have hlt := rm_lt hm1 hm2 (Nat.le_refl g.MW)
        have e2 : u32 ((ih + a) * g.MW + iw + e) = (ih + a) * g.MW + (iw + e) := by rw [Nat.add_assoc]; exact u32_eq (by omega)
        have hlt2 := rm_lt ha he (Nat.le_refl g.fw)
        refine Acc.step hb fun s hJ hN => ?_
        obtain ⟨hR, hL⟩ := hJ
        dsimp only
        rw [e1, e2, Buf.read_eq (b := s.2) (by omega), Buf.read_eq (b := s.1.2) (by rw [hL.1]; exact hlt), Buf.read_eq (b := s.1.1) (by rw [hR.1]; exact hlt2),
          hL.2 _ _ hm1 hm2, hR.2 _ _ ha he]
        simp only [Res.ok_bind]
        rw [Buf.write_eq (by omega)]
        rfl
      refine this.congr fun o => ?_
      rw [l1, l2]
      refine flatMap_congr_range fun r _ => flatMap_congr_range fun a _ => flatMap_congr_range fun s _ => flatMap_congr_range fun e _ => ?_
      rw [show g.ph + r - g.ph = r by omega, show g.pw + s - g.pw = s by omega, Nat.add_comm g.ph, Nat.add_comm g.pw]
    intro s hJ hN
    refine (rotatedFilter_ok hf hk hc hJ.1).bind fun rot hrot => ?_
    refine (lossGradientMatrix_ok hl hs hm hy hP hQ hi hk hJ.2).bind fun loss hloss => ?_
    exact (inner ((rot, loss), s.2) ⟨hrot, hloss⟩ hN).mono fun s' ⟨a, b, d⟩ => ⟨⟨a.1.1, a.2.1⟩, b, d⟩
  have hsz0 : g.B * (g.C * g.H * g.W) = g.B * (g.C * (g.H * g.W)) := by ring
  refine (main ((⟨1 * (g.fh * g.fw), fun _ => 0⟩, ⟨1 * (g.MH * g.MW), fun _ => 0⟩), ⟨g.B * (g.C * g.H * g.W), fun _ => 0⟩)
    ⟨Nat.one_mul _, Nat.one_mul _⟩ hsz0).bind fun s ⟨_, hsz, hdat⟩ => ?_
  refine ⟨_, rfl, ⟨g.B, g.C * (g.H * g.W), fun r c => s.2.data (r * (g.C * (g.H * g.W)) + c)⟩, ?_, rfl, rfl, ?_⟩
  · rw [Nat.mul_assoc g.C]; exact is_new hsz fun _ _ _ _ => rfl
  intro i c r t hi hc hr ht
  show s.2.data (ipos g i c r t) = _
  rw [hdat]
  beta_reduce
  rw [flatMap_single hi, flatMap_single hc]
  · show total _ = _
    rw [total_flatMap]
    refine Finset.sum_congr rfl fun k hk => ?_
    have e : ((List.range g.H).flatMap fun r' => (List.range g.fh).flatMap fun a => (List.range g.W).flatMap fun s =>
          (List.range g.fw).flatMap fun e => if ipos g i c r t = ipos g i c r' s then
            [placed g.P g.Q (fun h => g.fh - 1 + h * g.sh) (fun w => g.fw - 1 + w * g.sw) (fun p q => y.cell i (g.outIdx k p q)) (r' + g.ph + a) (s + g.pw + e) *
              g.filt f k c (g.fh - 1 - a) (g.fw - 1 - e)] else []) =
        (List.range g.fh).flatMap fun a => (List.range g.fw).flatMap fun e =>
          [placed g.P g.Q (fun h => g.fh - 1 + h * g.sh) (fun w => g.fw - 1 + w * g.sw) (fun p q => y.cell i (g.outIdx k p q)) (r + g.ph + a) (t + g.pw + e) *
              g.filt f k c (g.fh - 1 - a) (g.fw - 1 - e)] := by
      rw [flatMap_single hr]
      · refine flatMap_congr_range fun a ha => ?_
        rw [flatMap_single ht]
        · simp only [if_true]
        · intro s hs' hne
          refine flatMap_nil fun e _ => ?_
          rw [if_neg]
          intro e; exact hne (ipos_inj hc hr ht hc hr hs' e).2.2.2.symm
      · intro r' hr' hne
        refine flatMap_nil fun a _ => flatMap_nil fun s hs' => flatMap_nil fun e _ => ?_
        rw [if_neg]
        intro e; exact hne (ipos_inj hc hr ht hc hr' hs' e).2.2.1.symm
    rw [e, total_flatMap]
    simp only [total_flatMap, total_single]
    rw [sum_rotated (t := fun p q => y.cell i (g.outIdx k p q)) (F := fun a b => g.filt f k c a b) hfh hfw]
    rfl
  · intro c' hc' hne
    refine flatMap_nil fun k _ => flatMap_nil fun r' hr' => flatMap_nil fun a _ => flatMap_nil fun s hs' => flatMap_nil fun e _ => ?_
    rw [if_neg]
    intro e; exact hne (ipos_inj hc hr ht hc' hr' hs' e).2.1.symm
  · intro i' hi' hne
    refine flatMap_nil fun c' hc' => flatMap_nil fun k _ => flatMap_nil fun r' hr' => flatMap_nil fun a _ => flatMap_nil fun s hs' => flatMap_nil fun e _ => ?_
    rw [if_neg]
    intro e; exact hne (ipos_inj hc hr ht hc' hr' hs' e).1.symm

end Verif.Nn
