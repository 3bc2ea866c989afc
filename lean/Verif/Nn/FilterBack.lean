import Verif.Nn.Scatter
import Mathlib.Algebra.BigOperators.Group.Finset.Sigma
/-
  C217-C218: gradient of a convolution with respect to its filters.
-/
namespace Verif.Nn
open Verif Verif.Dense

variable {α : Type}

/-- A sum over the large table only picks up the placed values. -/
theorem sum_placed [NonUnitalNonAssocSemiring α] {N M P Q : Nat} {A B : Nat → Nat} {t : Nat → Nat → α} (F : Nat → Nat → α)
    (hA : ∀ h, h < P → A h < N) (hB : ∀ w, w < Q → B w < M) :
    ∑ a ∈ Finset.range N, ∑ b ∈ Finset.range M, F a b * placed P Q A B t a b =
      ∑ h ∈ Finset.range P, ∑ w ∈ Finset.range Q, F (A h) (B w) * t h w := by
  have e1 : ∀ a b, F a b * placed P Q A B t a b =
      ∑ h ∈ Finset.range P, ∑ w ∈ Finset.range Q, if a = A h ∧ b = B w then F a b * t h w else 0 := by
    intro a b
    unfold placed
    rw [Finset.mul_sum]
    refine Finset.sum_congr rfl fun h _ => ?_
    rw [Finset.mul_sum]
    refine Finset.sum_congr rfl fun w _ => ?_
    split
    · rfl
    · exact mul_zero _
  simp only [e1]
  have e2 : ∀ a, (∑ b ∈ Finset.range M, ∑ h ∈ Finset.range P, ∑ w ∈ Finset.range Q, if a = A h ∧ b = B w then F a b * t h w else 0) =
      ∑ h ∈ Finset.range P, ∑ w ∈ Finset.range Q, ∑ b ∈ Finset.range M, if a = A h ∧ b = B w then F a b * t h w else 0 := by
    intro a
    rw [Finset.sum_comm]
    exact Finset.sum_congr rfl fun h _ => Finset.sum_comm
  simp only [e2]
  rw [Finset.sum_comm]
  refine Finset.sum_congr rfl fun h hh => ?_
  rw [Finset.sum_comm]
  refine Finset.sum_congr rfl fun w hw => ?_
  rw [Finset.sum_eq_single (A h), Finset.sum_eq_single (B w)]
  · rw [if_pos ⟨rfl, rfl⟩]
  · intro b _ hne; rw [if_neg fun e => hne e.2]
  · intro hn; exact absurd (Finset.mem_range.2 (hB w (Finset.mem_range.1 hw))) hn
  · intro a _ hne
    exact Finset.sum_eq_zero fun b _ => by rw [if_neg fun e => hne e.1]
  · intro hn; exact absurd (Finset.mem_range.2 (hA h (Finset.mem_range.1 hh))) hn

/-- The position of weight `(p, q)` of input channel `c` of filter `k`. -/
def fpos (g : Geo) (k c p q : Nat) : Nat := k * (g.C * (g.fh * g.fw)) + (c * (g.fh * g.fw) + (p * g.fw + q))

theorem fpos_lt {g : Geo} {K k c p q : Nat} (hk : k < K) (hc : c < g.C) (hp : p < g.fh) (hq : q < g.fw) :
    fpos g k c p q < K * (g.C * (g.fh * g.fw)) :=
  rm_lt hk (rm_lt hc (rm_lt hp hq (Nat.le_refl _)) (Nat.le_refl _)) (Nat.le_refl _)

theorem fpos_inj {g : Geo} {k c p q k' c' p' q' : Nat} (hc : c < g.C) (hp : p < g.fh) (hq : q < g.fw) (hc' : c' < g.C)
    (hp' : p' < g.fh) (hq' : q' < g.fw) (h : fpos g k c p q = fpos g k' c' p' q') : k = k' ∧ c = c' ∧ p = p' ∧ q = q' := by
  obtain ⟨rfl, h1⟩ := rm_inj (rm_lt hc (rm_lt hp hq (Nat.le_refl _)) (Nat.le_refl _)) (rm_lt hc' (rm_lt hp' hq' (Nat.le_refl _)) (Nat.le_refl _)) h
  obtain ⟨rfl, h2⟩ := rm_inj (rm_lt hp hq (Nat.le_refl _)) (rm_lt hp' hq' (Nat.le_refl _)) h1
  obtain ⟨rfl, rfl⟩ := rm_inj hq hq' h2
  exact ⟨rfl, rfl, rfl, rfl⟩

/-- The gradient matrix holds the values of the output gradient at distances given by the strides. -/
def Spread [AddCommMonoid α] (g : Geo) (y : Mat α) (i k : Nat) (b : Buf α) : Prop :=
  b.size = (g.PH - (g.fh - 1)) * (g.PW - (g.fw - 1)) ∧
  ∀ r s, r < g.PH - (g.fh - 1) → s < g.PW - (g.fw - 1) → b.data (r * (g.PW - (g.fw - 1)) + s) =
    placed g.P g.Q (· * g.sh) (· * g.sw) (fun p q => y.cell i (g.outIdx k p q)) r s

theorem PQ_lt {g : Geo} {K : Nat} (hl : g.Legal) (hs : g.Small K) : g.P * g.Q < 2 ^ 32 := by
  have h1 : g.P ≤ g.PH := by
    have := Nat.div_le_self (g.PH - g.fh) g.sh
    have := hl.fh0; have := hl.fh
    unfold Geo.P; omega
  have h2 : g.Q ≤ g.PW := by
    have := Nat.div_le_self (g.PW - g.fw) g.sw
    have := hl.fw0; have := hl.fw
    unfold Geo.Q; omega
  exact Nat.lt_of_le_of_lt (Nat.mul_le_mul h1 h2) hs.padded

theorem off_grad {g : Geo} {K : Nat} (hl : g.Legal) (hs : g.Small K) {i k p q : Nat} (hi : i < g.B) (hk : k < K) (hp : p < g.P) (hq : q < g.Q) :
    u32 (u32 (i * (K * g.P * g.Q) + k * u32 (g.P * g.Q)) + (p * g.Q + q)) = i * (K * (g.P * g.Q)) + g.outIdx k p q := by
  have hb := opos_lt hi hk hp hq
  have hso := hs.out
  have e : i * (K * (g.P * g.Q)) + k * (g.P * g.Q) + (p * g.Q + q) = opos g K i k p q := by unfold opos Geo.outIdx; ring
  rw [u32_eq (PQ_lt hl hs), Nat.mul_assoc K, u32_eq (n := i * (K * (g.P * g.Q)) + k * (g.P * g.Q)) (by omega), e, u32_eq (by omega)]
  rfl

theorem gradientMatrix_ok [AddCommMonoid α] {g : Geo} {K : Nat} (hl : g.Legal) (hs : g.Small K) {output : DM α} {y : Mat α} (hy : Grads g K output y)
    {i k : Nat} (hi : i < g.B) (hk : k < K) {b : Buf α} (hb : b.size = (g.PH - (g.fh - 1)) * (g.PW - (g.fw - 1))) :
    Res.Ok (gradientMatrix b output g.P g.Q (g.PH - (g.fh - 1)) (g.PW - (g.fw - 1)) g.sh g.sw (u32 (i * (K * g.P * g.Q) + k * u32 (g.P * g.Q))))
      (Spread g y i k) := by
  unfold gradientMatrix
  refine (zero_loop hb).bind fun b1 ⟨h1, h2⟩ => ?_
  have hfh := hl.fh0; have hfw := hl.fw0; have hsh := hl.sh; have hsw := hl.sw
  have hA : ∀ h, h < g.P → h * g.sh < g.PH - (g.fh - 1) := fun h hh => by have := win_le hl.fh hh; omega
  have hB : ∀ w, w < g.Q → w * g.sw < g.PW - (g.fw - 1) := fun h hh => by have := win_le hl.fw hh; omega
  refine place_ok (A := (· * g.sh)) (B := (· * g.sw)) (t := fun p q => y.cell i (g.outIdx k p q))
    (fun a b e => Nat.eq_of_mul_eq_mul_right hsh e) (fun a b e => Nat.eq_of_mul_eq_mul_right hsw e) hB
    (fun h w hh hw => rm_lt (hA h hh) (hB w hw) (Nat.le_refl _)) ?_ h1 h2
  intro h w hh hw b' hb'
  rw [off_grad hl hs hi hk hh hw, hy.read hi hk hh hw, Res.ok_bind, Buf.write_eq]
  rw [hb']; exact rm_lt (hA h hh) (hB w hw) (Nat.le_refl _)

/-- **C217**: `conv2d_backward_filter` with square filters (or filters of height 1) gives, for every weight, the sum over all images and output positions of the pixel the weight was
multiplied with times the gradient of the output there. -/
theorem C217_conv2d_backward_filter [NonUnitalNonAssocSemiring α] (g : Geo) (K : Nat) (input output : DM α) (x y : Mat α) (hl : g.Legal) (hs : g.Small K)
    (hsq : g.fh = g.fw ∨ g.fh = 1) (hx : Images g input x) (hy : Grads g K output y) :
    Res.Ok (conv2DBackwardFilter input output g K) (fun d => ∃ z, d.Is z ∧ z.rows = K ∧ z.cols = g.C * (g.fh * g.fw) ∧
      ∀ k c p q, k < K → c < g.C → p < g.fh → q < g.fw → g.filt z k c p q =
        ∑ i ∈ Finset.range g.B, ∑ h ∈ Finset.range g.P, ∑ w ∈ Finset.range g.Q,
          g.padded x i c (h * g.sh + p) (w * g.sw + q) * y.cell i (g.outIdx k h w)) := by
  unfold conv2DBackwardFilter
  rw [getPQ_eq hs.ph hl.fh hl.fh0 hl.sh hs.sh, getPQ_eq hs.pw hl.fw hl.fw0 hl.sw hs.sw, Res.ok_bind, Res.ok_bind]
  have hfh := hl.fh0; have hfw := hl.fw0; have hfh' := hl.fh; have hfw' := hl.fw
  dsimp only
  rw [show (g.H + 2 * g.ph - g.fh) / g.sh + 1 = g.P from rfl, show (g.W + 2 * g.pw - g.fw) / g.sw + 1 = g.Q from rfl,
    show g.H + 2 * g.ph = g.PH from rfl, show g.W + 2 * g.pw = g.PW from rfl]
  have main : Acc (fun b : Buf α × Buf α => Border g b.1 ∧ b.2.size = (g.PH - (g.fh - 1)) * (g.PW - (g.fw - 1))) (K * (g.C * (g.fh * g.fw))) (· + ·)
      (fun s => forLoop 0 K s fun f s => forLoop 0 g.C s fun c s => forLoop 0 g.B s fun i s =>
        padding s.1.1 input g.ph g.pw g.W g.H (u32 (i * (g.C * (g.H * g.W)) + c * (g.H * g.W))) >>= fun pad =>
          gradientMatrix s.1.2 output g.P g.Q (g.PH - (g.fh - 1)) (g.PW - (g.fw - 1)) g.sh g.sw (u32 (i * (K * g.P * g.Q) + f * u32 (g.P * g.Q))) >>= fun grad =>
            filterScatter g (g.PH - (g.fh - 1)) (g.PW - (g.fw - 1)) f c ((pad, grad), s.2))
      (fun o => (List.range K).flatMap fun k => (List.range g.C).flatMap fun c => (List.range g.B).flatMap fun i =>
        (List.range g.fh).flatMap fun p => (List.range g.fw).flatMap fun q => (List.range (g.PH - (g.fh - 1))).flatMap fun h =>
          (List.range (g.PW - (g.fw - 1))).flatMap fun w => if o = fpos g k c p q then
            [g.padded x i c (p + h) (q + w) * placed g.P g.Q (· * g.sh) (· * g.sw) (fun p q => y.cell i (g.outIdx k p q)) h w] else []) := by
    refine Acc.loop0 fun k hk => Acc.loop0 fun c hc => Acc.loop0 fun i hi => ?_
    have inner : Acc (fun b : Buf α × Buf α => Padded g x i c b.1 ∧ Spread g y i k b.2) (K * (g.C * (g.fh * g.fw))) (· + ·)
        (filterScatter g (g.PH - (g.fh - 1)) (g.PW - (g.fw - 1)) k c)
        (fun o => (List.range g.fh).flatMap fun p => (List.range g.fw).flatMap fun q => (List.range (g.PH - (g.fh - 1))).flatMap fun h =>
          (List.range (g.PW - (g.fw - 1))).flatMap fun w => if o = fpos g k c p q then
            [g.padded x i c (p + h) (q + w) * placed g.P g.Q (· * g.sh) (· * g.sw) (fun p q => y.cell i (g.outIdx k p q)) h w] else []) := by
      unfold filterScatter
      refine Acc.loop0 fun p hp => Acc.loop0 fun q hq => Acc.loop0 fun h hh => Acc.loop0 fun w hw => ?_
      have hb := fpos_lt (g := g) hk hc hp hq
      have e1 : k * (g.C * (g.fh * g.fw)) + c * (g.fh * g.fw) + p * g.fh + q = fpos g k c p q := by
        have : p * g.fh = p * g.fw := by
          rcases hsq with h | h
          · rw [h]
          · rw [show p = 0 by omega, Nat.zero_mul, Nat.zero_mul]
        unfold fpos; rw [this]; ring
      have hr : p + h < g.PH := by omega
      have hcl : q + w < g.PW := by omega
      have e2 : (p + h) * (g.W + 2 * g.pw) + q + w = (p + h) * g.PW + (q + w) := by
        rw [Nat.add_assoc, show g.W + 2 * g.pw = g.PW from rfl]
      have hlt := rm_lt hr hcl (Nat.le_refl g.PW)
      have hlt2 := rm_lt hh hw (Nat.le_refl (g.PW - (g.fw - 1)))
      refine Acc.step hb fun s hJ hN => ?_
      obtain ⟨hP, hG⟩ := hJ
      dsimp only
      rw [e1, e2, Buf.read_eq (b := s.2) (by omega), Buf.read_eq (b := s.1.1) (by rw [hP.1]; exact hlt), Buf.read_eq (b := s.1.2) (by rw [hG.1]; exact hlt2),
        hP.2 _ _ hr hcl, hG.2 _ _ hh hw]
      simp only [Res.ok_bind]
      rw [Buf.write_eq (by omega)]
      rfl
    intro s hJ hN
    refine (padding_ok hx hs.inp hi hc hJ.1).bind fun pad hpad => ?_
    refine (gradientMatrix_ok hl hs hy hi hk hJ.2).bind fun grad hgrad => ?_
    exact (inner ((pad, grad), s.2) ⟨hpad, hgrad⟩ hN).mono fun s' ⟨a, b, d⟩ => ⟨⟨a.1.border, a.2.1⟩, b, d⟩
  have h0 : Border g (⟨1 * (g.PH * g.PW), fun _ => 0⟩ : Buf α) := ⟨Nat.one_mul _, fun _ _ _ _ _ => rfl⟩
  have hsz0 : K * (g.C * g.fh * g.fw) = K * (g.C * (g.fh * g.fw)) := by ring
  refine (main ((_, ⟨1 * ((g.PH - (g.fh - 1)) * (g.PW - (g.fw - 1))), fun _ => 0⟩), ⟨K * (g.C * g.fh * g.fw), fun _ => 0⟩) ⟨h0, Nat.one_mul _⟩ hsz0).bind
    fun s ⟨_, hsz, hdat⟩ => ?_
  refine ⟨_, rfl, ⟨K, g.C * (g.fh * g.fw), fun r c => s.2.data (r * (g.C * (g.fh * g.fw)) + c)⟩, ?_, rfl, rfl, ?_⟩
  · rw [Nat.mul_assoc]; exact is_new hsz fun _ _ _ _ => rfl
  intro k c p q hk hc hp hq
  show s.2.data (fpos g k c p q) = _
  rw [hdat]
  beta_reduce
  rw [flatMap_single hk, flatMap_single hc]
  · show total _ = _
    rw [total_flatMap]
    refine Finset.sum_congr rfl fun i hi => ?_
    have e : ((List.range g.fh).flatMap fun p' => (List.range g.fw).flatMap fun q' => (List.range (g.PH - (g.fh - 1))).flatMap fun h =>
          (List.range (g.PW - (g.fw - 1))).flatMap fun w => if fpos g k c p q = fpos g k c p' q' then
            [g.padded x i c (p' + h) (q' + w) * placed g.P g.Q (· * g.sh) (· * g.sw) (fun p q => y.cell i (g.outIdx k p q)) h w] else []) =
        (List.range (g.PH - (g.fh - 1))).flatMap fun h => (List.range (g.PW - (g.fw - 1))).flatMap fun w =>
          [g.padded x i c (p + h) (q + w) * placed g.P g.Q (· * g.sh) (· * g.sw) (fun p q => y.cell i (g.outIdx k p q)) h w] := by
      rw [flatMap_single hp, flatMap_single hq]
      · simp only [if_true]
      · intro q' hq' hne
        refine flatMap_nil fun h _ => flatMap_nil fun w _ => ?_
        rw [if_neg]
        intro e; exact hne (fpos_inj hc hp hq hc hp hq' e).2.2.2.symm
      · intro p' hp' hne
        refine flatMap_nil fun q' hq' => flatMap_nil fun h _ => flatMap_nil fun w _ => ?_
        rw [if_neg]
        intro e; exact hne (fpos_inj hc hp hq hc hp' hq' e).2.2.1.symm
    rw [e, total_flatMap]
    simp only [total_flatMap, total_single]
    rw [sum_placed (F := fun h w => g.padded x i c (p + h) (q + w))]
    · refine Finset.sum_congr rfl fun h _ => Finset.sum_congr rfl fun w _ => ?_
      rw [Nat.add_comm p, Nat.add_comm q]
    · intro h hh; have := win_le hl.fh hh; omega
    · intro w hw; have := win_le hl.fw hw; omega
  · intro c' hc' hne
    refine flatMap_nil fun i _ => flatMap_nil fun p' hp' => flatMap_nil fun q' hq' => flatMap_nil fun h _ => flatMap_nil fun w _ => ?_
    rw [if_neg]
    intro e; exact hne (fpos_inj hc hp hq hc' hp' hq' e).2.1.symm
  · intro k' hk' hne
    refine flatMap_nil fun c' hc' => flatMap_nil fun i _ => flatMap_nil fun p' hp' => flatMap_nil fun q' hq' => flatMap_nil fun h _ => flatMap_nil fun w _ => ?_
    rw [if_neg]
    intro e; exact hne (fpos_inj hc hp hq hc' hp' hq' e).1.symm

end Verif.Nn
