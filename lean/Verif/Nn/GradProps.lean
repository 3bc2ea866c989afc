import Verif.Nn.DataBack
/-
  C216, C218, C220: where the gradient kernels go wrong; concrete cases for C214, C215, C217, C219.
-/
namespace Verif.Nn
open Verif Verif.Dense

/-- Gradients (or images) of one image in a single row: 1, 2, 3, ... -/
def ramp (n : Nat) : DM ℚ := ⟨Hdr.new 1 n, ⟨n, fun o => ((o + 1 : Nat) : ℚ)⟩⟩
def rampM (n : Nat) : Mat ℚ := ⟨1, n, fun _ c => ((c + 1 : Nat) : ℚ)⟩

theorem ramp_is (n : Nat) : (ramp n).Is (rampM n) := is_new (Nat.one_mul n).symm fun r c hr _ => by
  have : r = 0 := by have : r < 1 := hr; omega
  subst this
  show (((0 * n + c) + 1 : Nat) : ℚ) = _
  rw [Nat.zero_mul, Nat.zero_add]

/-- What a concrete run leaves in a cell of the first row. -/
theorem cell_of_eval {α : Type} {m : Res (DM α)} {n cols k : Nat} {v : α} (hk : k < cols)
    (e : m.toOption.map (fun d => (d.h, d.mem.data k)) = some (Hdr.new (n + 1) cols, v)) :
    Res.Ok m (fun d => ∀ z, d.Is z → z.cell 0 k = v) := by
  cases m with
  | error x => cases e
  | ok d =>
    obtain ⟨h, m⟩ := d
    refine ⟨_, rfl, fun z hz => ?_⟩
    have e' : (h, m.data k) = (Hdr.new (n + 1) cols, v) := Option.some.inj e
    obtain ⟨rfl, e2⟩ := Prod.mk.inj e'
    have hr : 0 < z.rows := by rw [← hz.rows]; exact Nat.succ_pos n
    have hc : k < z.cols := by rw [← hz.cols]; exact hk
    have := hz.data hr hc
    rw [← this, ← e2]
    congr 1
    show 0 + 0 * cols + k = k
    omega

/-- 3 x 3 pixels, windows of one pixel, strides (1, 2): 3 x 2 window positions. -/
def gStr : Geo := ⟨1, 1, 3, 3, 1, 1, 1, 2, 0, 0⟩

/-- **C216** (refuted): with different strides, `avg_pool2d_backward` and `max_pool2d_backward` should still give the gradients of the pixels covered by the windows
(C214, C215); since the kernel interchanges the strides, pixel (1, 1), which no window covers, receives a gradient. -/
theorem C216_pooling_backward_strides_partial :
    gStr.Legal ∧ gStr.Small gStr.C ∧ Grads gStr gStr.C (ramp 6) (rampM 6) ∧ Images gStr (ramp 9) (rampM 9) ∧
    (∀ p q, p < gStr.P → q < gStr.Q → ¬ gStr.Covers p q 1 1) ∧
    Res.Ok (avgPoolBackward (ramp 6) gStr) (fun d => ∀ z, d.Is z → gStr.img z 0 0 1 1 = 3) ∧
    Res.Ok (maxPoolBackward (ramp 9) (ramp 6) gStr) (fun d => ∀ z, d.Is z → gStr.img z 0 0 1 1 = 3) := by
  refine ⟨by decide, by decide, ⟨ramp_is 6, rfl, rfl, rfl⟩, ⟨ramp_is 9, rfl, rfl, rfl⟩, ?_, ?_, ?_⟩
  · intro p q hp hq
    have hq' : q < 2 := hq
    unfold Geo.Covers gStr
    simp only
    omega
  · exact cell_of_eval (n := 0) (cols := 9) (k := 4) (by decide) (by decide +kernel)
  · exact cell_of_eval (n := 0) (cols := 9) (k := 4) (by decide) (by decide +kernel)

/-- 2 x 3 pixels and one filter of the same size. -/
def gRect : Geo := ⟨1, 1, 2, 3, 2, 3, 1, 1, 0, 0⟩

/-- **C218** (refuted): `conv2d_backward_filter` should satisfy C217 for all filters. (1) For a 2 x 3 filter the gradients of the weights (0, 2) and (1, 0) are added up in one
cell; (2) for a 2 x 1 filter the kernel accesses memory outside its result. -/
theorem C218_conv2d_backward_filter_partial :
    (gRect.Legal ∧ gRect.Small 1 ∧ Images gRect (ramp 6) (rampM 6) ∧ Grads gRect 1 (ramp 1) (rampM 1) ∧
      Res.Ok (conv2DBackwardFilter (ramp 6) (ramp 1) gRect 1) (fun d => ∀ z, d.Is z → gRect.filt z 0 0 0 2 ≠
        ∑ i ∈ Finset.range gRect.B, ∑ h ∈ Finset.range gRect.P, ∑ w ∈ Finset.range gRect.Q,
          gRect.padded (rampM 6) i 0 (h * gRect.sh + 0) (w * gRect.sw + 2) * (rampM 1).cell i (gRect.outIdx 0 h w))) ∧
    (∃ g : Geo, g.Legal ∧ g.Small 1 ∧ Images g (ramp 2) (rampM 2) ∧ Grads g 1 (ramp 1) (rampM 1) ∧ Res.IsUB (conv2DBackwardFilter (ramp 2) (ramp 1) g 1)) := by
  refine ⟨⟨by decide, by decide, ⟨ramp_is 6, rfl, rfl, rfl⟩, ⟨ramp_is 1, rfl, rfl, rfl⟩, ?_⟩, ⟨1, 1, 2, 1, 2, 1, 1, 1, 0, 0⟩, by decide, by decide,
    ⟨ramp_is 2, rfl, rfl, rfl⟩, ⟨ramp_is 1, rfl, rfl, rfl⟩, "out-of-bounds read", ?_⟩
  · refine (cell_of_eval (n := 0) (cols := 6) (k := 2) (v := 7) (by decide) (by decide +kernel)).mono fun d h z hz => ?_
    have e : gRect.filt z 0 0 0 2 = 7 := h z hz
    rw [e]
    decide +kernel
  · rfl

/-- 2 x 2 pixels, one filter of one pixel. -/
def gPix : Geo := ⟨1, 1, 2, 2, 1, 1, 1, 1, 0, 0⟩
/-- 1 x 2 pixels with one column of padding on both sides, a 1 x 2 filter with stride 2. -/
def gPad : Geo := ⟨1, 1, 1, 2, 1, 2, 1, 2, 0, 1⟩

/-- **C220** (refuted): `conv2d_backward_data` should satisfy C219 for all shapes. (1) If the output has not the size of a filter, only as many output gradients as a filter
has weights are used: for a filter of one pixel, all pixels but the first get the gradient 0; (2) with different vertical and horizontal padding the last columns are left
out. -/
theorem C220_conv2d_backward_data_partial :
    (gPix.Legal ∧ gPix.Small 1 ∧ Filters gPix 1 (ramp 1) (rampM 1) ∧ Grads gPix 1 (ramp 4) (rampM 4) ∧
      Res.Ok (conv2DBackwardData (ramp 1) (ramp 4) gPix 1) (fun d => ∀ z, d.Is z → gPix.img z 0 0 0 1 = 0 ∧ gPix.img z 0 0 0 1 ≠
        ∑ k ∈ Finset.range 1, ∑ p ∈ Finset.range gPix.P, ∑ q ∈ Finset.range gPix.Q,
          if gPix.Covers p q 0 1 then (rampM 4).cell 0 (gPix.outIdx k p q) * gPix.filt (rampM 1) k 0 (0 + gPix.ph - p * gPix.sh) (1 + gPix.pw - q * gPix.sw) else 0)) ∧
    (gPad.Legal ∧ gPad.Small 1 ∧ gPad.P = gPad.fh ∧ gPad.Q = gPad.fw ∧ Filters gPad 1 (ramp 2) (rampM 2) ∧ Grads gPad 1 (ramp 2) (rampM 2) ∧
      Res.Ok (conv2DBackwardData (ramp 2) (ramp 2) gPad 1) (fun d => ∀ z, d.Is z → gPad.img z 0 0 0 1 = 0 ∧ gPad.img z 0 0 0 1 ≠
        ∑ k ∈ Finset.range 1, ∑ p ∈ Finset.range gPad.P, ∑ q ∈ Finset.range gPad.Q,
          if gPad.Covers p q 0 1 then (rampM 2).cell 0 (gPad.outIdx k p q) * gPad.filt (rampM 2) k 0 (0 + gPad.ph - p * gPad.sh) (1 + gPad.pw - q * gPad.sw) else 0)) := by
  refine ⟨⟨by decide, by decide, ⟨ramp_is 1, rfl, rfl, rfl⟩, ⟨ramp_is 4, rfl, rfl, rfl⟩, ?_⟩,
    by decide, by decide, by decide, by decide, ⟨ramp_is 2, rfl, rfl, rfl⟩, ⟨ramp_is 2, rfl, rfl, rfl⟩, ?_⟩
  · refine (cell_of_eval (n := 0) (cols := 4) (k := 1) (v := 0) (by decide) (by decide +kernel)).mono fun d h z hz => ?_
    have e : gPix.img z 0 0 0 1 = 0 := h z hz
    rw [e]
    exact ⟨rfl, by decide +kernel⟩
  · refine (cell_of_eval (n := 0) (cols := 2) (k := 1) (v := 0) (by decide) (by decide +kernel)).mono fun d h z hz => ?_
    have e : gPad.img z 0 0 0 1 = 0 := h z hz
    rw [e]
    exact ⟨rfl, by decide +kernel⟩

/-! ### Concrete cases -/

/-- Two images of two channels, window 2 x 3, stride 1, padding 1. -/
def exGrad : DM ℚ := ⟨Hdr.new 2 32, ⟨64, fun o => ((o : Nat) : ℚ)⟩⟩
theorem exGrad_is : Grads exG2 exG2.C exGrad ⟨2, 32, fun r c => ((r * 32 + c : Nat) : ℚ)⟩ := ⟨is_new rfl fun _ _ _ _ => rfl, rfl, rfl, rfl⟩
def exImg : DM ℚ := ⟨Hdr.new 2 24, ⟨48, fun o => ((o : Nat) : ℚ)⟩⟩
theorem exImg_is : Images exG2 exImg ⟨2, 24, fun r c => ((r * 24 + c : Nat) : ℚ)⟩ := ⟨is_new rfl fun _ _ _ _ => rfl, rfl, rfl, rfl⟩

/-- The hypotheses of C214 and C215 can be met. -/
example : Res.Ok (avgPoolBackward exGrad exG2) (fun d => ∃ z, d.Is z ∧ z.rows = 2 ∧ z.cols = 24) :=
  (C214_avg_pool2d_backward exG2 exGrad _ (by decide) (by decide) (Geo.SameCount.of_eq rfl) exGrad_is).mono fun d ⟨z, h1, h2, h3, _⟩ => ⟨z, h1, h2, h3⟩
example : Res.Ok (maxPoolBackward exImg exGrad exG2) (fun d => ∃ z, d.Is z ∧ z.rows = 2 ∧ z.cols = 24) :=
  (C215_max_pool2d_backward exG2 exImg exGrad _ _ (by decide) (by decide) (Geo.SameCount.of_eq rfl) exImg_is exGrad_is).mono
    fun d ⟨z, h1, h2, h3, _⟩ => ⟨z, h1, h2, h3⟩
/-- A pixel covered by several windows, and one whose gradient comes from some of them. -/
example : exG2.coverTerms (fun p q => (p, q)) 1 1 = [(1, 0), (1, 1), (1, 2), (2, 0), (2, 1), (2, 2)] := by decide +kernel

/-- The hypotheses of C217 and C219 can be met: 3 x 3 pixels, three 2 x 2 filters, stride 1, no padding. -/
def gSq : Geo := ⟨2, 2, 3, 3, 2, 2, 1, 1, 0, 0⟩
example : gSq.Legal ∧ gSq.Small 3 ∧ gSq.fh = gSq.fw ∧ gSq.P = gSq.fh ∧ gSq.Q = gSq.fw ∧ gSq.ph = gSq.pw ∧ gSq.MH * gSq.MW < 2 ^ 32 := by decide
def sqX : DM ℚ := ⟨Hdr.new 2 18, ⟨36, fun o => ((o : Nat) : ℚ)⟩⟩
def sqY : DM ℚ := ⟨Hdr.new 2 12, ⟨24, fun o => ((o : Nat) : ℚ)⟩⟩
def sqF : DM ℚ := ⟨Hdr.new 3 8, ⟨24, fun o => ((o : Nat) : ℚ)⟩⟩
theorem sqX_is : Images gSq sqX ⟨2, 18, fun r c => ((r * 18 + c : Nat) : ℚ)⟩ := ⟨is_new rfl fun _ _ _ _ => rfl, rfl, rfl, rfl⟩
theorem sqY_is : Grads gSq 3 sqY ⟨2, 12, fun r c => ((r * 12 + c : Nat) : ℚ)⟩ := ⟨is_new rfl fun _ _ _ _ => rfl, rfl, rfl, rfl⟩
theorem sqF_is : Filters gSq 3 sqF ⟨3, 8, fun r c => ((r * 8 + c : Nat) : ℚ)⟩ := ⟨is_new rfl fun _ _ _ _ => rfl, rfl, rfl, rfl⟩
example : Res.Ok (conv2DBackwardFilter sqX sqY gSq 3) (fun d => ∃ z, d.Is z ∧ z.rows = 3 ∧ z.cols = 8) :=
  (C217_conv2d_backward_filter gSq 3 sqX sqY _ _ (by decide) (by decide) (by decide) sqX_is sqY_is).mono fun d ⟨z, h1, h2, h3, _⟩ => ⟨z, h1, h2, h3⟩
example : Res.Ok (conv2DBackwardData sqF sqY gSq 3) (fun d => ∃ z, d.Is z ∧ z.rows = 2 ∧ z.cols = 18) :=
  (C219_conv2d_backward_data gSq 3 sqF sqY _ _ (by decide) (by decide) (by decide) (by decide) (by decide) (by decide) sqF_is sqY_is).mono
    fun d ⟨z, h1, h2, h3, _⟩ => ⟨z, h1, h2, h3⟩

end Verif.Nn
