import Verif.Nn.BackModel
import Mathlib.Tactic.Choose
/-
  C214-C216: gradients of the pooling operations.
-/
namespace Verif.Nn
open Verif Verif.Dense

variable {α : Type}

namespace Geo
/-- The window at position `(p, q)` covers pixel `(r, s)` of the image. -/
def Covers (g : Geo) (p q r s : Nat) : Prop :=
  p * g.sh ≤ r + g.ph ∧ r + g.ph < p * g.sh + g.fh ∧ q * g.sw ≤ s + g.pw ∧ s + g.pw < q * g.sw + g.fw

instance (g : Geo) (p q r s : Nat) : Decidable (g.Covers p q r s) := by unfold Covers; infer_instance

/-- The terms of the gradient of a pixel: one for each window position that covers it, in row-major order of the positions. -/
def coverTerms (g : Geo) (t : Nat → Nat → α) (r s : Nat) : List α :=
  (List.range g.P).flatMap fun p => (List.range g.Q).flatMap fun q => if g.Covers p q r s then [t p q] else []

/-- `(a, b)` is the first (in row-major order) of the largest pixels of the window at `(p, q)` of the padded image `v`. -/
def IsFirstMax [LT α] [LE α] (g : Geo) (v : Nat → Nat → α) (p q a b : Nat) : Prop :=
  (p * g.sh ≤ a ∧ a < p * g.sh + g.fh ∧ q * g.sw ≤ b ∧ b < q * g.sw + g.fw) ∧
  ∀ a' b', p * g.sh ≤ a' → a' < p * g.sh + g.fh → q * g.sw ≤ b' → b' < q * g.sw + g.fw →
    v a' b' ≤ v a b ∧ (a' < a ∨ (a' = a ∧ b' < b) → v a' b' < v a b)
end Geo

/-- The gradient of the output, one image per row, without gaps between the rows. -/
structure Grads (g : Geo) (K : Nat) (d : DM α) (y : Mat α) : Prop where
  is : d.Is y
  rows : y.rows = g.B
  cols : y.cols = K * (g.P * g.Q)
  dense : d.h.rowSkip = d.h.numCols

theorem Grads.read {g : Geo} {K : Nat} {d : DM α} {y : Mat α} (h : Grads g K d y) {i k p q : Nat} (hi : i < g.B) (hk : k < K) (hp : p < g.P)
    (hq : q < g.Q) : rd d (i * (K * (g.P * g.Q)) + g.outIdx k p q) = .ok (y.cell i (g.outIdx k p q)) := by
  have := rd_ok h.is h.dense (r := i) (by rw [h.rows]; exact hi) (c := g.outIdx k p q) (by rw [h.cols]; exact outIdx_lt hk hp hq)
  rw [h.cols] at this
  exact this

theorem off_out {g : Geo} (hs : g.Small g.C) {i c p q : Nat} (hi : i < g.B) (hc : c < g.C) (hp : p < g.P) (hq : q < g.Q) :
    i * (g.C * g.P * g.Q) + u32 (u32 (c * g.P) * g.Q) + p * g.Q + q = i * (g.C * (g.P * g.Q)) + g.outIdx c p q := by
  have hb := opos_lt hi hc hp hq
  have hso := hs.out
  have h1 : c * (g.P * g.Q) < 2 ^ 32 := by unfold opos Geo.outIdx at hb; omega
  have h2 : c * g.P ≤ c * (g.P * g.Q) := by
    rw [← Nat.mul_assoc]; exact Nat.le_mul_of_pos_right _ (by omega)
  rw [u32_eq (n := c * g.P) (by omega), Nat.mul_assoc c, u32_eq h1]
  unfold Geo.outIdx
  ring

/-- The position of pixel `(r, s)` of channel `c` of image `i` in the data matrix. -/
def ipos (g : Geo) (i c r s : Nat) : Nat := i * (g.C * (g.H * g.W)) + (c * (g.H * g.W) + (r * g.W + s))

theorem ipos_lt {g : Geo} {i c r s : Nat} (hi : i < g.B) (hc : c < g.C) (hr : r < g.H) (hs : s < g.W) :
    ipos g i c r s < g.B * (g.C * (g.H * g.W)) :=
  rm_lt hi (rm_lt hc (rm_lt hr hs (Nat.le_refl _)) (Nat.le_refl _)) (Nat.le_refl _)

theorem ipos_inj {g : Geo} {i c r s i' c' r' s' : Nat} (hc : c < g.C) (hr : r < g.H) (hs : s < g.W) (hc' : c' < g.C)
    (hr' : r' < g.H) (hs' : s' < g.W) (h : ipos g i c r s = ipos g i' c' r' s') : i = i' ∧ c = c' ∧ r = r' ∧ s = s' := by
  obtain ⟨rfl, h1⟩ := rm_inj (rm_lt hc (rm_lt hr hs (Nat.le_refl _)) (Nat.le_refl _)) (rm_lt hc' (rm_lt hr' hs' (Nat.le_refl _)) (Nat.le_refl _)) h
  obtain ⟨rfl, h2⟩ := rm_inj (rm_lt hr hs (Nat.le_refl _)) (rm_lt hr' hs' (Nat.le_refl _)) h1
  obtain ⟨rfl, rfl⟩ := rm_inj hs hs' h2
  exact ⟨rfl, rfl, rfl, rfl⟩

/-- The buffer of the padded gradient is all zero. -/
def Zeroed [Zero α] (g : Geo) (b : Buf α) : Prop := b.size = g.PH * g.PW ∧ ∀ o, o < g.PH * g.PW → b.data o = 0

theorem saveAndReset_ok [Zero α] {g : Geo} (hin : g.B * (g.C * (g.H * g.W)) < 2 ^ 32) (hpd : g.PH * g.PW < 2 ^ 32) {i c : Nat} (hi : i < g.B)
    (hc : c < g.C) {s : Buf α × Buf α} (h1 : s.1.size = g.PH * g.PW) (h2 : s.2.size = g.B * (g.C * (g.H * g.W))) :
    Res.Ok (saveAndReset g i c s) (fun s' => Zeroed g s'.1 ∧ s'.2.size = g.B * (g.C * (g.H * g.W)) ∧
      ∀ o, s'.2.data o = ((List.range g.H).flatMap fun r => (List.range g.W).flatMap fun t =>
        if o = ipos g i c r t then [s.1.data ((r + g.ph) * g.PW + (t + g.pw))] else []).foldl (fun _ t => t) (s.2.data o)) := by
  have hPH : g.PH = g.H + 2 * g.ph := rfl
  have hPW : g.PW = g.W + 2 * g.pw := rfl
  unfold saveAndReset
  have main : Acc (fun b => b = s.1) (g.B * (g.C * (g.H * g.W))) (fun (_ : α) t => t)
      (cleanPadding g.ph g.pw g.W g.H (u32 (i * (g.C * (g.H * g.W)) + c * (g.H * g.W))))
      (fun o => (List.range g.H).flatMap fun r => (List.range g.W).flatMap fun t =>
        if o = ipos g i c r t then [s.1.data ((r + g.ph) * g.PW + (t + g.pw))] else []) := by
    unfold cleanPadding
    refine Acc.loop0 fun r hr => Acc.loop0 fun t ht => ?_
    have hlt := ipos_lt hi hc hr ht
    have ebase : i * (g.C * (g.H * g.W)) + c * (g.H * g.W) + (r * g.W + t) = ipos g i c r t := by unfold ipos; ring
    have e1 : u32 (u32 (i * (g.C * (g.H * g.W)) + c * (g.H * g.W)) + (r * g.W + t)) = ipos g i c r t := by
      rw [u32_eq (n := i * (g.C * (g.H * g.W)) + c * (g.H * g.W)) (by omega), ebase]
      exact u32_eq (by omega)
    have hlt2 : (r + g.ph) * g.PW + (t + g.pw) < g.PH * g.PW := rm_lt (by omega) (by omega) (Nat.le_refl _)
    have e2 : u32 (g.ph * (g.W + 2 * g.pw) + g.pw + r * (g.W + 2 * g.pw) + t) = (r + g.ph) * g.PW + (t + g.pw) := by
      rw [show g.ph * (g.W + 2 * g.pw) + g.pw + r * (g.W + 2 * g.pw) + t = (r + g.ph) * g.PW + (t + g.pw) by rw [hPW]; ring]
      exact u32_eq (by omega)
    refine Acc.step hlt fun s' hJ hN => ?_
    rw [e1, e2, hJ, Buf.read_eq (by omega)]
    simp only [Res.ok_bind]
    rw [Buf.write_eq (by omega)]
    rfl
  refine (main s rfl h2).bind fun s1 ⟨a, b, d⟩ => ?_
  refine Res.Ok.bind (P := fun p : Buf α => Zeroed g p) ?_ ?_
  · refine forLoop_post (fun n (p : Buf α) => p.size = g.PH * g.PW ∧ ∀ o, o < n → p.data o = 0) 0 _ s1.1 (Nat.zero_le _)
      ⟨by rw [a, h1], fun o ho => absurd ho (Nat.not_lt_zero _)⟩ ?_ (fun p hp => hp)
    intro j p _ hj ⟨f1, f2⟩
    have hj' : j < g.PH * g.PW := hj
    rw [Buf.write_iff]
    refine ⟨by omega, f1, fun o ho => ?_⟩
    rw [Buf.put_data]
    split
    · rfl
    · exact f2 o (by omega)
  · intro p hp
    exact ⟨_, rfl, hp, b, d⟩

/-- What the outer loops over images and channels leave in the result. -/
theorem saved_value {g : Geo} {val : Nat → Nat → Nat → Nat → α} {v0 : α} {i c r t : Nat} (hi : i < g.B) (hc : c < g.C) (hr : r < g.H) (ht : t < g.W) :
    ((List.range g.B).flatMap fun i' => (List.range g.C).flatMap fun c' => (List.range g.H).flatMap fun r' => (List.range g.W).flatMap fun t' =>
      if ipos g i c r t = ipos g i' c' r' t' then [val i' c' r' t'] else []).foldl (fun _ t => t) v0 = val i c r t := by
  rw [flatMap_single hi, flatMap_single hc, flatMap_single hr, flatMap_single ht]
  · rw [if_pos rfl]; rfl
  · intro t' ht' hne
    rw [if_neg]
    intro e; exact hne (ipos_inj hc hr ht hc hr ht' e).2.2.2.symm
  · intro r' hr' hne
    refine flatMap_nil fun t' ht' => ?_
    rw [if_neg]
    intro e; exact hne (ipos_inj hc hr ht hc hr' ht' e).2.2.1.symm
  · intro c' hc' hne
    refine flatMap_nil fun r' hr' => flatMap_nil fun t' ht' => ?_
    rw [if_neg]
    intro e; exact hne (ipos_inj hc hr ht hc' hr' ht' e).2.1.symm
  · intro i' hi' hne
    refine flatMap_nil fun c' hc' => flatMap_nil fun r' hr' => flatMap_nil fun t' ht' => ?_
    rw [if_neg]
    intro e; exact hne (ipos_inj hc hr ht hc' hr' ht' e).1.symm

/-- The averaging scatter loops on an all-zero buffer. -/
theorem avgScatter_ok [Zero α] [Add α] [Mul α] {g : Geo} (hl : g.Legal) (hs : g.Small g.C) {dOut : DM α} {y : Mat α} (hy : Grads g g.C dOut y)
    (plen : α) {i c : Nat} (hi : i < g.B) (hc : c < g.C) {b : Buf α} (hb : Zeroed g b) :
    Res.Ok (avgScatter dOut g g.P g.Q plen i c ((), b)) (fun s => s.2.size = g.PH * g.PW ∧
      ∀ r t, r < g.H → t < g.W → s.2.data ((r + g.ph) * g.PW + (t + g.pw)) =
        total (g.coverTerms (fun p q => plen * y.cell i (g.outIdx c p q)) r t)) := by
  have hPH : g.PH = g.H + 2 * g.ph := rfl
  have hPW : g.PW = g.W + 2 * g.pw := rfl
  have main : Acc (fun _ : Unit => True) (g.PH * g.PW) (· + ·) (avgScatter dOut g g.P g.Q plen i c)
      (fun o => (List.range g.P).flatMap fun p => (List.range g.fh).flatMap fun h => (List.range g.Q).flatMap fun q =>
        (List.range g.fw).flatMap fun w => if o = (p * g.sh + h) * g.PW + (q * g.sw + w) then [plen * y.cell i (g.outIdx c p q)] else []) := by
    unfold avgScatter
    refine Acc.loop0 fun p hp => Acc.loop0 fun h hh => Acc.loop0 fun q hq => Acc.loop0 fun w hw => ?_
    have hwp := win_le hl.fh hp
    have hwq := win_le hl.fw hq
    have hlt : (p * g.sh + h) * g.PW + (q * g.sw + w) < g.PH * g.PW := rm_lt (by omega) (by omega) (Nat.le_refl _)
    rw [off_out hs hi hc hp hq, hy.read hi hc hp hq, Nat.add_assoc, show g.W + 2 * g.pw = g.PW from rfl]
    refine Acc.step hlt fun s _ hN => ?_
    rw [Res.ok_bind]
    unfold addAt
    rw [Buf.read_eq (by omega)]
    simp only [Res.ok_bind]
    rw [Buf.write_eq (by omega)]
    rfl
  refine (main ((), b) trivial hb.1).mono fun s ⟨_, h1, h2⟩ => ⟨h1, fun r t hr ht => ?_⟩
  have hlt : (r + g.ph) * g.PW + (t + g.pw) < g.PH * g.PW := rm_lt (by omega) (by omega) (Nat.le_refl _)
  rw [h2, hb.2 _ hlt]
  unfold total Geo.coverTerms
  congr 1
  refine flatMap_congr_range fun p hp => ?_
  have hwp := win_le hl.fh hp
  have hinj : ∀ h q w, h < g.fh → q < g.Q → w < g.fw → (r + g.ph) * g.PW + (t + g.pw) = (p * g.sh + h) * g.PW + (q * g.sw + w) →
      r + g.ph = p * g.sh + h ∧ t + g.pw = q * g.sw + w := by
    intro h q w hh hq hw e
    have hwq := win_le hl.fw hq
    exact rm_inj (by omega) (by omega) e
  by_cases hrow : p * g.sh ≤ r + g.ph ∧ r + g.ph < p * g.sh + g.fh
  · rw [flatMap_single (j0 := r + g.ph - p * g.sh) (by omega)]
    · refine flatMap_congr_range fun q hq => ?_
      by_cases hcol : q * g.sw ≤ t + g.pw ∧ t + g.pw < q * g.sw + g.fw
      · rw [if_pos ⟨hrow.1, hrow.2, hcol.1, hcol.2⟩, flatMap_single (j0 := t + g.pw - q * g.sw) (by omega)]
        · rw [if_pos]
          rw [show p * g.sh + (r + g.ph - p * g.sh) = r + g.ph by omega, show q * g.sw + (t + g.pw - q * g.sw) = t + g.pw by omega]
        · intro w hw hne
          rw [if_neg]
          intro e
          have := hinj _ q w (by omega) hq hw e
          omega
      · rw [if_neg (fun h => hcol ⟨h.2.2.1, h.2.2.2⟩), flatMap_nil]
        intro w hw
        rw [if_neg]
        intro e
        have := hinj _ q w (by omega) hq hw e
        omega
    · intro h hh hne
      refine flatMap_nil fun q hq => flatMap_nil fun w hw => ?_
      rw [if_neg]
      intro e
      have := hinj h q w hh hq hw e
      omega
  · rw [flatMap_nil, flatMap_nil]
    · intro q hq
      rw [if_neg fun h => hrow ⟨h.1, h.2.1⟩]
    · intro h hh
      refine flatMap_nil fun q hq => flatMap_nil fun w hw => ?_
      rw [if_neg]
      intro e
      have := hinj h q w hh hq hw e
      omega

/-- **C214**: `avg_pool2d_backward` gives, for every pixel, the sum of the output gradients of all windows that cover it, each divided by the number of pixels of a
window (in the order of the window positions, so also for rounding arithmetic). -/
theorem C214_avg_pool2d_backward [Field α] (g : Geo) (dOut : DM α) (y : Mat α) (hl : g.Legal) (hs : g.Small g.C) (hsc : g.SameCount)
    (hy : Grads g g.C dOut y) :
    Res.Ok (avgPoolBackward dOut g) (fun d => ∃ z, d.Is z ∧ z.rows = g.B ∧ z.cols = g.C * (g.H * g.W) ∧
      ∀ i c r s, i < g.B → c < g.C → r < g.H → s < g.W → g.img z i c r s =
        total (g.coverTerms (fun p q => 1 / ((g.fw * g.fh : Nat) : α) * y.cell i (g.outIdx c p q)) r s)) := by
  unfold avgPoolBackward
  rw [(PQ_eq hl hs hsc).1, (PQ_eq hl hs hsc).2, Res.ok_bind, Res.ok_bind]
  dsimp only
  have main : Acc (Zeroed (α := α) g) (g.B * (g.C * (g.H * g.W))) (fun (_ : α) t => t)
      (fun s => forLoop 0 g.B s fun i s => forLoop 0 g.C s fun c s =>
        avgScatter dOut g g.P g.Q (1 / ((g.fw * g.fh : Nat) : α)) i c ((), s.1) >>= fun t => saveAndReset g i c (t.2, s.2))
      (fun o => (List.range g.B).flatMap fun i => (List.range g.C).flatMap fun c => (List.range g.H).flatMap fun r => (List.range g.W).flatMap fun t =>
        if o = ipos g i c r t then [total (g.coverTerms (fun p q => 1 / ((g.fw * g.fh : Nat) : α) * y.cell i (g.outIdx c p q)) r t)] else []) := by
    refine Acc.loop0 fun i hi => Acc.loop0 fun c hc => ?_
    intro s hJ hN
    refine (avgScatter_ok hl hs hy _ hi hc hJ).bind fun t ⟨h1, h2⟩ => ?_
    refine (saveAndReset_ok (s := (t.2, s.2)) hs.inp hs.padded hi hc h1 hN).mono fun s' ⟨a, b, d⟩ => ⟨a, b, fun o => ?_⟩
    rw [d o]
    congr 1
    refine flatMap_congr_range fun r hr => flatMap_congr_range fun u hu => ?_
    rw [h2 r u hr hu]
  have h0 : Zeroed g (⟨1 * ((g.H + 2 * g.ph) * (g.W + 2 * g.pw)), fun _ => 0⟩ : Buf α) := ⟨Nat.one_mul _, fun _ _ => rfl⟩
  refine (main (_, ⟨g.B * (g.C * (g.H * g.W)), fun _ => 0⟩) h0 rfl).bind fun s ⟨_, hsz, hdat⟩ => ?_
  refine ⟨_, rfl, ⟨g.B, g.C * (g.H * g.W), fun r c => s.2.data (r * (g.C * (g.H * g.W)) + c)⟩, is_new hsz fun _ _ _ _ => rfl, rfl, rfl, ?_⟩
  intro i c r t hi hc hr ht
  show s.2.data (ipos g i c r t) = _
  rw [hdat]
  exact saved_value (val := fun i c r t => total (g.coverTerms (fun p q => 1 / ((g.fw * g.fh : Nat) : α) * y.cell i (g.outIdx c p q)) r t)) hi hc hr ht

/-- The scan for the first largest pixel of a window. -/
theorem argmaxLoop_ok [LinearOrder α] {g : Geo} (hl : g.Legal) {inp : Buf α} {v : Nat → Nat → α} (hsz : inp.size = g.PH * g.PW)
    (hv : ∀ r s, r < g.PH → s < g.PW → inp.data (r * g.PW + s) = v r s) {p q : Nat} (hp : p < g.P) (hq : q < g.Q) :
    Res.Ok (argmaxLoop inp g p q) (fun m => ∃ a b, m = a * g.PW + b ∧ b < g.PW ∧ a < g.PH ∧ g.IsFirstMax v p q a b) := by
  have hwp := win_le hl.fh hp
  have hwq := win_le hl.fw hq
  have hfh := hl.fh0; have hfw := hl.fw0
  unfold argmaxLoop
  -- processed: rows below `h`, and row `h` up to column `w`
  let Inv : Nat → Nat → Nat → Prop := fun h w m => ∃ a b, m = a * g.PW + b ∧
    (p * g.sh ≤ a ∧ a < p * g.sh + g.fh ∧ q * g.sw ≤ b ∧ b < q * g.sw + g.fw) ∧
    (a < p * g.sh + h ∨ (a = p * g.sh + h ∧ b < q * g.sw + w) ∨ (a = p * g.sh ∧ b = q * g.sw)) ∧
    ∀ a' b', p * g.sh ≤ a' → q * g.sw ≤ b' → b' < q * g.sw + g.fw → (a' < p * g.sh + h ∨ (a' = p * g.sh + h ∧ b' < q * g.sw + w)) →
      v a' b' ≤ v a b ∧ (a' < a ∨ (a' = a ∧ b' < b) → v a' b' < v a b)
  refine forLoop_post (fun h m => Inv h 0 m) 0 g.fh _ (Nat.zero_le _) ?_ ?_ ?_
  · refine ⟨p * g.sh, q * g.sw, by rw [show g.W + 2 * g.pw = g.PW from rfl], by omega, by omega, ?_⟩
    intro a' b' h1 h2 h3 h4; omega
  · intro h m _ hh hI
    refine forLoop_post (fun w m => Inv h w m) 0 g.fw m (Nat.zero_le _) hI ?_ ?_
    · rintro w m _ hw ⟨a, b, rfl, hin, hproc, hmax⟩
      have e1 : (p * g.sh + h) * (g.W + 2 * g.pw) + q * g.sw + w = (p * g.sh + h) * g.PW + (q * g.sw + w) := by
        rw [Nat.add_assoc, show g.W + 2 * g.pw = g.PW from rfl]
      have b1 : (p * g.sh + h) * g.PW + (q * g.sw + w) < g.PH * g.PW := rm_lt (by omega) (by omega) (Nat.le_refl _)
      have b2 : a * g.PW + b < g.PH * g.PW := rm_lt (by omega) (by omega) (Nat.le_refl _)
      rw [e1]
      dsimp only
      rw [Buf.read_eq (b := inp) (i := (p * g.sh + h) * g.PW + (q * g.sw + w)) (by omega), Buf.read_eq (b := inp) (i := a * g.PW + b) (by omega),
        hv _ _ (by omega) (by omega), hv _ _ (by omega) (by omega)]
      refine ⟨_, rfl, ?_⟩
      by_cases hlt : v a b < v (p * g.sh + h) (q * g.sw + w)
      · rw [if_pos hlt]
        refine ⟨p * g.sh + h, q * g.sw + w, rfl, by omega, by omega, ?_⟩
        intro a' b' h1 h2 h3 h4
        by_cases hlast : a' = p * g.sh + h ∧ b' = q * g.sw + w
        · obtain ⟨rfl, rfl⟩ := hlast
          exact ⟨le_refl _, fun hx => by omega⟩
        · have := (hmax a' b' h1 h2 h3 (by omega)).1
          have hx := lt_of_le_of_lt this hlt
          exact ⟨le_of_lt hx, fun _ => hx⟩
      · rw [if_neg hlt]
        refine ⟨a, b, rfl, hin, by omega, ?_⟩
        intro a' b' h1 h2 h3 h4
        by_cases hlast : a' = p * g.sh + h ∧ b' = q * g.sw + w
        · obtain ⟨rfl, rfl⟩ := hlast
          exact ⟨not_lt.1 hlt, fun hx => by omega⟩
        · exact hmax a' b' h1 h2 h3 (by omega)
    · rintro m ⟨a, b, rfl, hin, hproc, hmax⟩
      refine ⟨a, b, rfl, hin, by omega, ?_⟩
      intro a' b' h1 h2 h3 h4
      exact hmax a' b' h1 h2 h3 (by omega)
  · rintro m ⟨a, b, rfl, hin, hproc, hmax⟩
    refine ⟨a, b, rfl, by omega, by omega, hin, ?_⟩
    intro a' b' h1 h2 h3 h4
    exact hmax a' b' h1 h3 h4 (by omega)

theorem IsFirstMax.unique [LinearOrder α] {g : Geo} {v : Nat → Nat → α} {p q a b a' b' : Nat} (h : g.IsFirstMax v p q a b)
    (h' : g.IsFirstMax v p q a' b') : a = a' ∧ b = b' := by
  obtain ⟨⟨h1, h2, h3, h4⟩, h5⟩ := h
  obtain ⟨⟨k1, k2, k3, k4⟩, k5⟩ := h'
  have e1 := h5 a' b' k1 k2 k3 k4
  have e2 := k5 a b h1 h2 h3 h4
  have eq : v a b = v a' b' := le_antisymm e2.1 e1.1
  have n1 : ¬ (a' < a ∨ (a' = a ∧ b' < b)) := fun hx => absurd (e1.2 hx) (by rw [eq]; exact lt_irrefl _)
  have n2 : ¬ (a < a' ∨ (a = a' ∧ b < b')) := fun hx => absurd (e2.2 hx) (by rw [eq]; exact lt_irrefl _)
  omega

open Classical in
/-- The terms of the gradient of a pixel under maximum pooling: one for each window position whose first largest pixel it is. -/
noncomputable def Geo.maxTerms [LinearOrder α] [Zero α] (g : Geo) (x : Mat α) (t : Nat → Nat → α) (i c r s : Nat) : List α :=
  (List.range g.P).flatMap fun p => (List.range g.Q).flatMap fun q =>
    if g.IsFirstMax (fun a b => g.padded x i c a b) p q (r + g.ph) (s + g.pw) then [t p q] else []

open Classical in
theorem maxScatter_ok [LinearOrder α] [Zero α] [Add α] {g : Geo} (hl : g.Legal) (hs : g.Small g.C) {dOut : DM α} {x y : Mat α}
    (hy : Grads g g.C dOut y) {i c : Nat} (hi : i < g.B) (hc : c < g.C) {inp : Buf α} (hinp : Padded g x i c inp) {b : Buf α} (hb : Zeroed g b) :
    Res.Ok (maxScatter inp dOut g g.P g.Q i c ((), b)) (fun s => s.2.size = g.PH * g.PW ∧
      ∀ r t, r < g.H → t < g.W → s.2.data ((r + g.ph) * g.PW + (t + g.pw)) =
        total (g.maxTerms x (fun p q => y.cell i (g.outIdx c p q)) i c r t)) := by
  have hPH : g.PH = g.H + 2 * g.ph := rfl
  have hPW : g.PW = g.W + 2 * g.pw := rfl
  have hv : ∀ r s, r < g.PH → s < g.PW → inp.data (r * g.PW + s) = (fun a b => g.padded x i c a b) r s := hinp.2
  have harg : ∀ p q, ∃ m : Nat × Nat, p < g.P → q < g.Q → argmaxLoop inp g p q = .ok (m.1 * g.PW + m.2) ∧ m.2 < g.PW ∧ m.1 < g.PH ∧
      g.IsFirstMax (fun a b => g.padded x i c a b) p q m.1 m.2 := by
    intro p q
    by_cases h : p < g.P ∧ q < g.Q
    · obtain ⟨m, e, a, b, rfl, h1, h2, h3⟩ := argmaxLoop_ok hl hinp.1 hv h.1 h.2
      exact ⟨(a, b), fun _ _ => ⟨e, h1, h2, h3⟩⟩
    · exact ⟨(0, 0), fun hp hq => absurd ⟨hp, hq⟩ h⟩
  choose m hm using harg
  have main : Acc (fun _ : Unit => True) (g.PH * g.PW) (· + ·) (maxScatter inp dOut g g.P g.Q i c)
      (fun o => (List.range g.P).flatMap fun p => (List.range g.Q).flatMap fun q =>
        if o = (m p q).1 * g.PW + (m p q).2 then [y.cell i (g.outIdx c p q)] else []) := by
    unfold maxScatter
    refine Acc.loop0 fun p hp => Acc.loop0 fun q hq => ?_
    obtain ⟨e, h1, h2, h3⟩ := hm p q hp hq
    have hlt : (m p q).1 * g.PW + (m p q).2 < g.PH * g.PW := rm_lt h2 h1 (Nat.le_refl _)
    rw [off_out hs hi hc hp hq, hy.read hi hc hp hq, e]
    refine Acc.step hlt fun s _ hN => ?_
    rw [Res.ok_bind, Res.ok_bind]
    unfold addAt
    rw [Buf.read_eq (by omega)]
    simp only [Res.ok_bind]
    rw [Buf.write_eq (by omega)]
    rfl
  refine (main ((), b) trivial hb.1).mono fun s ⟨_, h1, h2⟩ => ⟨h1, fun r t hr ht => ?_⟩
  have hlt : (r + g.ph) * g.PW + (t + g.pw) < g.PH * g.PW := rm_lt (by omega) (by omega) (Nat.le_refl _)
  rw [h2, hb.2 _ hlt]
  unfold total Geo.maxTerms
  congr 1
  refine flatMap_congr_range fun p hp => flatMap_congr_range fun q hq => ?_
  obtain ⟨e, k1, k2, k3⟩ := hm p q hp hq
  by_cases hf : g.IsFirstMax (fun a b => g.padded x i c a b) p q (r + g.ph) (t + g.pw)
  · obtain ⟨e1, e2⟩ := IsFirstMax.unique hf k3
    rw [if_pos hf, if_pos (by rw [e1, e2])]
  · rw [if_neg hf, if_neg]
    intro e'
    obtain ⟨e1, e2⟩ := rm_inj (show t + g.pw < g.PW by omega) k1 e'
    rw [← e1, ← e2] at k3
    exact hf k3

/-- **C215**: `max_pool2d_backward` gives, for every pixel, the sum of the output gradients of all windows whose first largest pixel (in row-major order; padding
counts as zeros) it is. -/
theorem C215_max_pool2d_backward [LinearOrder α] [Zero α] [Add α] (g : Geo) (input dOut : DM α) (x y : Mat α) (hl : g.Legal) (hs : g.Small g.C)
    (hsc : g.SameCount) (hx : Images g input x) (hy : Grads g g.C dOut y) :
    Res.Ok (maxPoolBackward input dOut g) (fun d => ∃ z, d.Is z ∧ z.rows = g.B ∧ z.cols = g.C * (g.H * g.W) ∧
      ∀ i c r s, i < g.B → c < g.C → r < g.H → s < g.W → g.img z i c r s =
        total (g.maxTerms x (fun p q => y.cell i (g.outIdx c p q)) i c r s)) := by
  unfold maxPoolBackward
  rw [(PQ_eq hl hs hsc).1, (PQ_eq hl hs hsc).2, Res.ok_bind, Res.ok_bind]
  dsimp only
  have main : Acc (fun b : Buf α × Buf α => Border g b.1 ∧ Zeroed g b.2) (g.B * (g.C * (g.H * g.W))) (fun (_ : α) t => t)
      (fun s => forLoop 0 g.B s fun i s => forLoop 0 g.C s fun c s =>
        padding s.1.1 input g.ph g.pw g.W g.H (u32 (i * (g.C * (g.H * g.W)) + c * (g.H * g.W))) >>= fun inp =>
        maxScatter inp dOut g g.P g.Q i c ((), s.1.2) >>= fun t =>
          saveAndReset g i c (t.2, s.2) >>= fun s' => .ok ((inp, s'.1), s'.2))
      (fun o => (List.range g.B).flatMap fun i => (List.range g.C).flatMap fun c => (List.range g.H).flatMap fun r => (List.range g.W).flatMap fun t =>
        if o = ipos g i c r t then [total (g.maxTerms x (fun p q => y.cell i (g.outIdx c p q)) i c r t)] else []) := by
    refine Acc.loop0 fun i hi => Acc.loop0 fun c hc => ?_
    intro s hJ hN
    refine (padding_ok hx hs.inp hi hc hJ.1).bind fun inp hinp => ?_
    refine (maxScatter_ok hl hs hy hi hc hinp hJ.2).bind fun t ⟨h1, h2⟩ => ?_
    refine (saveAndReset_ok (s := (t.2, s.2)) hs.inp hs.padded hi hc h1 hN).bind fun s' ⟨a, b, d⟩ => ?_
    refine ⟨_, rfl, ⟨hinp.border, a⟩, b, fun o => ?_⟩
    rw [d o]
    congr 1
    refine flatMap_congr_range fun r hr => flatMap_congr_range fun u hu => ?_
    rw [h2 r u hr hu]
  have h0 : Zeroed g (⟨1 * ((g.H + 2 * g.ph) * (g.W + 2 * g.pw)), fun _ => 0⟩ : Buf α) := ⟨Nat.one_mul _, fun _ _ => rfl⟩
  have h0' : Border g (⟨1 * ((g.H + 2 * g.ph) * (g.W + 2 * g.pw)), fun _ => 0⟩ : Buf α) := ⟨Nat.one_mul _, fun _ _ _ _ _ => rfl⟩
  refine (main (_, ⟨g.B * (g.C * (g.H * g.W)), fun _ => 0⟩) ⟨h0', h0⟩ rfl).bind fun s ⟨_, hsz, hdat⟩ => ?_
  refine ⟨_, rfl, ⟨g.B, g.C * (g.H * g.W), fun r c => s.2.data (r * (g.C * (g.H * g.W)) + c)⟩, is_new hsz fun _ _ _ _ => rfl, rfl, rfl, ?_⟩
  intro i c r t hi hc hr ht
  show s.2.data (ipos g i c r t) = _
  rw [hdat]
  exact saved_value (val := fun i c r t => total (g.maxTerms x (fun p q => y.cell i (g.outIdx c p q)) i c r t)) hi hc hr ht

end Verif.Nn
