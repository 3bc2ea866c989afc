import Verif.Nn.Model
/-
  Lemmas about the zero-padded image, `getPQ`, and index arithmetic.
-/
namespace Verif.Nn
open Verif Verif.Dense

variable {α : Type}

theorem u32_eq {n : Nat} (h : n < 2 ^ 32) : u32 n = n := Nat.mod_eq_of_lt h

/-- Reading through the raw pointer of a matrix without gaps between its rows. -/
theorem rd_ok {d : DM α} {m : Mat α} (h : d.Is m) (hc : d.h.rowSkip = d.h.numCols) {r c : Nat} (hr : r < m.rows) (hcc : c < m.cols) :
    rd d (r * m.cols + c) = .ok (m.cell r c) := by
  have := h.read hr hcc
  unfold DM.addr at this
  rw [hc, h.cols, Nat.add_assoc] at this
  exact this

theorem rd_flat {d : DM α} {m : Mat α} (h : d.Is m) (hc : d.h.rowSkip = d.h.numCols) {k : Nat} (hk : k < m.rows * m.cols) :
    rd d k = .ok (flat m k) := by
  have h0 : 0 < m.cols := by
    rcases Nat.eq_zero_or_pos m.cols with e | e
    · rw [e, Nat.mul_zero] at hk; omega
    · exact e
  have e : k / m.cols * m.cols + k % m.cols = k := by
    have := Nat.div_add_mod k m.cols
    rw [Nat.mul_comm] at this; exact this
  have h1 : k / m.cols < m.rows := (Nat.div_lt_iff_lt_mul h0).2 hk
  have := rd_ok h hc h1 (Nat.mod_lt k h0)
  rw [e] at this
  exact this

theorem getPQ_eq {img f pad st : Nat} (h1 : img + 2 * pad < 2 ^ 32) (h2 : f ≤ img + 2 * pad) (h0 : 0 < f) (h3 : 0 < st) (h4 : st < 2 ^ 32) :
    getPQ img f pad st = .ok ((img + 2 * pad - f) / st + 1) := by
  unfold getPQ
  rw [u32_eq h4, if_neg (by omega), u32_eq (show img < 2 ^ 32 by omega), u32_eq (show pad < 2 ^ 32 by omega),
    u32_eq h1, u32_eq (show f < 2 ^ 32 by omega)]
  have e : u32 (img + 2 * pad + 2 ^ 32 - f) = img + 2 * pad - f := by unfold u32; omega
  rw [e]
  congr 1
  have : (img + 2 * pad - f) / st ≤ img + 2 * pad - f := Nat.div_le_self _ _
  exact u32_eq (by omega)

/-- The last window still lies in the padded image. -/
theorem win_le {n f s p : Nat} (hf : f ≤ n) (hp : p < (n - f) / s + 1) : p * s + f ≤ n := by
  have h1 : p * s ≤ (n - f) / s * s := Nat.mul_le_mul_right _ (by omega)
  have h2 := Nat.div_mul_le_self (n - f) s
  omega

/-- The context of the kernels: a buffer for the padded image whose border is zero. -/
def Border [Zero α] (g : Geo) (b : Buf α) : Prop :=
  b.size = g.PH * g.PW ∧
  ∀ r s, r < g.PH → s < g.PW → ¬ (g.ph ≤ r ∧ r < g.ph + g.H ∧ g.pw ≤ s ∧ s < g.pw + g.W) → b.data (r * g.PW + s) = 0

/-- The buffer holds the padded image of channel `c` of image `i`. -/
def Padded [Zero α] (g : Geo) (x : Mat α) (i c : Nat) (b : Buf α) : Prop :=
  b.size = g.PH * g.PW ∧ ∀ r s, r < g.PH → s < g.PW → b.data (r * g.PW + s) = g.padded x i c r s

theorem Padded.border [Zero α] {g : Geo} {x : Mat α} {i c : Nat} {b : Buf α} (h : Padded g x i c b) : Border g b := by
  refine ⟨h.1, fun r s hr hs hn => ?_⟩
  rw [h.2 r s hr hs, Geo.padded, if_neg hn]

/-- The images as rows of a matrix without gaps between the rows. -/
structure Images (g : Geo) (d : DM α) (x : Mat α) : Prop where
  is : d.Is x
  rows : x.rows = g.B
  cols : x.cols = g.C * (g.H * g.W)
  dense : d.h.rowSkip = d.h.numCols

theorem Images.idx {g : Geo} {d : DM α} {x : Mat α} (h : Images g d x) {i c r s : Nat} (hi : i < g.B) (hc : c < g.C) (hr : r < g.H)
    (hs : s < g.W) : i * (g.C * (g.H * g.W)) + (c * (g.H * g.W) + (r * g.W + s)) < g.B * (g.C * (g.H * g.W)) :=
  rm_lt hi (rm_lt hc (rm_lt hr hs (Nat.le_refl _)) (Nat.le_refl _)) (Nat.le_refl _)

theorem Images.read {g : Geo} {d : DM α} {x : Mat α} (h : Images g d x) {i c r s : Nat} (hi : i < g.B) (hc : c < g.C) (hr : r < g.H)
    (hs : s < g.W) : rd d (i * (g.C * (g.H * g.W)) + (c * (g.H * g.W) + (r * g.W + s))) = .ok (g.img x i c r s) := by
  have hcc : c * (g.H * g.W) + (r * g.W + s) < x.cols := by
    rw [h.cols]; exact rm_lt hc (rm_lt hr hs (Nat.le_refl _)) (Nat.le_refl _)
  have := rd_ok h.is h.dense (r := i) (by rw [h.rows]; exact hi) hcc
  rw [h.cols] at this
  exact this

theorem padding_ok [Zero α] {g : Geo} {d : DM α} {x : Mat α} (h : Images g d x) (hin : g.B * (g.C * (g.H * g.W)) < 2 ^ 32) {i c : Nat}
    (hi : i < g.B) (hc : c < g.C) {b : Buf α} (hb : Border g b) :
    Res.Ok (padding b d g.ph g.pw g.W g.H (u32 (i * (g.C * (g.H * g.W)) + c * (g.H * g.W)))) (Padded g x i c) := by
  unfold padding
  have hPH : g.PH = g.H + 2 * g.ph := rfl
  have hPW : g.PW = g.W + 2 * g.pw := rfl
  have hle : g.H * g.W ≤ g.PH * g.PW := Nat.mul_le_mul (by omega) (by omega)
  refine Res.Ok.bind (P := fun b1 : Buf α => b1.size = g.PH * g.PW ∧ ∀ o, b1.data o = if o < g.H * g.W then 0 else b.data o) ?_ ?_
  · refine forLoop_ok (fun n (b1 : Buf α) => b1.size = g.PH * g.PW ∧ ∀ o, b1.data o = if o < n then 0 else b.data o) 0 _ b (Nat.zero_le _)
      ⟨hb.1, fun o => by simp⟩ ?_
    intro j b1 _ hj ⟨e1, e2⟩
    rw [Buf.write_iff]
    refine ⟨by omega, by simpa using e1, fun o => ?_⟩
    rw [Buf.put_data, e2 o]
    by_cases ho : o = j
    · subst ho; simp
    · by_cases h1 : o < j
      · simp [ho, h1, show o < j + 1 from by omega]
      · simp [ho, h1, show ¬ o < j + 1 from by omega]
  intro b1 ⟨z1, z2⟩
  have hb1 : ∀ r s, r < g.PH → s < g.PW → ¬ (g.ph ≤ r ∧ r < g.ph + g.H ∧ g.pw ≤ s ∧ s < g.pw + g.W) → b1.data (r * g.PW + s) = 0 := by
    intro r s hr hs hn
    rw [z2]
    split
    · rfl
    · exact hb.2 r s hr hs hn
  refine forLoop_post (fun n (b2 : Buf α) => b2.size = g.PH * g.PW ∧ ∀ r s, r < g.PH → s < g.PW → b2.data (r * g.PW + s) =
      if g.ph ≤ r ∧ r < g.ph + n ∧ g.pw ≤ s ∧ s < g.pw + g.W then g.img x i c (r - g.ph) (s - g.pw) else b1.data (r * g.PW + s))
    0 g.H b1 (Nat.zero_le _) ⟨z1, fun r s _ _ => by rw [if_neg (by omega)]⟩ ?_ ?_
  · intro j b2 _ hj ⟨e1, e2⟩
    refine forLoop_post (fun n (b3 : Buf α) => b3.size = g.PH * g.PW ∧ ∀ r s, r < g.PH → s < g.PW → b3.data (r * g.PW + s) =
      if r = g.ph + j ∧ g.pw ≤ s ∧ s < g.pw + n then g.img x i c (r - g.ph) (s - g.pw) else b2.data (r * g.PW + s))
      0 g.W b2 (Nat.zero_le _) ⟨e1, fun r s _ _ => by rw [if_neg (by omega)]⟩ ?_ ?_
    · intro k b3 _ hk ⟨f1, f2⟩
      have hidx := h.idx hi hc hj hk
      have hoff : u32 (u32 (i * (g.C * (g.H * g.W)) + c * (g.H * g.W)) + (j * g.W + k))
          = i * (g.C * (g.H * g.W)) + (c * (g.H * g.W) + (j * g.W + k)) := by
        rw [u32_eq (n := i * (g.C * (g.H * g.W)) + c * (g.H * g.W)) (by omega), Nat.add_assoc]
        exact u32_eq (by omega)
      rw [hoff, h.read hi hc hj hk]
      have epos : g.ph * (g.W + 2 * g.pw) + g.pw + j * (g.W + 2 * g.pw) + k = (g.ph + j) * g.PW + (g.pw + k) := by
        rw [hPW]; ring
      have hlt : (g.ph + j) * g.PW + (g.pw + k) < g.PH * g.PW := rm_lt (by omega) (by omega) (Nat.le_refl _)
      show Res.Ok (b3.write _ _) _
      rw [epos, Buf.write_iff]
      refine ⟨by omega, by simpa using f1, fun r s hr hs => ?_⟩
      rw [Buf.put_data, f2 r s hr hs]
      by_cases e : r * g.PW + s = (g.ph + j) * g.PW + (g.pw + k)
      · obtain ⟨rfl, rfl⟩ := rm_inj hs (show g.pw + k < g.PW by omega) e
        rw [if_pos rfl, if_pos (by omega)]
        congr 1 <;> omega
      · rw [if_neg e]
        have : ¬ (r = g.ph + j ∧ s = g.pw + k) := by rintro ⟨rfl, rfl⟩; exact e rfl
        by_cases q : r = g.ph + j ∧ g.pw ≤ s ∧ s < g.pw + k
        · rw [if_pos q, if_pos (by omega)]
        · rw [if_neg q, if_neg (by omega)]
    · intro b3 ⟨f1, f2⟩
      refine ⟨f1, fun r s hr hs => ?_⟩
      rw [f2 r s hr hs, e2 r s hr hs]
      by_cases q : r = g.ph + j ∧ g.pw ≤ s ∧ s < g.pw + g.W
      · rw [if_pos q, if_pos (by omega)]
      · rw [if_neg q]
        by_cases q2 : g.ph ≤ r ∧ r < g.ph + j ∧ g.pw ≤ s ∧ s < g.pw + g.W
        · rw [if_pos q2, if_pos (by omega)]
        · rw [if_neg q2, if_neg (by omega)]
  · intro b2 ⟨e1, e2⟩
    refine ⟨e1, fun r s hr hs => ?_⟩
    rw [e2 r s hr hs, Geo.padded]
    split
    · rfl
    · next hn => exact hb1 r s hr hs hn

end Verif.Nn
