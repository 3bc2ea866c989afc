import Verif.Nn.Pool
import Mathlib.Algebra.Field.Defs
import Mathlib.Algebra.Field.Rat
import Mathlib.Data.Nat.Cast.Defs
/-
  The shortcut of the pooling kernels for one-column images, and the sum of a window in exact arithmetic.
-/
namespace Verif.Nn
open Verif Verif.Dense

variable {α : Type}

/-- The first `min fh H` pixels of a one-column image. -/
def quickCol (g : Geo) (x : Mat α) (i c : Nat) : List α := (List.range (min g.fh g.H)).map fun r => g.img x i c r 0

theorem poolQuick_acc [Zero α] {g : Geo} {data : DM α} {x : Mat α} {op : PoolOp α} {f : α → α → List α → α} (ho : op.Computes f)
    (hs : g.Small g.C) (hx : Images g data x) (hW : g.W = 1) (plen : α) :
    Acc (Border g) (g.B * g.C) (fun _ t => t) (poolQuick op data g plen) (fun o => (List.range g.B).flatMap fun i =>
      (List.range g.C).flatMap fun c => if o = i * g.C + c then [f plen op.neutral (quickCol g x i c)] else []) := by
  unfold poolQuick
  refine Acc.loop0 fun i hi => Acc.loop0 fun c hc => ?_
  refine Acc.step (rm_lt hi hc (Nat.le_refl _)) fun s _ hN => ?_
  have hH : g.H < 2 ^ 32 := by have := hs.ph; unfold Geo.PH at this; omega
  rw [u32_eq (show min g.fh g.H < 2 ^ 32 by omega)]
  have hrow : ∀ j (hj : j < (quickCol g x i c).length), rd data (u32 (i * (g.C * (g.H * g.W)) + c * g.H) + j) = .ok (quickCol g x i c)[j] := by
    intro j hj
    have hj' : j < g.H := by simp [quickCol] at hj; omega
    have hidx := hx.idx hi hc hj' (show 0 < g.W by omega)
    have hin := hs.inp
    have hr := hx.read hi hc hj' (show 0 < g.W by omega)
    have e : i * (g.C * (g.H * g.W)) + (c * (g.H * g.W) + (j * g.W + 0)) = i * (g.C * (g.H * g.W)) + c * g.H + j := by
      rw [hW]; ring
    rw [e] at hidx hr
    rw [u32_eq (by omega), hr]
    simp [quickCol]
  have hlen : (quickCol g x i c).length = min g.fh g.H := by simp [quickCol]
  have := ho op.neutral plen (rd data) _ _ hrow
  rw [hlen] at this
  rw [this, Res.ok_bind, Buf.write_eq (by rw [hN]; exact rm_lt hi hc (Nat.le_refl _))]
  rfl

/-- What the shortcut computes. -/
theorem poolForward_quick [Zero α] {g : Geo} {data : DM α} {x : Mat α} {op : PoolOp α} {f : α → α → List α → α} (ho : op.Computes f)
    (hl : g.Legal) (hs : g.Small g.C) (hx : Images g data x) (hsc : g.SameCount) (hq : g.P = 1 ∧ g.Q = 1 ∧ g.W = 1) (plen : α) :
    Res.Ok (poolForward op data g plen) (fun r => r.resH = g.P ∧ r.resW = g.Q ∧
      ∃ y : Mat α, r.res.Is y ∧ y.rows = g.B ∧ y.cols = g.C * (g.P * g.Q) ∧
        ∀ i c, i < g.B → c < g.C → y.cell i (g.outIdx c 0 0) = f plen op.neutral (quickCol g x i c)) := by
  unfold poolForward
  rw [(PQ_eq hl hs hsc).1, (PQ_eq hl hs hsc).2, Res.ok_bind, Res.ok_bind]
  dsimp only
  rw [if_pos hq]
  have h0 : Border g (⟨1 * ((g.H + 2 * g.ph) * (g.W + 2 * g.pw)), fun _ => 0⟩ : Buf α) := ⟨Nat.one_mul _, fun _ _ _ _ _ => rfl⟩
  have eC : g.C * g.P * g.Q = g.C := by rw [hq.1, hq.2.1]; ring
  rw [eC]
  refine (poolQuick_acc ho hs hx hq.2.2 plen (_, ⟨g.B * g.C, fun _ => 0⟩) h0 rfl).bind fun s ⟨_, hsz, hdat⟩ => ?_
  refine ⟨_, rfl, rfl, rfl, ⟨g.B, g.C, fun r c => s.2.data (r * g.C + c)⟩, is_new hsz fun _ _ _ _ => rfl, rfl, ?_, ?_⟩
  · rw [hq.1, hq.2.1]; show g.C = _; omega
  · intro i c hi hc
    have eo : g.outIdx c 0 0 = c := by unfold Geo.outIdx; rw [hq.1, hq.2.1]; omega
    show s.2.data (i * g.C + g.outIdx c 0 0) = _
    rw [eo, hdat]
    beta_reduce
    rw [flatMap_single hi, flatMap_single hc]
    · rw [if_pos rfl]; rfl
    · intro c' hc' hne
      rw [if_neg]
      intro e; exact hne (rm_inj hc hc' e).2.symm
    · intro i' hi' hne
      refine flatMap_nil fun c' hc' => ?_
      rw [if_neg]
      intro e; exact hne (rm_inj hc hc' e).1.symm

theorem foldl_add [AddMonoid α] (l : List α) : ∀ a : α, l.foldl (· + ·) a = a + total l := by
  unfold total
  induction l with
  | nil => intro a; simp
  | cons b l ih => intro a; simp only [List.foldl_cons]; rw [ih, ih (0 + b), zero_add, add_assoc]

theorem total_cons [AddMonoid α] (a : α) (l : List α) : total (a :: l) = a + total l := by
  conv => lhs; unfold total
  rw [List.foldl_cons, foldl_add, zero_add]

theorem total_append [AddMonoid α] (l l' : List α) : total (l ++ l') = total l + total l' := by
  conv => lhs; unfold total
  rw [List.foldl_append, foldl_add]; rfl

theorem total_nil [Zero α] [Add α] : total ([] : List α) = 0 := rfl

/-- In exact arithmetic it does not matter that the kernel scales row by row. -/
theorem avg_fold [Semiring α] (plen : α) (rows : List (List α)) :
    ∀ a : α, rows.foldl (fun acc row => total row * plen + acc) a = a + total rows.flatten * plen := by
  induction rows with
  | nil => intro a; simp [total_nil]
  | cons r rows ih =>
    intro a
    rw [List.foldl_cons, ih, List.flatten_cons, total_append, add_mul, add_comm (total r * plen) a, add_assoc]

theorem window_flatten [Zero α] (g : Geo) (x : Mat α) (i c p q : Nat) :
    ((List.range g.fh).map (g.winRow x i c p q)).flatten = g.window x i c p q := by
  rw [Geo.window, List.flatMap_def]

/-- In an unpadded one-column image with one window, the shortcut's pixels are the window. -/
theorem quickCol_window [Zero α] {g : Geo} (hl : g.Legal) (hph : g.ph = 0) (hpw : g.pw = 0) (hW : g.W = 1) (x : Mat α) (i c : Nat) :
    quickCol g x i c = g.window x i c 0 0 := by
  have h1 := hl.fh; have h2 := hl.fw; have h3 := hl.fw0
  unfold Geo.PH at h1; unfold Geo.PW at h2
  have hfw : g.fw = 1 := by omega
  unfold quickCol Geo.window Geo.winRow
  rw [hfw, show min g.fh g.H = g.fh by omega, List.map_eq_flatMap]
  refine flatMap_congr_range fun h hh => ?_
  simp only [List.range_one, List.map_cons, List.map_nil, Nat.zero_mul, Nat.zero_add, Nat.add_zero]
  unfold Geo.padded
  rw [if_pos (by omega), hph, hpw, Nat.sub_zero]

end Verif.Nn
