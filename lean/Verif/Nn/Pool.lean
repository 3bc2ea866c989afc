import Verif.Nn.Conv
import Mathlib.Algebra.Ring.Defs
import Mathlib.Order.Lattice
import Mathlib.Order.Defs.LinearOrder
/-
  Average and maximum pooling (CPU kernels): what the loops compute.
-/
namespace Verif.Nn
open Verif Verif.Dense

variable {α : Type}

/-- What `OP::run` computes on a run of values. -/
def PoolOp.Computes (op : PoolOp α) (f : α → α → List α → α) : Prop :=
  ∀ (acc plen : α) (inp : Nat → Res α) (start : Nat) (row : List α),
    (∀ j (h : j < row.length), inp (start + j) = .ok row[j]) → op.run acc inp start row.length plen = .ok (f plen acc row)

theorem run_fold {β : Type} (comb : β → α → β) (inp : Nat → Res α) :
    ∀ (row : List α) (start lo : Nat) (acc : β), (∀ j (h : j < row.length), inp (start + lo + j) = .ok row[j]) →
      forFrom lo row.length acc (fun i ret => inp (start + i) >>= fun v => .ok (comb ret v)) = .ok (row.foldl comb acc)
  | [], _, _, _, _ => rfl
  | a :: row, start, lo, acc, h => by
    have h0 := h 0 (by simp)
    have hs : ∀ j (hj : j < row.length), inp (start + (lo + 1) + j) = .ok row[j] := by
      intro j hj
      have := h (j + 1) (by simpa using hj)
      simp only [List.getElem_cons_succ] at this
      rw [← this]; congr 1; omega
    simp only [List.length_cons, forFrom]
    rw [show start + lo = start + lo + 0 from rfl, h0]
    simp only [Res.ok_bind, List.getElem_cons_zero]
    exact run_fold comb inp row start (lo + 1) _ hs

theorem avg_computes [Zero α] [Add α] [Mul α] : (avgOp (α := α)).Computes (fun plen acc row => total row * plen + acc) := by
  intro acc plen inp start row h
  unfold avgOp
  simp only
  unfold forLoop
  rw [Nat.sub_zero, run_fold (· + ·) inp row start 0 0 h]
  rfl

theorem max_computes [Max α] (top : α) : (maxOp top).Computes (fun _ acc row => row.foldl max acc) := by
  intro acc plen inp start row h
  unfold maxOp
  simp only
  unfold forLoop
  rw [Nat.sub_zero, run_fold max inp row start 0 acc h]

/-- The kernel's numbers of window positions (computed with the strides interchanged) are the right ones. -/
def Geo.SameCount (g : Geo) : Prop := (g.PH - g.fh) / g.sw = (g.PH - g.fh) / g.sh ∧ (g.PW - g.fw) / g.sh = (g.PW - g.fw) / g.sw

theorem Geo.SameCount.of_eq {g : Geo} (h : g.sh = g.sw) : g.SameCount := by unfold Geo.SameCount; rw [h]; exact ⟨rfl, rfl⟩

/-- The shortcut of the kernel for one-column images is not taken. -/
def Geo.NotQuick (g : Geo) : Prop := ¬ (g.P = 1 ∧ g.Q = 1 ∧ g.W = 1)

theorem winRow_length [Zero α] (g : Geo) (x : Mat α) (i c p q h : Nat) : (g.winRow x i c p q h).length = g.fw := by
  simp [Geo.winRow]

theorem winRow_get [Zero α] (g : Geo) (x : Mat α) (i c p q h j : Nat) (hj : j < (g.winRow x i c p q h).length) :
    (g.winRow x i c p q h)[j] = g.padded x i c (p * g.sh + h) (q * g.sw + j) := by
  simp [Geo.winRow]

theorem poolStep_ok {op : PoolOp α} {f : α → α → List α → α} (ho : op.Computes f) {inp : Nat → Res α} {off start : Nat} {row : List α}
    {plen : α} {s : Buf α × Buf α} (hoff : off < s.2.size) (h : ∀ j (hj : j < row.length), inp (start + j) = .ok row[j]) {n : Nat} (hn : n = row.length) :
    poolStep op inp off start n plen s = .ok (s.1, s.2.put off (f plen (s.2.data off) row)) := by
  unfold poolStep
  subst hn
  rw [Buf.read_eq hoff]
  simp only [Res.ok_bind]
  rw [ho _ _ _ _ _ h]
  simp only [Res.ok_bind]
  rw [Buf.write_eq hoff]
  rfl

theorem opos_pool {g : Geo} {i c p q : Nat} (hs : g.Small g.C) (hi : i < g.B) (hc : c < g.C) (hp : p < g.P) (hq : q < g.Q) :
    u32 (i * (g.C * g.P * g.Q) + (c * g.P + p) * g.Q + q) = opos g g.C i c p q := by
  have hb := opos_lt hi hc hp hq
  have hso := hs.out
  have e : i * (g.C * g.P * g.Q) + (c * g.P + p) * g.Q + q = opos g g.C i c p q := by unfold opos Geo.outIdx; ring
  rw [e]; exact u32_eq (by omega)

/-- The terms (rows of windows) that hit a cell of the result. -/
def poolTerms [Zero α] (g : Geo) (x : Mat α) (o : Nat) : List (List α) :=
  (List.range g.B).flatMap fun i => (List.range g.C).flatMap fun c => (List.range g.P).flatMap fun p => (List.range g.fh).flatMap fun h =>
    (List.range g.Q).flatMap fun q => if o = opos g g.C i c p q then [g.winRow x i c p q h] else []

theorem poolTerms_eq [Zero α] {g : Geo} {x : Mat α} {i c p q : Nat} (hi : i < g.B) (hc : c < g.C) (hp : p < g.P) (hq : q < g.Q) :
    poolTerms g x (opos g g.C i c p q) = (List.range g.fh).map (g.winRow x i c p q) := by
  unfold poolTerms
  rw [flatMap_single hi, flatMap_single hc, flatMap_single hp]
  · rw [List.map_eq_flatMap]
    refine flatMap_congr_range fun h hh => ?_
    rw [flatMap_single hq]
    · rw [if_pos rfl]
    · intro q' hq' hne
      rw [if_neg]
      intro e
      exact hne (opos_inj hc hp hq hc hp hq' e).2.2.2.symm
  · intro p' hp' hne
    refine flatMap_nil fun h hh => flatMap_nil fun q' hq' => ?_
    rw [if_neg]
    intro e
    exact hne (opos_inj hc hp hq hc hp' hq' e).2.2.1.symm
  · intro c' hc' hne
    refine flatMap_nil fun p' hp' => flatMap_nil fun h hh => flatMap_nil fun q' hq' => ?_
    rw [if_neg]
    intro e
    exact hne (opos_inj hc hp hq hc' hp' hq' e).2.1.symm
  · intro i' hi' hne
    refine flatMap_nil fun c' hc' => flatMap_nil fun p' hp' => flatMap_nil fun h hh => flatMap_nil fun q' hq' => ?_
    rw [if_neg]
    intro e
    exact hne (opos_inj hc hp hq hc' hp' hq' e).1.symm

theorem poolNoPad_acc [Zero α] {g : Geo} {data : DM α} {x : Mat α} {op : PoolOp α} {f : α → α → List α → α} (ho : op.Computes f)
    (hl : g.Legal) (hs : g.Small g.C) (hx : Images g data x) (hph : g.ph = 0) (hpw : g.pw = 0) (plen : α) :
    Acc (Border g) (g.B * (g.C * (g.P * g.Q))) (f plen) (poolNoPad op data g g.sh g.sw g.P g.Q plen) (poolTerms g x) := by
  have hPH : g.PH = g.H := by unfold Geo.PH; omega
  have hPW : g.PW = g.W := by unfold Geo.PW; omega
  unfold poolNoPad poolTerms
  refine Acc.loop0 fun i hi => Acc.loop0 fun c hc => Acc.loop0 fun p hp => ?_
  have hwp := win_le hl.fh hp
  have e1 : min (p * g.sh + g.fh) g.H = p * g.sh + g.fh := by omega
  rw [e1]
  refine (Acc.loop (lo := p * g.sh) (hi := p * g.sh + g.fh) (L := fun h o => (List.range g.Q).flatMap fun q =>
    if o = opos g g.C i c p q then [g.winRow x i c p q (h - p * g.sh)] else []) fun h hlo hhi => Acc.loop0 fun q hq => ?_).congr fun o => ?_
  · have hwq := win_le hl.fw hq
    have e2 : min g.fw (sub64 g.W (q * g.sw)) = g.fw := by
      rw [← hPW]; exact sub64_win hl.fw hq
    rw [e2, opos_pool hs hi hc hp hq]
    refine Acc.step (opos_lt hi hc hp hq) fun s _ hN => ?_
    refine poolStep_ok ho (row := g.winRow x i c p q (h - p * g.sh)) (by rw [hN]; exact opos_lt hi hc hp hq) ?_ (winRow_length ..).symm
    intro j hj
    rw [winRow_get]
    rw [winRow_length] at hj
    have hr : h < g.H := by omega
    have hcc : q * g.sw + j < g.W := by omega
    have hidx := hx.idx hi hc hr (show q * g.sw + j < g.W from hcc)
    have hin := hs.inp
    have e3 : u32 (i * (g.C * (g.H * g.W)) + c * (g.H * g.W) + h * g.W + q * g.sw) =
        i * (g.C * (g.H * g.W)) + c * (g.H * g.W) + h * g.W + q * g.sw := u32_eq (by omega)
    rw [e3, show i * (g.C * (g.H * g.W)) + c * (g.H * g.W) + h * g.W + q * g.sw + j =
      i * (g.C * (g.H * g.W)) + (c * (g.H * g.W) + (h * g.W + (q * g.sw + j))) by ring, hx.read hi hc hr hcc]
    unfold Geo.padded
    rw [if_pos (by omega)]
    congr 2 <;> omega
  · rw [show p * g.sh + g.fh - p * g.sh = g.fh by omega]
    refine flatMap_congr_range fun h hh => ?_
    rw [show p * g.sh + h - p * g.sh = h by omega]

theorem poolPad_acc [Zero α] {g : Geo} {data : DM α} {x : Mat α} {op : PoolOp α} {f : α → α → List α → α} (ho : op.Computes f)
    (hl : g.Legal) (hs : g.Small g.C) (hx : Images g data x) (plen : α) :
    Acc (Border g) (g.B * (g.C * (g.P * g.Q))) (f plen) (poolPad op data g g.P g.Q plen) (poolTerms g x) := by
  unfold poolPad poolTerms
  refine Acc.loop0 fun i hi => Acc.loop0 fun c hc => ?_
  refine Acc.setup (K := Padded g x i c)
    (pre := fun b => padding b data g.ph g.pw g.W g.H (u32 (i * (g.C * (g.H * g.W)) + c * (g.H * g.W))))
    (m := fun s => forLoop 0 g.P s fun p s =>
          forLoop (p * g.sh) (min (p * g.sh + g.fh) (g.H + 2 * g.ph)) s fun h s =>
            forLoop 0 g.Q s fun q s =>
              poolStep op s.1.read (u32 (i * (g.C * g.P * g.Q) + (c * g.P + p) * g.Q + q))
                (u32 (h * (g.W + 2 * g.pw) + q * g.sw)) (min g.fw (sub64 (g.W + 2 * g.pw) (q * g.sw))) plen s)
    (fun b hb => padding_ok hx hs.inp hi hc hb) (fun b hb => hb.border) ?_
  refine Acc.loop0 fun p hp => ?_
  have hwp := win_le hl.fh hp
  have hPH : g.PH = g.H + 2 * g.ph := rfl
  have hPW : g.PW = g.W + 2 * g.pw := rfl
  have e1 : min (p * g.sh + g.fh) (g.H + 2 * g.ph) = p * g.sh + g.fh := by omega
  rw [e1]
  refine (Acc.loop (lo := p * g.sh) (hi := p * g.sh + g.fh) (L := fun h o => (List.range g.Q).flatMap fun q =>
    if o = opos g g.C i c p q then [g.winRow x i c p q (h - p * g.sh)] else []) fun h hlo hhi => Acc.loop0 fun q hq => ?_).congr fun o => ?_
  · have hwq := win_le hl.fw hq
    have e2 : min g.fw (sub64 (g.W + 2 * g.pw) (q * g.sw)) = g.fw := sub64_win hl.fw hq
    rw [e2, opos_pool hs hi hc hp hq]
    refine Acc.step (opos_lt hi hc hp hq) fun s hJ hN => ?_
    refine poolStep_ok ho (row := g.winRow x i c p q (h - p * g.sh)) (by rw [hN]; exact opos_lt hi hc hp hq) ?_ (winRow_length ..).symm
    intro j hj
    rw [winRow_get]
    rw [winRow_length] at hj
    have hr : h < g.PH := by omega
    have hcc : q * g.sw + j < g.PW := by omega
    have hlt := rm_lt hr hcc (Nat.le_refl g.PW)
    have hsp := hs.padded
    have e3 : u32 (h * (g.W + 2 * g.pw) + q * g.sw) = h * g.PW + q * g.sw := u32_eq (by rw [← hPW]; omega)
    rw [e3, Nat.add_assoc, Buf.read_eq (by rw [hJ.1]; exact hlt), hJ.2 _ _ hr hcc]
    congr 2; omega
  · rw [show p * g.sh + g.fh - p * g.sh = g.fh by omega]
    refine flatMap_congr_range fun h hh => ?_
    rw [show p * g.sh + h - p * g.sh = h by omega]

theorem PQ_eq {g : Geo} (hl : g.Legal) {K : Nat} (hs : g.Small K) (hsc : g.SameCount) :
    getPQ g.H g.fh g.ph g.sw = .ok g.P ∧ getPQ g.W g.fw g.pw g.sh = .ok g.Q := by
  constructor
  · rw [getPQ_eq hs.ph hl.fh hl.fh0 hl.sw hs.sw]
    congr 2
    exact hsc.1
  · rw [getPQ_eq hs.pw hl.fw hl.fw0 hl.sh hs.sh]
    congr 2
    exact hsc.2

/-- Pooling outside the shortcut: row by row of the window, starting with zero. -/
theorem poolForward_ok [Zero α] {g : Geo} {data : DM α} {x : Mat α} {op : PoolOp α} {f : α → α → List α → α} (ho : op.Computes f)
    (hl : g.Legal) (hs : g.Small g.C) (hx : Images g data x) (hsc : g.SameCount) (hq : g.NotQuick) (plen : α) :
    Res.Ok (poolForward op data g plen) (fun r => r.resH = g.P ∧ r.resW = g.Q ∧
      ∃ y : Mat α, r.res.Is y ∧ y.rows = g.B ∧ y.cols = g.C * (g.P * g.Q) ∧
        ∀ i c p q, i < g.B → c < g.C → p < g.P → q < g.Q →
          y.cell i (g.outIdx c p q) = ((List.range g.fh).map (g.winRow x i c p q)).foldl (f plen) 0) := by
  unfold poolForward
  rw [(PQ_eq hl hs hsc).1, (PQ_eq hl hs hsc).2, Res.ok_bind, Res.ok_bind]
  dsimp only
  have h0 : Border g (⟨1 * ((g.H + 2 * g.ph) * (g.W + 2 * g.pw)), fun _ => 0⟩ : Buf α) := ⟨Nat.one_mul _, fun _ _ _ _ _ => rfl⟩
  have hsz0 : g.B * (g.C * g.P * g.Q) = g.B * (g.C * (g.P * g.Q)) := by ring
  have fin : ∀ m : Buf α × Buf α → Res (Buf α × Buf α),
      Acc (Border g) (g.B * (g.C * (g.P * g.Q))) (f plen) m (poolTerms g x) →
      Res.Ok (m (⟨1 * ((g.H + 2 * g.ph) * (g.W + 2 * g.pw)), fun _ => 0⟩, ⟨g.B * (g.C * g.P * g.Q), fun _ => 0⟩) >>= fun s =>
        .ok (⟨⟨Hdr.new g.B (g.C * g.P * g.Q), s.2⟩, g.P, g.Q⟩ : Out α)) (fun r => r.resH = g.P ∧ r.resW = g.Q ∧
      ∃ y : Mat α, r.res.Is y ∧ y.rows = g.B ∧ y.cols = g.C * (g.P * g.Q) ∧
        ∀ i c p q, i < g.B → c < g.C → p < g.P → q < g.Q →
          y.cell i (g.outIdx c p q) = ((List.range g.fh).map (g.winRow x i c p q)).foldl (f plen) 0) := by
    intro m hm
    refine (hm (_, _) h0 hsz0).bind fun s ⟨_, hsz, hdat⟩ => ?_
    refine ⟨_, rfl, rfl, rfl, ⟨g.B, g.C * (g.P * g.Q), fun r c => s.2.data (r * (g.C * (g.P * g.Q)) + c)⟩, ?_, rfl, rfl, ?_⟩
    · rw [show g.C * g.P * g.Q = g.C * (g.P * g.Q) by ring]
      exact is_new hsz fun _ _ _ _ => rfl
    · intro i c p q hi hc hp hq
      show s.2.data (opos g g.C i c p q) = _
      rw [hdat, poolTerms_eq hi hc hp hq]
  rw [if_neg hq]
  by_cases h1 : g.sw = 1 ∧ g.sh = 1 ∧ g.ph = 0 ∧ g.pw = 0
  · rw [if_pos h1]
    have := fin _ (poolNoPad_acc ho hl hs hx h1.2.2.1 h1.2.2.2 plen)
    rw [h1.1, h1.2.1] at this
    exact this
  · rw [if_neg h1]
    by_cases h2 : g.ph = 0 ∧ g.pw = 0
    · rw [if_pos h2]
      exact fin _ (poolNoPad_acc ho hl hs hx h2.1 h2.2 plen)
    · rw [if_neg h2]
      exact fin _ (poolPad_acc ho hl hs hx plen)

end Verif.Nn
