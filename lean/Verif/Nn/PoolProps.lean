import Verif.Nn.PoolQuick
import Mathlib.Order.Lattice
/-
  C203-C209: convolution and pooling, and where the kernels go wrong.
-/
namespace Verif.Nn
open Verif Verif.Dense

variable {α : Type}

/-- AvgPoolForward.h / Pooling.cpp:48-49: the averaging kernel with its scale `1 / (pool_w * pool_h)`. -/
def avgPoolForward [Field α] (data : DM α) (g : Geo) : Res (Out α) := poolForward avgOp data g (1 / ((g.fw * g.fh : Nat) : α))

/-- MaxPoolForward.h: the maximum kernel; `top` is the largest value of the type. -/
def maxPoolForward [Zero α] [Max α] (top : α) (data : DM α) (g : Geo) : Res (Out α) := poolForward (maxOp top) data g 0

/-- A result of a forward kernel: `K` output channels, `val i k p q` at position `(p, q)` of channel `k` of image `i`. -/
def IsOutput (g : Geo) (K : Nat) (r : Out α) (val : Nat → Nat → Nat → Nat → α) : Prop :=
  r.resH = g.P ∧ r.resW = g.Q ∧ ∃ y : Mat α, r.res.Is y ∧ y.rows = g.B ∧ y.cols = K * (g.P * g.Q) ∧
    ∀ i k p q, i < g.B → k < K → p < g.P → q < g.Q → y.cell i (g.outIdx k p q) = val i k p q

/-- **C203**: `conv2d` with a bias adds, for each output position, the products of the filter with the zero-padded image, and the bias of the
output channel; the second and third results are the height and width of the output. -/
theorem C203_conv2d_is_convolution [Zero α] [Add α] [Mul α] (g : Geo) (K : Nat) (data filter bias : DM α) (x f b : Mat α) (hl : g.Legal)
    (hs : g.Small K) (hx : Images g data x) (hf : Filters g K filter f) (hb : bias.Is b) (hbd : bias.h.rowSkip = bias.h.numCols)
    (hbk : K ≤ b.rows * b.cols) :
    Res.Ok (conv2d data filter (some bias) g) (fun r => IsOutput g K r fun i k p q => total (g.convTerms x f i k p q) + flat b k) :=
  conv2DForward_ok hl hs hx hf hb hbd hbk

/-- **C204** (refuted): `conv2d` without a bias should be the convolution; instead the filter matrix is passed to the kernel as the bias, so
entry `k` of the filter matrix is added to every value of output channel `k`. -/
theorem C204_conv2d_without_bias_partial [Zero α] [Add α] [Mul α] (g : Geo) (K : Nat) (data filter : DM α) (x f : Mat α) (hl : g.Legal)
    (hs : g.Small K) (hx : Images g data x) (hf : Filters g K filter f) (hC : 0 < g.C) :
    Res.Ok (conv2d data filter none g) (fun r => IsOutput g K r fun i k p q => total (g.convTerms x f i k p q) + flat f k) := by
  refine conv2DForward_ok hl hs hx hf hf.is hf.dense ?_
  rw [hf.rows, hf.cols]
  have h1 := hl.fh0; have h2 := hl.fw0
  exact Nat.le_mul_of_pos_right _ (Nat.mul_pos hC (Nat.mul_pos h1 h2))

/-- **C205**: `avg_pool2d` gives the mean of every window (padding counts as zeros), in exact arithmetic. -/
theorem C205_avg_pool2d_is_mean [Field α] (g : Geo) (data : DM α) (x : Mat α) (hl : g.Legal) (hs : g.Small g.C) (hx : Images g data x)
    (hsc : g.SameCount) (hq : g.NotQuick ∨ (g.ph = 0 ∧ g.pw = 0)) :
    Res.Ok (avgPoolForward data g) (fun r => IsOutput g g.C r fun i c p q => total (g.window x i c p q) / ((g.fh * g.fw : Nat) : α)) := by
  have hdiv : ∀ a : α, a * (1 / ((g.fw * g.fh : Nat) : α)) = a / ((g.fh * g.fw : Nat) : α) := by
    intro a; rw [Nat.mul_comm g.fw, div_eq_mul_inv, div_eq_mul_inv, one_mul]
  by_cases hnq : g.NotQuick
  · refine (poolForward_ok avg_computes hl hs hx hsc hnq _).mono fun r ⟨h1, h2, y, h3, h4, h5, h6⟩ => ⟨h1, h2, y, h3, h4, h5, ?_⟩
    intro i c p q hi hc hp hq
    rw [h6 i c p q hi hc hp hq, avg_fold, zero_add, window_flatten, hdiv]
  · have hqq : g.P = 1 ∧ g.Q = 1 ∧ g.W = 1 := not_not.1 hnq
    obtain ⟨z1, z2⟩ := hq.resolve_left hnq
    refine (poolForward_quick avg_computes hl hs hx hsc hqq _).mono fun r ⟨h1, h2, y, h3, h4, h5, h6⟩ => ⟨h1, h2, y, h3, h4, h5, ?_⟩
    intro i c p q hi hc hp hq
    have e1 : p = 0 := by have := hqq.1; omega
    have e2 : q = 0 := by have := hqq.2.1; omega
    subst e1 e2
    rw [h6 i c hi hc, quickCol_window hl z1 z2 hqq.2.2]
    show total _ * _ + (0 : α) = _
    rw [add_zero, hdiv]

theorem foldl_max_ge [LinearOrder α] (l : List α) : ∀ a : α, a ≤ l.foldl max a ∧ ∀ v ∈ l, v ≤ l.foldl max a := by
  induction l with
  | nil => intro a; exact ⟨le_refl _, fun v hv => nomatch hv⟩
  | cons b l ih =>
    intro a
    obtain ⟨h1, h2⟩ := ih (max a b)
    refine ⟨le_trans (le_max_left _ _) h1, fun v hv => ?_⟩
    rcases List.mem_cons.1 hv with rfl | hv
    · exact le_trans (le_max_right _ _) h1
    · exact h2 v hv

theorem foldl_max_mem [LinearOrder α] (l : List α) : ∀ a : α, l.foldl max a = a ∨ l.foldl max a ∈ l := by
  induction l with
  | nil => intro a; exact Or.inl rfl
  | cons b l ih =>
    intro a
    rw [List.foldl_cons]
    rcases ih (max a b) with h | h
    · rw [h]
      rcases max_choice a b with h | h
      · exact Or.inl h
      · right; rw [h]; exact List.mem_cons_self
    · right; exact List.mem_cons_of_mem _ h

theorem max_rows [LinearOrder α] (rows : List (List α)) : ∀ a : α, rows.foldl (fun acc row => row.foldl max acc) a = rows.flatten.foldl max a := by
  induction rows with
  | nil => intro a; rfl
  | cons r rows ih => intro a; rw [List.foldl_cons, ih, List.flatten_cons, List.foldl_append]

/-- The kernel's maximum starts with zero. -/
theorem maxPool_zero_start [LinearOrder α] [Zero α] (top : α) (g : Geo) (data : DM α) (x : Mat α) (hl : g.Legal) (hs : g.Small g.C)
    (hx : Images g data x) (hsc : g.SameCount) (hq : g.NotQuick) :
    Res.Ok (maxPoolForward top data g) (fun r => IsOutput g g.C r fun i c p q => (g.window x i c p q).foldl max 0) := by
  refine (poolForward_ok (max_computes top) hl hs hx hsc hq _).mono fun r ⟨h1, h2, y, h3, h4, h5, h6⟩ => ⟨h1, h2, y, h3, h4, h5, ?_⟩
  intro i c p q hi hc hp hq
  rw [h6 i c p q hi hc hp hq, max_rows, window_flatten]

/-- `m` is the largest element of `l`. -/
def IsMaxOf [LE α] (m : α) (l : List α) : Prop := m ∈ l ∧ ∀ v ∈ l, v ≤ m

theorem window_ne_nil [Zero α] {g : Geo} (hl : g.Legal) (x : Mat α) (i c p q : Nat) :
    g.padded x i c (p * g.sh) (q * g.sw) ∈ g.window x i c p q := by
  have h1 := hl.fh0; have h2 := hl.fw0
  unfold Geo.window Geo.winRow
  rw [List.mem_flatMap]
  exact ⟨0, List.mem_range.2 h1, List.mem_map.2 ⟨0, List.mem_range.2 h2, rfl⟩⟩

/-- **C206**: `max_pool2d` gives the largest pixel of every window that contains a non-negative pixel (such as any image after a ReLU). -/
theorem C206_max_pool2d_is_max [LinearOrder α] [Zero α] (top : α) (g : Geo) (data : DM α) (x : Mat α) (hl : g.Legal) (hs : g.Small g.C)
    (hx : Images g data x) (hsc : g.SameCount) (hq : g.NotQuick) :
    Res.Ok (maxPoolForward top data g) (fun r => ∃ val, IsOutput g g.C r val ∧
      ∀ i c p q, i < g.B → c < g.C → p < g.P → q < g.Q → (∃ v ∈ g.window x i c p q, 0 ≤ v) →
        IsMaxOf (val i c p q) (g.window x i c p q)) := by
  refine (maxPool_zero_start top g data x hl hs hx hsc hq).mono fun r h => ⟨_, h, ?_⟩
  intro i c p q _ _ _ _ ⟨v, hv, h0⟩
  have hge := foldl_max_ge (g.window x i c p q) 0
  refine ⟨?_, hge.2⟩
  rcases foldl_max_mem (g.window x i c p q) 0 with h | h
  · beta_reduce
    rw [h]
    have := hge.2 v hv
    rw [h] at this
    rw [← le_antisymm this h0]
    exact hv
  · exact h

/-- **C207** (refuted): `max_pool2d` should give the largest pixel of every window for all images; (1) windows with negative pixels only give 0
instead, (2) one-column images with a single window give the largest value of the value type, whatever the pixels are. -/
theorem C207_max_pool2d_negative_partial [LinearOrder α] [Zero α] (top : α) (g : Geo) (data : DM α) (x : Mat α) (htop : ∀ i j, x.cell i j ≤ top) (hl : g.Legal)
    (hs : g.Small g.C) (hx : Images g data x) (hsc : g.SameCount) :
    (g.NotQuick → Res.Ok (maxPoolForward top data g) (fun r => ∃ val, IsOutput g g.C r val ∧
      ∀ i c p q, i < g.B → c < g.C → p < g.P → q < g.Q → (∀ v ∈ g.window x i c p q, v < 0) → val i c p q = 0 ∧ ¬ IsMaxOf (val i c p q) (g.window x i c p q))) ∧
    (¬ g.NotQuick → Res.Ok (maxPoolForward top data g) (fun r => IsOutput g g.C r fun _ _ _ _ => top)) := by
  constructor
  · intro hq
    refine (maxPool_zero_start top g data x hl hs hx hsc hq).mono fun r h => ⟨_, h, ?_⟩
    intro i c p q _ _ _ _ hneg
    have h0 : (g.window x i c p q).foldl max 0 = 0 := by
      have hge := foldl_max_ge (g.window x i c p q) 0
      rcases foldl_max_mem (g.window x i c p q) 0 with h | h
      · exact h
      · exact absurd (hneg _ h) (not_lt.2 hge.1)
    refine ⟨h0, fun hm => ?_⟩
    beta_reduce at hm
    rw [h0] at hm
    exact lt_irrefl _ (hneg _ hm.1)
  · intro hnq
    have hqq : g.P = 1 ∧ g.Q = 1 ∧ g.W = 1 := not_not.1 hnq
    refine (poolForward_quick (max_computes top) hl hs hx hsc hqq _).mono fun r ⟨h1, h2, y, h3, h4, h5, h6⟩ => ⟨h1, h2, y, h3, h4, h5, ?_⟩
    intro i c p q hi hc hp hq
    have e1 : p = 0 := by have := hqq.1; omega
    have e2 : q = 0 := by have := hqq.2.1; omega
    subst e1 e2
    rw [h6 i c hi hc]
    refine le_antisymm ?_ (foldl_max_ge _ _).1
    rcases foldl_max_mem (quickCol g x i c) top with h | h
    · exact le_of_eq h
    · obtain ⟨r, _, e⟩ := List.mem_map.1 h
      show (quickCol g x i c).foldl max top ≤ top
      rw [← e]
      exact htop _ _

/-- **C208** (refuted): the results of `avg_pool2d`/`max_pool2d` should have one value per window position; the kernel computes the number of vertical
positions with the horizontal stride and vice versa. (1) Whenever the kernel returns, the reported height and width are those of the interchanged
strides; (2) it can read outside the image. -/
theorem C208_pooling_strides_partial :
    (∀ (α : Type) (_ : Zero α) (op : PoolOp α) (data : DM α) (g : Geo) (plen : α), g.Legal → g.Small g.C →
      ∀ r, poolForward op data g plen = .ok r → r.resH = (g.PH - g.fh) / g.sw + 1 ∧ r.resW = (g.PW - g.fw) / g.sh + 1) ∧
    (∃ g : Geo, g.Legal ∧ g.Small g.C ∧ ∃ (data : DM Int) (x : Mat Int), Images g data x ∧
      Res.IsUB (poolForward (maxOp 100) data g 0)) := by
  constructor
  · intro α _ op data g plen hl hs r hr
    unfold poolForward at hr
    rw [getPQ_eq hs.ph hl.fh hl.fh0 hl.sw hs.sw, getPQ_eq hs.pw hl.fw hl.fw0 hl.sh hs.sh, Res.ok_bind, Res.ok_bind] at hr
    dsimp only at hr
    have key : ∀ (m : Res (Buf α × Buf α)) (CPQ P Q : Nat),
        (m >>= fun s => (.ok (⟨⟨Hdr.new g.B CPQ, s.2⟩, P, Q⟩ : Out α) : Res (Out α))) = .ok r → r.resH = P ∧ r.resW = Q := by
      intro m CPQ P Q h
      cases m with
      | error e => cases h
      | ok s => cases h; exact ⟨rfl, rfl⟩
    split at hr
    · exact key _ _ _ _ hr
    · split at hr
      · exact key _ _ _ _ hr
      · split at hr <;> exact key _ _ _ _ hr
  · refine ⟨⟨1, 1, 1, 2, 1, 1, 1, 3, 0, 0⟩, by decide, by decide, ⟨Hdr.new 1 2, ⟨2, fun _ => 1⟩⟩, ⟨1, 2, fun _ _ => 1⟩,
      ⟨is_new rfl fun _ _ _ _ => rfl, rfl, rfl, rfl⟩, "out-of-bounds read", ?_⟩
    rfl

/-- The number of positions really is another one: 4 x 4 pixels, window 2 x 2, strides (1, 2). -/
example : (⟨1, 1, 4, 4, 2, 2, 1, 2, 0, 0⟩ : Geo).P = 3 ∧ (4 - 2) / 2 + 1 = 2 ∧ (⟨1, 1, 4, 4, 2, 2, 1, 2, 0, 0⟩ : Geo).Q = 2 ∧ (4 - 2) / 1 + 1 = 3 := by decide

/-- **C209** (refuted): `avg_pool2d` should give the mean of the window also for padded one-column images with a single window position; (1) the kernel
ignores the padding and averages the first pixels of the image, (2) which is not the mean of the window. -/
theorem C209_avg_pool2d_one_column_partial :
    (∀ (α : Type) (_ : Field α) (g : Geo) (data : DM α) (x : Mat α), g.Legal → g.Small g.C → Images g data x → g.SameCount → ¬ g.NotQuick →
      Res.Ok (avgPoolForward data g) (fun r => IsOutput g g.C r fun i c _ _ =>
        total ((List.range (min g.fh g.H)).map fun r => g.img x i c r 0) / ((g.fh * g.fw : Nat) : α))) ∧
    (∃ (g : Geo) (data : DM ℚ) (x : Mat ℚ), g.Legal ∧ g.Small g.C ∧ Images g data x ∧ g.SameCount ∧
      Res.Ok (avgPoolForward data g) (fun r => ∀ y, r.res.Is y → y.cell 0 (g.outIdx 0 0 0) ≠ total (g.window x 0 0 0 0) / ((g.fh * g.fw : Nat) : ℚ))) := by
  have part1 : ∀ (α : Type) (_ : Field α) (g : Geo) (data : DM α) (x : Mat α), g.Legal → g.Small g.C → Images g data x → g.SameCount → ¬ g.NotQuick →
      Res.Ok (avgPoolForward data g) (fun r => IsOutput g g.C r fun i c _ _ =>
        total ((List.range (min g.fh g.H)).map fun r => g.img x i c r 0) / ((g.fh * g.fw : Nat) : α)) := by
    intro α _ g data x hl hs hx hsc hnq
    have hqq : g.P = 1 ∧ g.Q = 1 ∧ g.W = 1 := not_not.1 hnq
    refine (poolForward_quick avg_computes hl hs hx hsc hqq _).mono fun r ⟨h1, h2, y, h3, h4, h5, h6⟩ => ⟨h1, h2, y, h3, h4, h5, ?_⟩
    intro i c p q hi hc hp hq
    have e1 : p = 0 := by have := hqq.1; omega
    have e2 : q = 0 := by have := hqq.2.1; omega
    subst e1 e2
    rw [h6 i c hi hc]
    show total _ * _ + (0 : α) = _
    beta_reduce
    rw [add_zero, Nat.mul_comm g.fw, div_eq_mul_inv, div_eq_mul_inv, one_mul]
    rfl
  refine ⟨part1, ⟨1, 1, 2, 1, 2, 1, 3, 3, 1, 0⟩, ⟨Hdr.new 1 2, ⟨2, fun _ => 1⟩⟩, ⟨1, 2, fun _ _ => 1⟩, by decide, by decide,
    ⟨is_new rfl fun _ _ _ _ => rfl, rfl, rfl, rfl⟩, Geo.SameCount.of_eq rfl, ?_⟩
  refine (part1 ℚ inferInstance ⟨1, 1, 2, 1, 2, 1, 3, 3, 1, 0⟩ ⟨Hdr.new 1 2, ⟨2, fun _ => 1⟩⟩ ⟨1, 2, fun _ _ => 1⟩ (by decide) (by decide)
    ⟨is_new rfl fun _ _ _ _ => rfl, rfl, rfl, rfl⟩ (Geo.SameCount.of_eq rfl) (by unfold Geo.NotQuick; decide)).mono ?_
  rintro r ⟨_, _, y, hy, e1, e2, hv⟩ y' hy'
  have hc : y.cols = 1 := e2
  have := hy.same hy'
  rw [← this.2.2 0 _ (by rw [e1]; decide) (by rw [hc]; decide), hv 0 0 0 0 (by decide) (by decide) (by decide) (by decide)]
  decide +kernel

/-! ### Concrete cases -/

/-- Two images of two channels of 3 x 4 pixels. -/
def exG : Geo := ⟨2, 2, 3, 4, 2, 3, 1, 2, 1, 1⟩
def exX : Mat Int := ⟨2, 24, fun i j => i * 100 + j⟩
def exD : DM Int := ⟨Hdr.new 2 24, ⟨48, fun o => exX.cell (o / 24) (o % 24)⟩⟩

theorem exD_is : Images exG exD exX := ⟨is_new rfl fun r c hr hc => by
  show exX.cell ((r * 24 + c) / 24) ((r * 24 + c) % 24) = exX.cell r c
  rw [show (r * 24 + c) / 24 = r by omega, show (r * 24 + c) % 24 = c by omega], rfl, rfl, rfl⟩

def exF : Mat Int := ⟨3, 12, fun i j => i + j⟩
def exFD : DM Int := ⟨Hdr.new 3 12, ⟨36, fun o => exF.cell (o / 12) (o % 12)⟩⟩

theorem exFD_is : Filters exG 3 exFD exF := ⟨is_new rfl fun r c hr hc => by
  show exF.cell ((r * 12 + c) / 12) ((r * 12 + c) % 12) = exF.cell r c
  rw [show (r * 12 + c) / 12 = r by omega, show (r * 12 + c) % 12 = c by omega], rfl, rfl, rfl⟩

def exBD : DM Int := ⟨Hdr.new 3 1, ⟨3, fun o => 1000 * o⟩⟩
theorem exBD_is : exBD.Is ⟨3, 1, fun r _ => 1000 * r⟩ := is_new rfl fun r c _ hc => by
  show (1000 * ((r * 1 + c : Nat) : Int)) = _
  rw [show r * 1 + c = r by omega]

/-- The hypotheses of C203 can be met: 2 images, 2 channels, 3 filters, stride (1, 2), padding (1, 1). -/
example : Res.Ok (conv2d exD exFD (some exBD) exG) (fun r => IsOutput exG 3 r fun i k p q =>
    total (exG.convTerms exX exF i k p q) + flat ⟨3, 1, fun r _ => 1000 * r⟩ k) :=
  C203_conv2d_is_convolution exG 3 exD exFD exBD exX exF _ (by decide) (by decide) exD_is exFD_is exBD_is rfl (by decide)

example : exG.P = 4 ∧ exG.Q = 2 := by decide

/-- C204: a 1 x 1 filter `5` on the one-pixel image `7` without a bias gives 40, not 35. -/
example : (conv2d ⟨Hdr.new 1 1, ⟨1, fun _ => (7 : Int)⟩⟩ ⟨Hdr.new 1 1, ⟨1, fun _ => 5⟩⟩ none ⟨1, 1, 1, 1, 1, 1, 1, 1, 0, 0⟩).toOption.map
    (fun r => r.res.mem.data 0) = some 40 := by decide +kernel

/-- The hypotheses of C206 and of both parts of C207 can be met. -/
def exG2 : Geo := ⟨2, 2, 3, 4, 2, 3, 1, 1, 1, 1⟩
theorem exD_is2 : Images exG2 exD exX := ⟨exD_is.is, rfl, rfl, rfl⟩
example : exG2.Legal ∧ exG2.Small 2 ∧ exG2.SameCount ∧ exG2.NotQuick := by
  refine ⟨by decide, by decide, Geo.SameCount.of_eq rfl, ?_⟩
  unfold Geo.NotQuick; decide

/-- Different strides with equal counts: a global pooling. -/
example : (⟨2, 2, 3, 4, 3, 4, 1, 2, 0, 0⟩ : Geo).SameCount := by unfold Geo.SameCount; decide

/-- C207, a negative one-pixel window: the maximum of the single pixel `-3` comes out as `0`. -/
example : (maxPoolForward 100 (⟨Hdr.new 1 2, ⟨2, fun _ => (-3 : Int)⟩⟩) ⟨1, 1, 1, 2, 1, 1, 1, 1, 0, 0⟩).toOption.map
    (fun r => (r.res.mem.data 0, r.res.mem.data 1)) = some (0, 0) := by decide +kernel

/-- C207, the shortcut: one image with the pixels 2, 5 in one column. -/
example : (maxPoolForward 100 (⟨Hdr.new 1 2, ⟨2, fun i => if i = 0 then (2 : Int) else 5⟩⟩) ⟨1, 1, 2, 1, 2, 1, 1, 1, 0, 0⟩).toOption.map
    (fun r => r.res.mem.data 0) = some 100 := by decide +kernel

end Verif.Nn
