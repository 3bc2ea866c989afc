import Verif.Nn.PoolProps
/-
  C210-C213: adding a bias; views; inferred shapes; filters larger than the image.
-/
namespace Verif.Nn
open Verif Verif.Dense

variable {α : Type}

theorem biasAdd_ok [Zero α] [Add α] {input bias : DM α} {x b : Mat α} (hx : input.Is x) (hxd : input.h.rowSkip = input.h.numCols)
    (hb : bias.Is b) (hbd : bias.h.rowSkip = bias.h.numCols) (hb1 : 0 < b.cols) (hC : 0 < b.rows) :
    Res.Ok (biasAdd input bias) (fun r => ∃ y, r.Is y ∧ y.rows = x.rows ∧ y.cols = x.cols ∧ ∀ i, i < x.rows →
      (∀ c j, c < b.rows → j < x.cols / b.rows → y.cell i (c * (x.cols / b.rows) + j) = x.cell i (c * (x.cols / b.rows) + j) + flat b c) ∧
      (∀ k, b.rows * (x.cols / b.rows) ≤ k → k < x.cols → y.cell i k = 0)) := by
  unfold biasAdd
  simp only [hx.rows, hx.cols, hb.rows]
  rw [if_neg (by omega)]
  have hHW : b.rows * (x.cols / b.rows) ≤ x.cols := Nat.mul_div_le _ _
  have hpos : ∀ i c j, i < x.rows → c < b.rows → j < x.cols / b.rows →
      c * (x.cols / b.rows) + j < x.cols := fun i c j _ hc hj => by
    have := rm_lt hc hj (Nat.le_refl _); omega
  have main : Acc (fun _ : Unit => True) (x.rows * x.cols) (fun (_ : α) t => t)
      (fun s => forLoop 0 x.rows s fun i s => forLoop 0 b.rows s fun c s => forLoop 0 (x.cols / b.rows) s fun j s =>
        biasAddStep input bias (i * x.cols + c * (x.cols / b.rows) + j) c s)
      (fun o => (List.range x.rows).flatMap fun i => (List.range b.rows).flatMap fun c => (List.range (x.cols / b.rows)).flatMap fun j =>
        if o = i * x.cols + c * (x.cols / b.rows) + j then [x.cell i (c * (x.cols / b.rows) + j) + flat b c] else []) := by
    refine Acc.loop0 fun i hi => Acc.loop0 fun c hc => Acc.loop0 fun j hj => ?_
    have hlt : i * x.cols + c * (x.cols / b.rows) + j < x.rows * x.cols := by
      rw [Nat.add_assoc]; exact rm_lt hi (hpos i c j hi hc hj) (Nat.le_refl _)
    refine Acc.step hlt fun s _ hN => ?_
    unfold biasAddStep
    have h1 := rd_ok hx hxd hi (hpos i c j hi hc hj)
    rw [← Nat.add_assoc] at h1
    have h2 := rd_flat hb hbd (Nat.lt_of_lt_of_le hc (Nat.le_mul_of_pos_right b.rows hb1))
    rw [h1, h2]
    simp only [Res.ok_bind]
    rw [Buf.write_eq (by omega)]
    rfl
  refine (main ((), ⟨x.rows * x.cols, fun _ => 0⟩) trivial rfl).bind fun s ⟨_, hsz, hdat⟩ => ?_
  refine ⟨_, rfl, ⟨x.rows, x.cols, fun r c => s.2.data (r * x.cols + c)⟩, is_new hsz fun _ _ _ _ => rfl, rfl, rfl, ?_⟩
  intro i hi
  constructor
  · intro c j hc hj
    show s.2.data (i * x.cols + (c * (x.cols / b.rows) + j)) = _
    rw [hdat]
    beta_reduce
    rw [flatMap_single hi, flatMap_single hc, flatMap_single hj]
    · rw [if_pos (by omega)]; rfl
    · intro j' hj' hne; rw [if_neg (by omega)]
    · intro c' hc' hne
      refine flatMap_nil fun j' hj' => ?_
      rw [if_neg]
      intro e
      exact hne (rm_inj hj hj' (show c * (x.cols / b.rows) + j = c' * (x.cols / b.rows) + j' by omega)).1.symm
    · intro i' hi' hne
      refine flatMap_nil fun c' hc' => flatMap_nil fun j' hj' => ?_
      rw [if_neg]
      intro e
      exact hne (rm_inj (hpos i c j hi hc hj) (hpos i' c' j' hi' hc' hj') (show i * x.cols + (c * (x.cols / b.rows) + j) = i' * x.cols + (c' * (x.cols / b.rows) + j') by omega)).1.symm
  · intro k hk1 hk2
    show s.2.data (i * x.cols + k) = _
    rw [hdat]
    beta_reduce
    rw [flatMap_nil]
    · rfl
    · intro i' hi'
      refine flatMap_nil fun c' hc' => flatMap_nil fun j' hj' => ?_
      rw [if_neg]
      intro e
      have h1 := rm_inj hk2 (hpos i' c' j' hi' hc' hj') (show i * x.cols + k = i' * x.cols + (c' * (x.cols / b.rows) + j') by omega)
      have h2 := rm_lt hc' hj' (Nat.le_refl _)
      omega

/-- **C210**: `biasAdd(X, b)` adds to every pixel of channel `c` the `c`-th bias, if the columns of `X` are divided evenly among the channels. -/
theorem C210_biasAdd [Zero α] [Add α] (input bias : DM α) (x b : Mat α) (HW : Nat) (hx : input.Is x) (hxd : input.h.rowSkip = input.h.numCols)
    (hb : bias.Is b) (hbd : bias.h.rowSkip = bias.h.numCols) (hb1 : b.cols = 1) (hC : 0 < b.rows) (hcols : x.cols = b.rows * HW) :
    Res.Ok (biasAdd input bias) (fun r => ∃ y, r.Is y ∧ y.rows = x.rows ∧ y.cols = x.cols ∧
      ∀ i c j, i < x.rows → c < b.rows → j < HW → y.cell i (c * HW + j) = x.cell i (c * HW + j) + b.cell c 0) := by
  refine (biasAdd_ok hx hxd hb hbd (by omega) hC).mono fun r ⟨y, h1, h2, h3, h4⟩ => ⟨y, h1, h2, h3, fun i c j hi hc hj => ?_⟩
  have ef : flat b c = b.cell c 0 := by unfold flat; rw [hb1, Nat.div_one, Nat.mod_one]
  have e : x.cols / b.rows = HW := by rw [hcols]; exact Nat.mul_div_cancel_left _ hC
  have := (h4 i hi).1 c j hc (by rw [e]; exact hj)
  rw [e, ef] at this
  exact this

/-- A 2 x 4 matrix whose left half is used as a view. -/
def exWide : DM Int := ⟨Hdr.new 2 4, ⟨8, fun o => (o : Int)⟩⟩

/-- **C211** (refuted): `biasAdd` (like all kernels of this group) should work on every data matrix, and according to its documentation the bias is a
(1 x numChannels) row matrix. (0) For such a row matrix the first bias is added to all channels. (1) If the number of columns is not a
multiple of the number of biases, the remaining columns of the result are zero, without an error. (2) For a view on the left half of a wider matrix the
kernel reads the cells of the wider matrix: for the 2 x 2 view with the rows `[0, 1]` and `[4, 5]` and the bias 0 the result is `[0, 1]`, `[2, 3]`. -/
theorem C211_biasAdd_views_partial :
    (∀ (α : Type) (_ : Zero α) (_ : Add α) (input bias : DM α) (x b : Mat α), input.Is x → input.h.rowSkip = input.h.numCols → bias.Is b →
      bias.h.rowSkip = bias.h.numCols → b.rows = 1 → 0 < b.cols →
      Res.Ok (biasAdd input bias) (fun r => ∃ y, r.Is y ∧ y.rows = x.rows ∧ y.cols = x.cols ∧ ∀ i k, i < x.rows → k < x.cols → y.cell i k = x.cell i k + b.cell 0 0)) ∧
    (∀ (α : Type) (_ : Zero α) (_ : Add α) (input bias : DM α) (x b : Mat α), input.Is x → input.h.rowSkip = input.h.numCols → bias.Is b →
      bias.h.rowSkip = bias.h.numCols → b.cols = 1 → 0 < b.rows →
      Res.Ok (biasAdd input bias) (fun r => ∃ y, r.Is y ∧ ∀ i k, i < x.rows → b.rows * (x.cols / b.rows) ≤ k → k < x.cols → y.cell i k = 0)) ∧
    (∃ (v : Hdr) (bias : DM Int), exWide.h.view 0 2 0 2 = .ok v ∧ DM.Is ⟨v, exWide.mem⟩ ⟨2, 2, fun r c => (r * 4 + c : Nat)⟩ ∧ bias.Is ⟨1, 1, fun _ _ => 0⟩ ∧
      Res.Ok (biasAdd ⟨v, exWide.mem⟩ bias) (fun r => r.Is ⟨2, 2, fun r c => (r * 2 + c : Nat)⟩)) := by
  refine ⟨?_, ?_, ?_⟩
  · intro α _ _ input bias x b hx hxd hb hbd hb1 hC
    refine (biasAdd_ok hx hxd hb hbd hC (by omega)).mono fun r ⟨y, h1, h2, h3, h4⟩ => ⟨y, h1, h2, h3, fun i k hi hk => ?_⟩
    have := (h4 i hi).1 0 k (by omega) (by rw [hb1, Nat.div_one]; exact hk)
    rw [Nat.zero_mul, Nat.zero_add] at this
    rw [this]
    unfold flat
    rw [Nat.zero_div, Nat.zero_mod]
  · intro α _ _ input bias x b hx hxd hb hbd hb1 hC
    exact (biasAdd_ok hx hxd hb hbd (by omega) hC).mono fun r ⟨y, h1, h2, h3, h4⟩ => ⟨y, h1, fun i k hi hk1 hk2 => (h4 i hi).2 k hk1 hk2⟩
  · have hw : exWide.Is ⟨2, 4, fun r c => (r * 4 + c : Nat)⟩ := is_new rfl fun _ _ _ _ => rfl
    obtain ⟨v, hv, his⟩ := hw.view (rl := 0) (ru := 2) (cl := 0) (cu := 2) (by decide) (by decide)
    refine ⟨v, ⟨Hdr.new 1 1, ⟨1, fun _ => 0⟩⟩, hv, ?_, is_new rfl fun _ _ _ _ => rfl, ?_⟩
    · refine his.congr ⟨rfl, rfl, fun r c _ _ => ?_⟩
      show ((((0 : Int).toNat + r) * 4 + ((0 : Int).toNat + c) : Nat) : Int) = _
      simp
    · have ev : v = ⟨2, 2, 4, 0, 0, 0, 8, true, 0, 0⟩ := by
        have : exWide.h.view 0 2 0 2 = .ok ⟨2, 2, 4, 0, 0, 0, 8, true, 0, 0⟩ := rfl
        rw [this] at hv; cases hv; rfl
      subst ev
      refine ⟨_, rfl, is_new rfl ?_⟩
      intro r c hr hc
      have hr' : r < 2 := hr
      have hc' : c < 2 := hc
      have h1 : r = 0 ∨ r = 1 := by omega
      have h2 : c = 0 ∨ c = 1 := by omega
      rcases h1 with rfl | rfl <;> rcases h2 with rfl | rfl <;> rfl

theorem inferExtent_eq {inE f pad st : Nat} (h : f ≤ inE + 2 * pad) (hs : 0 < st) :
    inferExtent (some inE) (some f) (some pad) (some st) = .ok ((inE + 2 * pad - f) / st + 1) := by
  unfold inferExtent orOne
  simp only [Option.getD_some]
  rw [if_neg (by omega)]
  unfold sub64
  rw [if_pos h]

/-- **C212**: if all dimension arguments of `conv2d` (with bias), `avg_pool2d` or `max_pool2d` are constants and the batch size is the number of rows, the
shape inferred by the compiler is the shape of the run-time result. -/
theorem C212_inferred_shape [Field α] [LinearOrder α] (top : α) (g : Geo) (K : Nat) (data filter bias : DM α) (x f b : Mat α) (hl : g.Legal) (hs : g.Small K)
    (hx : Images g data x) (hf : Filters g K filter f) (hb : bias.Is b) (hbd : bias.h.rowSkip = bias.h.numCols) (hbk : K ≤ b.rows * b.cols) :
    (∃ cols, inferConv (some x.rows) (some f.rows) (.ofGeo g) = .ok (some g.B, some cols) ∧
      Res.Ok (conv2d data filter (some bias) g) (fun r => ∃ y, r.res.Is y ∧ y.rows = g.B ∧ y.cols = cols)) ∧
    (g.Small g.C → g.SameCount → ∃ cols, inferPool (some x.rows) (.ofGeo g) = .ok (some g.B, some cols) ∧
      (g.NotQuick ∨ (g.ph = 0 ∧ g.pw = 0) → Res.Ok (avgPoolForward data g) (fun r => ∃ y, r.res.Is y ∧ y.rows = g.B ∧ y.cols = cols)) ∧
      (g.NotQuick → Res.Ok (maxPoolForward top data g) (fun r => ∃ y, r.res.Is y ∧ y.rows = g.B ∧ y.cols = cols))) := by
  have e1 : inferExtent (some g.H) (some g.fh) (some g.ph) (some g.sh) = .ok g.P := inferExtent_eq hl.fh hl.sh
  have e2 : inferExtent (some g.W) (some g.fw) (some g.pw) (some g.sw) = .ok g.Q := inferExtent_eq hl.fw hl.sw
  constructor
  · refine ⟨K * (g.P * g.Q), ?_, ?_⟩
    · unfold inferConv GeoC.ofGeo
      simp only [e1, e2, Res.ok_bind, Option.map_some, hx.rows, hf.rows]
      congr 3; ring
    · exact (C203_conv2d_is_convolution g K data filter bias x f b hl hs hx hf hb hbd hbk).mono
        fun r ⟨_, _, y, h1, h2, h3, _⟩ => ⟨y, h1, h2, h3⟩
  · intro hsC hsc
    refine ⟨g.C * (g.P * g.Q), ?_, fun hq => ?_, fun hq => ?_⟩
    · unfold inferPool GeoC.ofGeo
      simp only [e1, e2, Res.ok_bind, hx.rows, orOne, Option.getD_some]
      congr 3; ring
    · exact (C205_avg_pool2d_is_mean g data x hl hsC hx hsc hq).mono fun r ⟨_, _, y, h1, h2, h3, _⟩ => ⟨y, h1, h2, h3⟩
    · exact (maxPool_zero_start top g data x hl hsC hx hsc hq).mono fun r ⟨_, _, y, h1, h2, h3, _⟩ => ⟨y, h1, h2, h3⟩

/-- **C213** (refuted): the compiler should report a dimension as unknown unless it is certain, and a window that does not fit should be rejected.
(1) Unknown arguments are silently replaced by 1: for a convolution whose image height is only known at run time the inferred number of columns is wrong; (2)
for pooling with different strides it is wrong even if everything is constant; (3) a constant stride 0 makes the compiler divide by zero; (4) a window larger
than the padded image is not rejected: the number of window positions wraps around. -/
theorem C213_inferred_shape_partial :
    (∃ (g : Geo) (k : GeoC), g.Legal ∧ k.Agrees g ∧ ∃ (data filter bias : DM Int) (cols : Nat), inferConv (some g.B) (some 1) k = .ok (some g.B, some cols) ∧
      Res.Ok (conv2d data filter (some bias) g) (fun r => r.res.h.numCols ≠ cols)) ∧
    (∃ (g : Geo), g.Legal ∧ ∃ (data : DM Int) (cols : Nat), inferPool (some g.B) (.ofGeo g) = .ok (some g.B, some cols) ∧
      Res.Ok (maxPoolForward 100 data g) (fun r => r.res.h.numCols ≠ cols)) ∧
    (∀ rowsX rowsF k, k.sh = some 0 → Res.IsUB (inferConv rowsX rowsF k)) ∧
    (∀ imgE filtE padE, imgE + 2 * padE < filtE → filtE < 2 ^ 32 → filtE < imgE + 2 * padE + 2 ^ 31 →
      Res.Ok (getPQ imgE filtE padE 1) (fun n => 2 ^ 31 < n ∨ n = 0)) := by
  refine ⟨?_, ?_, ?_, ?_⟩
  · refine ⟨⟨1, 1, 2, 1, 1, 1, 1, 1, 0, 0⟩, ⟨some 1, none, some 1, some 1, some 1, some 1, some 1, some 0, some 0⟩, by decide, ?_,
      ⟨Hdr.new 1 2, ⟨2, fun _ => 1⟩⟩, ⟨Hdr.new 1 1, ⟨1, fun _ => 1⟩⟩, ⟨Hdr.new 1 1, ⟨1, fun _ => 1⟩⟩, 1, by decide, ?_⟩
    · refine ⟨?_, ?_, ?_, ?_, ?_, ?_, ?_, ?_, ?_⟩ <;> intro v hv <;> cases hv <;> rfl
    · exact ⟨_, rfl, by decide⟩
  · refine ⟨⟨1, 1, 4, 4, 1, 2, 1, 2, 0, 0⟩, by decide, ⟨Hdr.new 1 16, ⟨16, fun _ => 1⟩⟩, 8, by decide, ?_⟩
    exact ⟨_, rfl, by decide⟩
  · intro rowsX rowsF k hk
    refine ⟨"integer division by zero", ?_⟩
    unfold inferConv inferExtent
    rw [hk]; rfl
  · intro a f p h1 h2 h3
    unfold getPQ
    rw [if_neg (by decide)]
    refine ⟨_, rfl, ?_⟩
    have e1 : u32 1 = 1 := rfl
    rw [e1, Nat.div_one, u32_eq (n := a) (by omega), u32_eq (n := p) (by omega), u32_eq (n := f) (by omega), u32_eq (n := a + 2 * p) (by omega)]
    unfold u32
    omega

/-- The hypotheses of C210 can be met. -/
example : Res.Ok (biasAdd exWide ⟨Hdr.new 2 1, ⟨2, fun o => 10 * o⟩⟩) (fun r => r.mem.data 0 = 0 ∧ r.mem.data 3 = 13 ∧ r.mem.data 6 = 16) :=
  ⟨_, rfl, by decide +kernel⟩

end Verif.Nn
