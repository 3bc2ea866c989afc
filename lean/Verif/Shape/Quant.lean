/-
  Model of src/runtime/local/kernels/Bin.h (50-128) and Quantize.h (41-111), and properties C116-C119.

  Simplifications: floating-point numbers are rational numbers and arithmetic is exact (no NaN, infinity or rounding; the checks of
  Bin.h for those are left out); `res == nullptr` on entry. For integer arguments of `bin`, subtraction is the one of int64_t, and a
  signed overflow is undefined behaviour.
-/
import Mathlib.Algebra.Order.Floor.Ring
import Mathlib.Data.Rat.Floor
import Mathlib.Tactic.Linarith
import Mathlib.Tactic.FieldSimp
import Mathlib.Tactic.Ring
import Verif.Shape.Encode

namespace Verif.Shape
open Verif Verif.Dense

/-! ### Specification: binning -/

/-- `v` belongs to bin `b` of `n` bins of equal width between `lo` and `hi`: a bin contains its upper but not its lower bound; the
first bin has everything below, the last bin everything above. -/
structure InBin (n : Int) (lo hi v : ℚ) (b : Int) : Prop where
  first : 0 ≤ b
  last : b < n
  above : b ≠ 0 → lo + b * ((hi - lo) / n) < v
  below : b ≠ n - 1 → v ≤ lo + (b + 1) * ((hi - lo) / n)

/-! ### Model: binning -/

/-- Bin.h:53-60: `validateArgsBin`. -/
def binArgsOk (n : Int) (lo hi : ℚ) : Res Unit :=
  if n ≤ 0 then .error (.throw "numBins must be greater than zero")
  else if hi < lo then .error (.throw "min must not be greater than max")
  else if lo = hi ∧ 1 < n then .error (.throw "min equals max, so numBins must not be greater than 1")
  else .ok ()

/-- Bin.h:113-123: one value. -/
def binValue (n : Int) (lo hi v : ℚ) : Int :=
  let w := (hi - lo) / n
  if v ≤ lo then 0
  else
    let b := ⌈(v - lo) / w⌉ - 1
    if b < 0 then 0
    else if n ≤ b then n - 1
    else b

/-- Bin.h:103-107: one cell. -/
def binCell (n : Int) (lo hi : ℚ) (x : DM ℚ) (r c : Nat) : Res Int :=
  if lo = hi ∧ n = 1 then .ok 0
  else do
    let v ← x.mem.read (x.addr r c)
    .ok (binValue n lo hi v)

/-- Bin.h:85-128. -/
def bin (n : Int) (lo hi : ℚ) (x : DM ℚ) (junk : Nat → Int) : Res (DM Int) := do
  binArgsOk n lo hi
  let res := DM.create x.numRows x.numCols junk
  let m ← forLoop 0 x.numRows res.mem fun r m => forLoop 0 x.numCols m fun c m => do
    let b ← binCell n lo hi x r c
    m.write (res.addr r c) b
  .ok ⟨res.h, m⟩

/-! ### Binning -/

theorem binValue_in {n : Int} {lo hi : ℚ} (hn : 0 < n) (hlt : lo < hi) (v : ℚ) : InBin n lo hi v (binValue n lo hi v) := by
  have hnq : (0 : ℚ) < n := by exact_mod_cast hn
  have hw : 0 < (hi - lo) / n := div_pos (by linarith) hnq
  unfold binValue
  simp only
  obtain ⟨w, hwd⟩ : ∃ w, w = (hi - lo) / (n : ℚ) := ⟨_, rfl⟩
  rw [← hwd] at hw ⊢
  have hlo : ∀ b : Int, b < ⌈(v - lo) / w⌉ → lo + b * w < v := by
    intro b hb
    have := Int.lt_ceil.1 hb
    rw [lt_div_iff₀ hw] at this
    linarith
  have hup : ∀ b : Int, ⌈(v - lo) / w⌉ ≤ b → v ≤ lo + b * w := by
    intro b hb
    have := Int.ceil_le.1 hb
    rw [div_le_iff₀ hw] at this
    linarith
  have mk : ∀ b : Int, 0 ≤ b → b < n → (b ≠ 0 → lo + b * w < v) → (b ≠ n - 1 → v ≤ lo + (b + 1) * w) → InBin n lo hi v b :=
    fun b p1 p2 p3 p4 => ⟨p1, p2, by rw [← hwd]; exact p3, by rw [← hwd]; exact p4⟩
  by_cases h1 : v ≤ lo
  · rw [if_pos h1]
    refine mk 0 (le_refl _) hn (fun h => absurd rfl h) (fun _ => ?_)
    push_cast; linarith
  · rw [if_neg h1]
    push Not at h1
    have hpos : 0 < ⌈(v - lo) / w⌉ := Int.ceil_pos.2 (div_pos (by linarith) hw)
    rw [if_neg (by omega)]
    by_cases h2 : n ≤ ⌈(v - lo) / w⌉ - 1
    · rw [if_pos h2]
      exact mk _ (by omega) (by omega) (fun _ => hlo (n - 1) (by omega)) (fun h => absurd rfl h)
    · rw [if_neg h2]
      refine mk _ (by omega) (by omega) (fun _ => hlo (⌈(v - lo) / w⌉ - 1) (by omega)) (fun _ => ?_)
      have := hup ⌈(v - lo) / w⌉ (le_refl _)
      push_cast; linarith

theorem InBin.le {n : Int} {lo hi v v' : ℚ} {b b' : Int} (hlt : lo ≤ hi) (h : InBin n lo hi v b) (h' : InBin n lo hi v' b') (hv : v ≤ v') :
    b ≤ b' := by
  by_contra hn
  push Not at hn
  have h0 := h'.first
  have h1 := h.above (by omega)
  have h2 := h'.below (by have := h.last; omega)
  have hnq : (0 : ℚ) ≤ n := by have := h.last; have := h.first; exact_mod_cast (by omega : (0 : Int) ≤ n)
  have hw : 0 ≤ (hi - lo) / n := div_nonneg (by linarith) hnq
  have : ((b' : ℚ) + 1) ≤ b := by exact_mod_cast hn
  nlinarith

/-- **C116.** `bin` of a matrix (or view) puts every value into its bin, for every number of bins and bounds it accepts, and larger
values never get a smaller bin; it rejects a number of bins below 1, `min` above `max`, and more than one bin for `min` = `max`. -/
theorem C116_bin (n : Int) (lo hi : ℚ) (x : DM ℚ) (a : Mat ℚ) (hx : x.Is a) (junk : Nat → Int) :
    (0 < n → (lo < hi ∨ lo = hi ∧ n = 1) → Res.Ok (bin n lo hi x junk) (fun y => ∃ b : Nat → Nat → Int, y.Is ⟨a.rows, a.cols, b⟩ ∧
      (∀ r c, r < a.rows → c < a.cols → InBin n lo hi (a.cell r c) (b r c) ∨ lo = hi ∧ b r c = 0) ∧
      ∀ r c r' c', r < a.rows → c < a.cols → r' < a.rows → c' < a.cols → a.cell r c ≤ a.cell r' c' → b r c ≤ b r' c')) ∧
    (¬ (0 < n ∧ (lo < hi ∨ lo = hi ∧ n = 1)) → Res.Throws (bin n lo hi x junk)) := by
  have e1 : x.numRows = a.rows := hx.rows
  have e2 : x.numCols = a.cols := hx.cols
  constructor
  · intro hn hb
    unfold bin binArgsOk
    rw [if_neg (by omega), if_neg (by rcases hb with h | h <;> linarith [h]), if_neg (by
      rintro ⟨q1, q2⟩
      rcases hb with h | h
      · exact absurd q1 (ne_of_lt h)
      · omega)]
    rw [Res.ok_bind, e1, e2]
    have hcell : ∀ r c, r < a.rows → c < a.cols → binCell n lo hi x r c = .ok (if lo = hi ∧ n = 1 then 0 else binValue n lo hi (a.cell r c)) := by
      intro r c hr hc
      unfold binCell
      split
      · rfl
      · rw [hx.read hr hc]; rfl
    refine (fill_cells (create_size a.rows a.cols junk) (fun r c => if lo = hi ∧ n = 1 then 0 else binValue n lo hi (a.cell r c)) _ ?_).bind ?_
    · intro r c m hr hc hm
      rw [hcell r c hr hc, Res.ok_bind, create_addr, Buf.write_eq (by rw [hm]; exact rm_lt hr hc (Nat.le_refl _))]
    rintro m ⟨m1, m2⟩
    refine Res.ok_iff.2 ⟨_, is_new m1 m2, ?_, ?_⟩
    · intro r c hr hc
      rcases hb with h | h
      · left; rw [if_neg (fun q => absurd q.1 (ne_of_lt h))]; exact binValue_in hn h _
      · right; exact ⟨h.1, by rw [if_pos h]⟩
    · intro r c r' c' hr hc hr' hc' hle
      rcases hb with h | h
      · rw [if_neg (fun q => absurd q.1 (ne_of_lt h)), if_neg (fun q => absurd q.1 (ne_of_lt h))]
        exact InBin.le (le_of_lt h) (binValue_in hn h _) (binValue_in hn h _) hle
      · rw [if_pos h, if_pos h]
  · intro hno
    unfold bin binArgsOk
    by_cases h1 : n ≤ 0
    · rw [if_pos h1]; exact ⟨_, rfl⟩
    · rw [if_neg h1]
      by_cases h2 : hi < lo
      · rw [if_pos h2]; exact ⟨_, rfl⟩
      · rw [if_neg h2]
        have h3 : lo = hi := by
          by_contra hne
          exact hno ⟨by omega, Or.inl (lt_of_le_of_ne (not_lt.1 h2) hne)⟩
        rw [if_pos ⟨h3, by
          by_contra hle
          exact hno ⟨by omega, Or.inr ⟨h3, by omega⟩⟩⟩]
        exact ⟨_, rfl⟩

/-- The hypotheses of `C116_bin` are met: 3 bins between 0 and 6. -/
example : Res.Ok (bin 3 0 6 ⟨Hdr.new 2 2, ⟨4, fun i => [-1, 2, 5/2, 7].getD i 0⟩⟩ (fun _ => 99))
    (fun y => (List.range 4).map y.mem.data = [0, 0, 1, 2]) := ⟨_, rfl, by decide +kernel⟩

/-- Subtraction of int64_t: a signed overflow is undefined behaviour. -/
def sub64 (a b : Int) : Res Int :=
  if -2 ^ 63 ≤ a - b ∧ a - b < 2 ^ 63 then .ok (a - b) else .error (.ub "signed overflow")

/-- Bin.h:91,113-123 for int64_t arguments: the width of a bin and one value. -/
def binValue64 (n lo hi v : Int) : Res Int := do
  let d ← sub64 hi lo
  let w : ℚ := d / n
  if v ≤ lo then .ok 0
  else do
    let e ← sub64 v lo
    let b := ⌈(e : ℚ) / w⌉ - 1
    .ok (if b < 0 then 0 else if n ≤ b then n - 1 else b)

/-- **C117 (refuted).** Full statement: `bin` puts every 64-bit integer into its bin, values above `max` into the last one. The code
subtracts `min` in the value type, so a value far above `max`, or bounds far apart, are a signed overflow. -/
theorem C117_bin_overflow_partial :
    (∀ n : Int, 0 < n → Res.IsUB (binValue64 n (-10) 10 (2 ^ 63 - 1))) ∧
    (∀ n v : Int, 0 < n → Res.IsUB (binValue64 n (-2 ^ 63) (2 ^ 63 - 1) v)) := by
  constructor
  · intro n _
    have h1 : sub64 10 (-10) = .ok 20 := by decide
    have h2 : sub64 (2 ^ 63 - 1) (-10) = .error (.ub "signed overflow") := by decide
    unfold binValue64
    rw [h1, Res.ok_bind]
    simp only
    rw [if_neg (by decide), h2]
    exact ⟨_, rfl⟩
  · intro n v _
    have h1 : sub64 (2 ^ 63 - 1) (-2 ^ 63) = .error (.ub "signed overflow") := by decide
    unfold binValue64
    rw [h1]; exact ⟨_, rfl⟩

/-- Where no difference overflows, integers are binned as in `C116_bin`. -/
theorem C117_bin_int_partial {n lo hi v : Int} (hd : hi - lo < 2 ^ 63) (hv : v - lo < 2 ^ 63) (hlt : lo < hi) :
    binValue64 n lo hi v = .ok (binValue n lo hi v) := by
  unfold binValue64 sub64 binValue
  rw [if_pos ⟨by omega, by omega⟩, Res.ok_bind]
  simp only [Int.cast_le]
  split
  · rfl
  · rw [if_pos ⟨by omega, by omega⟩, Res.ok_bind]
    simp only [Int.cast_sub]

/-! ### Model: quantization -/

/-- `std::roundf`: to the nearest integer, half-way cases away from zero. -/
def roundAway (v : ℚ) : Int := if 0 ≤ v then ⌊v + 1 / 2⌋ else -⌊-v + 1 / 2⌋

/-- Quantize.h:43-45: the range, extended to contain 0. -/
def quantLow (min : ℚ) : ℚ := if 0 < min then 0 else min
def quantHigh (max : ℚ) : ℚ := if max < 0 then 0 else max

/-- Quantize.h:41-62: `scale` and `quantized_zero`. With `scale` = 0 the zero point is the conversion of a NaN to an integer. -/
def quantParams (min max : ℚ) : Res (ℚ × Int) :=
  let scale := (quantHigh max - quantLow min) / (1 + 255 - 0)
  if scale = 0 then .error (.ub "NaN converted to an integer")
  else
    let mapped := 255 - quantHigh max / scale
    .ok (scale, if mapped < 0 then 0 else if 255 < mapped then 255 else roundAway mapped)

/-- Quantize.h:64-74. -/
def quantValue (v scale : ℚ) (zero : Int) : Int :=
  let u := zero + v / scale
  let u := if 255 < u then 255 else u
  let u := if u < 0 then 0 else u
  roundAway u

/-- Quantize.h:85-111. -/
def quantize (x : DM ℚ) (min max : ℚ) (junk : Nat → Int) : Res (DM Int) := do
  let res := DM.create x.numRows x.numCols junk
  let p ← quantParams min max
  let m ← forLoop 0 x.numRows res.mem fun r m => forLoop 0 x.numCols m fun c m => do
    let v ← x.mem.read (x.addr r c)
    m.write (res.addr r c) (quantValue v p.1 p.2)
  .ok ⟨res.h, m⟩

/-! ### Quantization -/

theorem roundAway_nonneg {v : ℚ} (h : 0 ≤ v) : (roundAway v : ℚ) ≤ v + 1 / 2 ∧ v - 1 / 2 < roundAway v := by
  unfold roundAway
  rw [if_pos h]
  have h1 := Int.floor_le (v + 1 / 2)
  have h2 := Int.lt_floor_add_one (v + 1 / 2)
  exact ⟨h1, by linarith⟩

theorem roundAway_mono {v w : ℚ} (h : 0 ≤ v) (hvw : v ≤ w) : roundAway v ≤ roundAway w := by
  unfold roundAway
  rw [if_pos h, if_pos (by linarith)]
  exact Int.floor_mono (by linarith)

theorem roundAway_range {v : ℚ} (h0 : 0 ≤ v) (h1 : v ≤ 255) : 0 ≤ roundAway v ∧ roundAway v ≤ 255 := by
  have e0 : roundAway 0 = 0 := by decide +kernel
  have e1 : roundAway 255 = 255 := by decide +kernel
  exact ⟨by have := roundAway_mono (le_refl 0) h0; omega, by have := roundAway_mono h0 h1; omega⟩

theorem roundAway_int {z : Int} (h : 0 ≤ z) : roundAway z = z := by
  unfold roundAway
  rw [if_pos (by exact_mod_cast h), Int.floor_eq_iff]
  constructor <;> linarith

/-- What a quantized value stands for. -/
def dequantized (scale : ℚ) (zero q : Int) : ℚ := (q - zero) * scale

theorem clip_range (u : ℚ) : 0 ≤ (if (if 255 < u then (255 : ℚ) else u) < 0 then 0 else if 255 < u then 255 else u) ∧
    (if (if 255 < u then (255 : ℚ) else u) < 0 then 0 else if 255 < u then 255 else u) ≤ 255 := by
  split_ifs <;> constructor <;> linarith

/-- **C118.** Quantization with a range that contains a value other than 0: every result is in 0..255, 0 is represented exactly,
larger values never get a smaller code, and every value in the range (extended to 0) is represented with an error of at most one and
a half steps, a step being 1/256 of the range. -/
theorem C118_quantize (x : DM ℚ) (a : Mat ℚ) (hx : x.Is a) (min max : ℚ) (hr : min < 0 ∨ 0 < max) (junk : Nat → Int) :
    ∃ zero : Int, 0 ≤ zero ∧ zero ≤ 255 ∧
    Res.Ok (quantize x min max junk) (fun y => ∃ q : Nat → Nat → Int, y.Is ⟨a.rows, a.cols, q⟩ ∧
      (∀ r c, r < a.rows → c < a.cols → 0 ≤ q r c ∧ q r c ≤ 255 ∧ (a.cell r c = 0 → q r c = zero)) ∧
      (∀ r c r' c', r < a.rows → c < a.cols → r' < a.rows → c' < a.cols → a.cell r c ≤ a.cell r' c' → q r c ≤ q r' c') ∧
      ∀ r c, r < a.rows → c < a.cols → (min ≤ a.cell r c ∨ 0 ≤ a.cell r c) → (a.cell r c ≤ max ∨ a.cell r c ≤ 0) →
        let step := ((if max < 0 then 0 else max) - (if 0 < min then 0 else min)) / 256
        |dequantized step zero (q r c) - a.cell r c| ≤ 3 / 2 * step) := by
  have e1 : x.numRows = a.rows := hx.rows
  have e2 : x.numCols = a.cols := hx.cols
  have hlo : quantLow min ≤ 0 := by unfold quantLow; split <;> linarith
  have hhi : 0 ≤ quantHigh max := by unfold quantHigh; split <;> linarith
  have hlt : quantLow min < quantHigh max := by
    rcases hr with h | h
    · have : quantLow min = min := by unfold quantLow; rw [if_neg (by linarith)]
      linarith
    · have : quantHigh max = max := by unfold quantHigh; rw [if_neg (by linarith)]
      linarith
  have hsc : (quantHigh max - quantLow min) / (1 + 255 - 0) = (quantHigh max - quantLow min) / 256 := by norm_num
  have hs : 0 < (quantHigh max - quantLow min) / 256 := by apply div_pos <;> linarith
  obtain ⟨scale, hscale⟩ : ∃ s, s = (quantHigh max - quantLow min) / 256 := ⟨_, rfl⟩
  rw [← hscale] at hs
  have h256 : quantHigh max = quantLow min + 256 * scale := by rw [hscale]; ring
  obtain ⟨mapped, hmapped⟩ : ∃ m, m = 255 - quantHigh max / scale := ⟨_, rfl⟩
  obtain ⟨zero, hzero⟩ : ∃ z : Int, z = if mapped < 0 then 0 else if 255 < mapped then 255 else roundAway mapped := ⟨_, rfl⟩
  have hdiv : quantHigh max / scale * scale = quantHigh max := div_mul_cancel₀ _ (ne_of_gt hs)
  have hmle : mapped ≤ 255 := by rw [hmapped]; have : 0 ≤ quantHigh max / scale := div_nonneg hhi (le_of_lt hs); linarith
  have hmge : -1 ≤ mapped := by
    rw [hmapped]
    have : quantHigh max / scale ≤ 256 := by rw [div_le_iff₀ hs]; linarith
    linarith
  have hz0 : 0 ≤ zero ∧ zero ≤ 255 := by
    rw [hzero]
    split_ifs with q1 q2
    · omega
    · omega
    · exact roundAway_range (not_lt.1 q1) hmle
  -- the zero point is near 255 - max / scale
  have hznear : (zero : ℚ) ≤ mapped + 1 ∧ mapped - 1 / 2 ≤ zero ∧ (0 ≤ mapped → (zero : ℚ) ≤ mapped + 1 / 2) := by
    by_cases q1 : mapped < 0
    · have : zero = 0 := by rw [hzero, if_pos q1]
      rw [this]; push_cast
      exact ⟨by linarith, by linarith, fun h => by linarith⟩
    · have : zero = roundAway mapped := by rw [hzero, if_neg q1, if_neg (by linarith)]
      have := roundAway_nonneg (not_lt.1 q1)
      rw [‹zero = _›]
      exact ⟨by linarith, by linarith, fun _ => by linarith⟩
  have hp : quantParams min max = .ok (scale, zero) := by
    unfold quantParams
    simp only
    rw [hsc, ← hscale, if_neg (ne_of_gt hs), ← hmapped, ← hzero]
  refine ⟨zero, hz0.1, hz0.2, ?_⟩
  unfold quantize
  rw [e1, e2]
  simp only [hp, Res.ok_bind]
  refine (fill_cells (create_size a.rows a.cols junk) (fun r c => quantValue (a.cell r c) scale zero) _ ?_).bind ?_
  · intro r c m hr hc hm
    rw [hx.read hr hc, Res.ok_bind, create_addr, Buf.write_eq (by rw [hm]; exact rm_lt hr hc (Nat.le_refl _))]
  rintro m ⟨m1, m2⟩
  refine Res.ok_iff.2 ⟨_, is_new m1 m2, ?_, ?_, ?_⟩
  · intro r c _ _
    have := clip_range (zero + a.cell r c / scale)
    have h2 := roundAway_range this.1 this.2
    refine ⟨h2.1, h2.2, fun h => ?_⟩
    show quantValue (a.cell r c) scale zero = zero
    unfold quantValue
    simp only [h, zero_div, add_zero]
    have z1 : ¬ ((255 : ℚ) < zero) := by have : (zero : ℚ) ≤ 255 := by exact_mod_cast hz0.2
                                         linarith
    have z0 : ¬ ((zero : ℚ) < 0) := by have : (0 : ℚ) ≤ zero := by exact_mod_cast hz0.1
                                       linarith
    rw [if_neg z1, if_neg z0, roundAway_int hz0.1]
  · intro r c r' c' _ _ _ _ hle
    show quantValue _ _ _ ≤ quantValue _ _ _
    unfold quantValue
    simp only
    refine roundAway_mono (clip_range _).1 ?_
    have : (zero : ℚ) + a.cell r c / scale ≤ zero + a.cell r' c' / scale := by
      have := div_le_div_of_nonneg_right hle (le_of_lt hs); linarith
    split_ifs <;> linarith
  · intro r c _ _ hmin hmax
    have hv1 : quantLow min ≤ a.cell r c := by
      unfold quantLow; split <;> rcases hmin with h | h <;> linarith
    have hv2 : a.cell r c ≤ quantHigh max := by
      unfold quantHigh; split <;> rcases hmax with h | h <;> linarith
    have hstep : ((if max < 0 then 0 else max) - (if 0 < min then 0 else min)) / 256 = scale := hscale.symm
    rw [hstep]
    unfold dequantized
    generalize a.cell r c = v at *
    obtain ⟨t, ht⟩ : ∃ t, t = v / scale := ⟨_, rfl⟩
    have htv : t * scale = v := by rw [ht]; exact div_mul_cancel₀ _ (ne_of_gt hs)
    have ht2 : t ≤ 255 - mapped := by
      rw [ht, hmapped]
      have := div_le_div_of_nonneg_right hv2 (le_of_lt hs)
      linarith
    have ht1 : -1 - mapped ≤ t := by
      rw [ht, hmapped, le_div_iff₀ hs]
      nlinarith
    have hq : |((quantValue v scale zero : Int) : ℚ) - zero - t| ≤ 3 / 2 := by
      unfold quantValue
      simp only
      rw [← ht]
      have hc := clip_range (zero + t)
      have hra := roundAway_nonneg hc.1
      generalize hu : (if (if 255 < (zero : ℚ) + t then (255 : ℚ) else zero + t) < 0 then 0 else if 255 < (zero : ℚ) + t then 255 else zero + t) = u at *
      -- the clipped value is within one step, and where it is clipped it is an integer
      by_cases c1 : 255 < (zero : ℚ) + t
      · rw [if_pos c1, if_neg (by norm_num)] at hu
        have : roundAway u = 255 := by rw [← hu]; decide +kernel
        rw [this, abs_le]; push_cast
        exact ⟨by linarith [hznear.1], by linarith⟩
      · rw [if_neg c1] at hu
        by_cases c2 : (zero : ℚ) + t < 0
        · rw [if_pos c2] at hu
          have : roundAway u = 0 := by rw [← hu]; decide +kernel
          rw [this, abs_le]; push_cast
          exact ⟨by linarith, by linarith [hznear.2.1]⟩
        · rw [if_neg c2] at hu
          rw [abs_le]
          exact ⟨by linarith, by linarith⟩
    have : ((quantValue v scale zero : Int) - zero : ℚ) * scale - v = (((quantValue v scale zero : Int) : ℚ) - zero - t) * scale := by
      rw [← htv]; ring
    rw [this, abs_mul, abs_of_pos hs]
    exact mul_le_mul_of_nonneg_right hq (le_of_lt hs)

/-- The hypotheses of `C118_quantize` are met: the range -1..1, zero point 127. -/
example : (quantParams (-1) 1).toOption = some (1 / 128, 127) ∧
    [0, 1, -1, 1 / 2].map (quantValue · (1 / 128) 127) = [127, 255, 0, 191] := by decide +kernel

/-- **C119 (refuted).** Full statement: quantization accepts every range. For the range 0..0 (a constant zero input), and for every
`min` ≥ 0 ≥ `max`, the scale is 0 and the zero point is computed by converting a NaN to an integer. -/
theorem C119_quantize_range_partial (x : DM ℚ) (min max : ℚ) (h1 : 0 ≤ min) (h2 : max ≤ 0) (junk : Nat → Int) :
    Res.IsUB (quantize x min max junk) := by
  have hl : quantLow min = 0 := by unfold quantLow; split <;> linarith
  have hh : quantHigh max = 0 := by unfold quantHigh; split <;> linarith
  unfold quantize quantParams
  simp only [hl, hh]
  rw [if_pos (by norm_num)]
  exact ⟨_, rfl⟩

end Verif.Shape
