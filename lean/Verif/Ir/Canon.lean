/-
  Model of simplification rewrites in src/ir/daphneir/Canonicalize.cpp: scalar left operands of elementwise operations (262-407), bitmap and
  position list conversions (648-660), extraction of a column from a frame under construction (677-712). Properties C131-C137.
-/
import Mathlib.Tactic.Ring
import Mathlib.Algebra.Order.Field.Basic
import Verif.Ir.Fold
import Verif.Dense.Ew
import Verif.Shape.CTable
import Verif.Rel.FrameThms

namespace Verif.Ir
open Verif Verif.Dense Verif.Shape

/-! ### `a - X` with a scalar `a` (integers) -/

/-- Canonicalize.cpp:337-352: a cell of `(X * -1) + a`. The product has the type that is inferred from `X` and the 64-bit constant -1;
the sum keeps the result type of the subtraction, and its operands are cast to it (AdaptTypesToKernelsPass). -/
def rewrittenSub (t tX : IT) (a x : Int) : Res Int := do
  let R := t.mostGeneral tX
  let m ← runBinary .mul tX .si64 x (-1)
  kernel .add R (R.conv m) (R.conv a)

theorem conv_congr {R : IT} (hb : R ≠ .bool) {x y : Int} (h : (2 ^ R.width : Int) ∣ x - y) : R.conv x = R.conv y := by
  have e : x % (2 ^ R.width : Int) = y % (2 ^ R.width : Int) := Int.emod_eq_emod_iff_emod_sub_eq_zero.2 (Int.emod_eq_zero_of_dvd h)
  rcases nonbool_cases hb with ⟨hs, -⟩ | ⟨hs, -⟩
  · rw [conv_signed hs, conv_signed hs, ← Int.emod_bmod x, ← Int.emod_bmod y]
    push_cast
    rw [e]
  · rw [conv_unsigned hs hb, conv_unsigned hs hb, e]

theorem conv_dvd {R : IT} (hb : R ≠ .bool) (x : Int) : (2 ^ R.width : Int) ∣ R.conv x - x := by
  rcases nonbool_cases hb with ⟨hs, -⟩ | ⟨hs, -⟩
  · rw [conv_signed hs]
    apply Int.dvd_of_emod_eq_zero
    apply Int.emod_eq_emod_iff_emod_sub_eq_zero.1
    have := Int.bmod_emod (x := x) (m := 2 ^ R.width)
    push_cast at this
    exact this
  · rw [conv_unsigned hs hb]
    apply Int.dvd_of_emod_eq_zero
    apply Int.emod_eq_emod_iff_emod_sub_eq_zero.1
    exact Int.emod_emod_of_dvd _ (dvd_refl _)

theorem conv_id {R : IT} {x : Int} (h : R.InRange x) : R.conv x = x := by
  cases R <;> simp [IT.InRange, IT.conv, IT.signed, IT.width] at * <;>
    first
    | omega
    | (refine Int.bmod_eq_of_le ?_ ?_ <;> norm_num <;> omega)

/-- **C131.** With an integer scalar `a` and an integer matrix `X`, the rewritten `a - X` gives what `a - x` gives for every cell `x`, in the
result type, provided that `x` is not the most negative number of its type (and not both are booleans). -/
theorem C131_scalar_minus_matrix (t tX : IT) (a x r : Int) (hx : tX.InRange x) (hb : t.mostGeneral tX ≠ .bool)
    (h32 : t.mostGeneral tX = .si32 → x ≠ -2 ^ 31) (h64 : x ≠ -2 ^ 63)
    (h : runBinary .sub t tX a x = .ok r) : rewrittenSub t tX a x = .ok r := by
  have hm : ∃ m, runBinary .mul tX .si64 x (-1) = .ok m ∧ (2 ^ 64 : Int) ∣ m - -x := by
    by_cases hu : tX = .ui64
    · subst hu
      refine ⟨IT.conv .ui64 (IT.conv .ui64 x * IT.conv .ui64 (-1)), by rfl, ?_⟩
      have h1 := conv_dvd (R := .ui64) (by decide) (IT.conv .ui64 x * IT.conv .ui64 (-1))
      rw [conv_id hx] at h1 ⊢
      have h2 : IT.conv .ui64 (-1) = 2 ^ 64 - 1 := by decide
      rw [h2] at h1 ⊢
      simp only [IT.width] at h1
      have h3 : (2 ^ 64 : Int) ∣ x * (2 ^ 64 - 1) - -x := ⟨x, by ring⟩
      have := dvd_add h1 h3
      have e : IT.conv .ui64 (x * (2 ^ 64 - 1)) - x * (2 ^ 64 - 1) + (x * (2 ^ 64 - 1) - -x) = IT.conv .ui64 (x * (2 ^ 64 - 1)) - -x := by ring
      rwa [e] at this
    · have hM : tX.mostGeneral .si64 = .si64 := by cases tX <;> first | rfl | exact absurd rfl hu
      have hx' : IT.InRange .si64 x := by
        cases tX <;> first | exact absurd rfl hu | (simp [IT.InRange, IT.signed, IT.width] at *; omega)
      refine ⟨-x, ?_, by simp⟩
      unfold runBinary
      rw [hM, conv_id hx', conv_id (show IT.InRange .si64 (-1) by decide)]
      simp only [kernel, arith]
      have hr : IT.InRange .si64 (x * -1) := by simp [IT.InRange, IT.signed, IT.width] at *; omega
      rw [if_neg (fun h => h.2 hr), conv_id hr]
      congr 1; ring
  obtain ⟨m, hm1, hm2⟩ := hm
  unfold rewrittenSub
  rw [hm1]
  simp only [Res.ok_bind]
  unfold runBinary at h
  generalize hR : t.mostGeneral tX = R at *
  have hw : (2 ^ R.width : Int) ∣ 2 ^ 64 := by cases R <;> simp [IT.width] <;> norm_num
  have hcm : R.conv m = R.conv (-x) := conv_congr hb (hw.trans hm2)
  rw [hcm]
  simp only [kernel] at h ⊢
  by_cases hs : R = .si32 ∨ R = .si64
  · have hxR : R.InRange x ∧ R.InRange (-x) := by
      rcases hs with rfl | rfl <;> cases t <;> cases tX <;> simp [IT.mostGeneral, IT.generality] at hR <;>
        simp [IT.InRange, IT.signed, IT.width] at * <;> omega
    rw [conv_id hxR.2]
    rw [conv_id hxR.1] at h
    rw [← h]
    congr 1; ring
  · have hok : ∀ v, arith R v = .ok (R.conv v) := by
      intro v; unfold arith
      rw [if_neg (by rintro ⟨h1, -⟩; exact hs h1)]
    rw [hok] at h ⊢
    rw [← h]
    congr 1
    refine conv_congr hb ?_
    have d1 := conv_dvd hb (-x)
    have d2 := conv_dvd hb x
    have := dvd_add d1 d2
    have e : R.conv (-x) + R.conv a - (R.conv a - R.conv x) = R.conv (-x) - -x + (R.conv x - x) := by ring
    rwa [e]

example : rewrittenSub .si64 .ui8 3 200 = .ok (-197) ∧ rewrittenSub .ui32 .si8 0 1 = .ok (2 ^ 32 - 1) := by decide +kernel

/-- **C132 (refuted).** Full statement: C131 without the exceptions. False: for the most negative number `a - x` can be defined where the
rewritten program overflows; and `true - true` is false, the rewritten `(true * -1) + true` is true. -/
theorem C132_scalar_minus_matrix_partial :
    (∀ a : Int, -2 ^ 63 ≤ a → a < 0 → runBinary .sub .si64 .si64 a (-2 ^ 63) = .ok (a + 2 ^ 63) ∧ Res.IsUB (rewrittenSub .si64 .si64 a (-2 ^ 63))) ∧
    (∀ a : Int, -2 ^ 31 ≤ a → a < 0 → runBinary .sub .si32 .si32 a (-2 ^ 31) = .ok (a + 2 ^ 31) ∧ Res.IsUB (rewrittenSub .si32 .si32 a (-2 ^ 31))) ∧
    runBinary .sub .bool .bool 1 1 = .ok 0 ∧ rewrittenSub .bool .bool 1 1 = .ok 1 := by
  refine ⟨?_, ?_, by decide +kernel, by decide +kernel⟩
  · intro a h1 h2
    have ha : IT.InRange .si64 a := by simp [IT.InRange, IT.signed, IT.width]; omega
    have hr : IT.InRange .si64 (a + 2 ^ 63) := by simp [IT.InRange, IT.signed, IT.width]; omega
    constructor
    · unfold runBinary
      show kernel .sub .si64 _ _ = _
      rw [show IT.mostGeneral .si64 .si64 = .si64 from rfl, conv_id ha, conv_id (x := -2 ^ 63) (by decide)]
      simp only [kernel, arith]
      have e : a - -2 ^ 63 = a + 2 ^ 63 := by ring
      rw [e, if_neg (fun h => h.2 hr), conv_id hr]
    · exact ⟨_, rfl⟩
  · intro a h1 h2
    have ha : IT.InRange .si32 a := by simp [IT.InRange, IT.signed, IT.width]; omega
    have hr : IT.InRange .si32 (a + 2 ^ 31) := by simp [IT.InRange, IT.signed, IT.width]; omega
    constructor
    · unfold runBinary
      show kernel .sub .si32 _ _ = _
      rw [show IT.mostGeneral .si32 .si32 = .si32 from rfl, conv_id ha, conv_id (x := -2 ^ 31) (by decide)]
      simp only [kernel, arith]
      have e : a - -2 ^ 31 = a + 2 ^ 31 := by ring
      rw [e, if_neg (fun h => h.2 hr), conv_id hr]
    · have e1 : runBinary .mul .si32 .si64 (-2 ^ 31) (-1) = .ok (2 ^ 31) := by decide +kernel
      unfold rewrittenSub
      rw [e1]
      show Res.IsUB (kernel .add .si32 (IT.conv .si32 (2 ^ 31)) (IT.conv .si32 a))
      rw [conv_id ha, show IT.conv .si32 (2 ^ 31) = -2 ^ 31 by decide]
      simp only [kernel, arith]
      have hn : ¬ IT.InRange .si32 (-2 ^ 31 + a) := by simp [IT.InRange, IT.signed, IT.width]; omega
      rw [if_pos ⟨by simp, hn⟩]
      exact ⟨_, rfl⟩

/-! ### `a / X` with a scalar `a` (floating point) -/

/-- A floating-point number: arithmetic is exact (no rounding, no underflow) except for overflow. -/
inductive Fl where
  | nan
  | inf (neg : Bool)
  | fin (v : ℚ)
  deriving DecidableEq

/-- A result is finite up to the largest finite number `M`. -/
def Fl.ofQ (M v : ℚ) : Fl := if |v| ≤ M then .fin v else .inf (decide (v < 0))

/-- Specification: `a / x` for finite `a` and finite, non-zero `x`. -/
def divQ (M a x : ℚ) : Fl := Fl.ofQ M (a / x)

/-- Multiplication with a finite number. -/
def Fl.mul (M : ℚ) : Fl → ℚ → Fl
  | .nan, _ => .nan
  | .inf n, v => if v = 0 then .nan else .inf (n != decide (v < 0))
  | .fin u, v => Fl.ofQ M (u * v)

/-- Canonicalize.cpp:390-406: a cell of `(X ^ -1.0) * a`. -/
def rewrittenDiv (M a x : ℚ) : Fl := Fl.mul M (Fl.ofQ M x⁻¹) a

/-- **C133 (partly refuted).** Full statement: the rewritten `a / X` gives `a / x` for every cell. True (up to rounding) if the reciprocal of
`x` does not overflow; if it does, the result is infinite or NaN whatever `a / x` is, for example NaN for `0.0 / x`. -/
theorem C133_scalar_div_matrix_partial (M a x : ℚ) (hM : 0 ≤ M) (hx : x ≠ 0) :
    (|x⁻¹| ≤ M → rewrittenDiv M a x = divQ M a x) ∧
    (M < |x⁻¹| → (a = 0 → rewrittenDiv M a x = .nan ∧ divQ M a x = .fin 0) ∧
      (a ≠ 0 → |a / x| ≤ M → divQ M a x = .fin (a / x) ∧ ∃ n, rewrittenDiv M a x = .inf n)) := by
  constructor
  · intro h
    unfold rewrittenDiv divQ
    rw [Fl.ofQ, if_pos h]
    simp only [Fl.mul]
    congr 1; ring
  · intro h
    have hn : ¬ |x⁻¹| ≤ M := not_le.2 h
    refine ⟨?_, ?_⟩
    · rintro rfl
      unfold rewrittenDiv divQ
      rw [Fl.ofQ, if_neg hn]
      simp [Fl.mul, Fl.ofQ, hM]
    · intro ha h2
      unfold rewrittenDiv divQ
      rw [Fl.ofQ, if_pos h2, Fl.ofQ, if_neg hn]
      exact ⟨rfl, _, by simp [Fl.mul, ha]; rfl⟩

example : (0 : ℚ) ≤ 1000 ∧ (1 / 5000 : ℚ) ≠ 0 ∧ 1000 < |(1 / 5000 : ℚ)⁻¹| ∧ |((1 / 2 : ℚ) / (1 / 5000))| > 1000 ∧ |((1 / 10 : ℚ) / (1 / 5000))| ≤ 1000 := by
  refine ⟨by norm_num, by norm_num, by norm_num, by norm_num, by norm_num⟩

/-! ### `a + X` when the type of `a` is not known yet -/

/-- What the compiler knows about the type of an operand. -/
inductive OpTy where
  | unknown | scalar | matrix | frame
  deriving DecidableEq

/-- Canonicalize.cpp:313-318 (no strings): an operand is taken for a scalar if it is not a matrix or frame. -/
def swapsAdd (l r : OpTy) : Bool :=
  let isSca : OpTy → Bool := fun t => !(t == .matrix || t == .frame)
  isSca l && !isSca r

/-- The matrices an addition of two matrix operands is executed on, after the rewrite. -/
def addMats {α : Type} (add : α → α → α) (junk : Nat → α) (tl tr : OpTy) (x y : DM α) : Res (DM α) :=
  if swapsAdd tl tr then Dense.ewBinaryMat add junk y x else Dense.ewBinaryMat add junk x y

/-- The row-vector case of EwBinaryMat.h for any number of rows of the other matrix: the result is a single row. -/
theorem left_row_vector {α : Type} (f : α → α → α) (junk : Nat → α) (x y : DM α) (a b : Mat α)
    (hx : x.Is a) (hy : y.Is b) (h1 : a.rows = 1) (h2 : 2 ≤ b.rows) (h3 : a.cols = b.cols) :
    Res.Ok (Dense.ewBinaryMat f junk x y) (fun z => z.Is ⟨1, b.cols, fun _ c => f (a.cell 0 c) (b.cell 0 c)⟩) := by
  have e1 : x.numRows = a.rows := hx.rows
  have e2 : x.numCols = a.cols := hx.cols
  have e3 : y.numRows = b.rows := hy.rows
  have e4 : y.numCols = b.cols := hy.cols
  unfold Dense.ewBinaryMat Dense.ewInto
  rw [if_neg (by omega), if_pos (by omega)]
  refine (Dense.ewLoop_fresh hx (b := fun r c => b.cell 0 c) ?_).bind ?_
  · intro r c hr hc; exact hy.read (by omega) (by omega)
  · intro m hm
    refine ⟨_, rfl, hm.congr ⟨h1, h3, fun r c hr hc => ?_⟩⟩
    simp only at hr
    have : r = 0 := by omega
    subst this; rfl

/-- **C134 (refuted).** Full statement: the rewrite of additions does not change the result. If the type of the left operand is not known
when the rewrite runs (an untyped function parameter), the operands are swapped: for a matrix with at least two rows plus a row vector, the
original program adds the vector to every row, the rewritten one returns a single row (the first). With known types there is no swap. -/
theorem C134_add_unknown_left_partial {α : Type} (add : α → α → α) (junk : Nat → α) (x y : DM α) (a b : Mat α) (hx : x.Is a) (hy : y.Is b)
    (h1 : 2 ≤ a.rows) (h2 : b.rows = 1) (h3 : b.cols = a.cols) :
    Res.Ok (addMats add junk .matrix .matrix x y) (fun z => z.Is ⟨a.rows, a.cols, fun r c => add (a.cell r c) (b.cell 0 (if b.cols = 1 then 0 else c))⟩) ∧
    Res.Ok (addMats add junk .unknown .matrix x y) (fun z => z.Is ⟨1, a.cols, fun _ c => add (b.cell 0 c) (a.cell 0 c)⟩) := by
  constructor
  · show Res.Ok (Dense.ewBinaryMat add junk x y) _
    refine ((Dense.C38_ewBinaryMat_partial add junk x y a b hx hy).1 (Or.inr (Or.inl ⟨h2, h3⟩))).mono fun z hz => hz.congr ?_
    refine ⟨rfl, rfl, fun r c hr hc => ?_⟩
    simp [Mat.zip, Mat.stretch, h2]
  · show Res.Ok (Dense.ewBinaryMat add junk y x) _
    exact left_row_vector add junk y x b a hy hx h2 h1 h3

/-! ### Position list to bitmap to position list -/

variable {α : Type}

/-- The conversion of positions (all below `n`) to a bitmap and back gives the distinct positions in ascending order. -/
theorem round_trip_sorted [DecidableEq α] (zero one : α) (hne : zero ≠ one) (x : DM Nat) (l : List Nat) (hx : x.Is (column l 0)) (n : Nat)
    (hb : ∀ p ∈ l, p < n) (junk : Nat → Nat) :
    Res.Ok (posListToBitmap zero one x n >>= fun y => bitmapToPosList one y junk)
      (fun z => Shows z (column ((List.range n).filter (· ∈ l)) 0)) := by
  refine ((C107_posList_to_bitmap zero one x _ hx n).1 rfl fun r hr => ?_).bind ?_
  · simp only [column] at hr ⊢
    rw [List.getD_eq_getElem _ _ hr]; exact hb _ (List.getElem_mem hr)
  · rintro y ⟨bits, h1, h2⟩
    refine ((C108_bitmap_to_posList one y _ h1 junk).1 rfl).mono fun z hz => ?_
    have hmem : ∀ p, p < n → (bits p = one ↔ p ∈ l) := by
      intro p hp
      constructor
      · intro h
        by_contra hno
        have := (h2 p hp).2 fun r hr e => by
          simp only [column] at hr e
          rw [List.getD_eq_getElem _ _ hr] at e
          exact hno (e ▸ List.getElem_mem hr)
        rw [this] at h; exact hne h
      · intro h
        obtain ⟨r, hr, e⟩ := List.getElem_of_mem h
        exact (h2 p hp).1 ⟨r, hr, by simp only [column]; rw [List.getD_eq_getElem _ _ hr, e]⟩
    have hf : (List.range n).filter (fun r => decide (bits r = one)) = (List.range n).filter (fun r => decide (r ∈ l)) := by
      apply List.filter_congr
      intro p hp
      rw [List.mem_range] at hp
      simp only [hmem p hp]
    simp only at hz
    rw [hf] at hz
    exact hz

theorem column_inj {z : DM Nat} {l l' : List Nat} (h : Shows z (column l 0)) (h' : Shows z (column l' 0)) : l = l' := by
  have e : l.length = l'.length := h.1.symm.trans h'.1
  refine List.ext_getElem e fun r h1 h2 => ?_
  have g1 := h.2.2 r 0 h1 (by simp [column])
  have g2 := h'.2.2 r 0 h2 (by simp [column])
  rw [g1] at g2
  simp only [column, List.getD_eq_getElem _ _ h1, List.getD_eq_getElem _ _ h2] at g2
  exact Except.ok.inj g2

/-- **C135.** Canonicalize.cpp:648-660 replaces the conversion of positions to a bitmap and back by the original list. For positions below
the size of the bitmap this is the result of the conversions exactly if the positions are ascending without duplicates. -/
theorem C135_bitmap_round_trip_iff [DecidableEq α] (zero one : α) (hne : zero ≠ one) (x : DM Nat) (l : List Nat) (hx : x.Is (column l 0)) (n : Nat)
    (hb : ∀ p ∈ l, p < n) (junk : Nat → Nat) :
    Res.Ok (posListToBitmap zero one x n >>= fun y => bitmapToPosList one y junk) (fun z => Shows z (column l 0)) ↔ l.Pairwise (· < ·) := by
  constructor
  · rintro ⟨z, e, hz⟩
    obtain ⟨z', e', hz'⟩ := round_trip_sorted zero one hne x l hx n hb junk
    rw [e] at e'
    obtain rfl := Except.ok.inj e'
    rw [column_inj hz hz']
    exact List.Pairwise.filter _ List.pairwise_lt_range
  · intro hs
    exact C108_round_trip zero one hne x l hx n hs hb junk

end Verif.Ir
