/-
  The arithmetic of `int64_t` (wrapping around) is lawful, what the extreme values are, and exact sums of integers.
-/
import Verif.Agg.ColsSparse
import Mathlib.Data.BitVec
import Mathlib.Tactic.Ring
import Mathlib.Tactic.FieldSimp
import Mathlib.Algebra.Order.Ring.Rat
import Mathlib.Data.Rat.Floor

namespace Verif.Agg
open Verif Verif.Dense Verif.Csr

/-- `std::min` / `std::max` on `int64_t`. -/
def smin (a b : BitVec 64) : BitVec 64 := if b.toInt < a.toInt then b else a
def smax (a b : BitVec 64) : BitVec 64 := if a.toInt < b.toInt then b else a

/-- `VTRes = int64_t`: wrap-around arithmetic (in C++ overflow is undefined; what compilers do), division by a `size_t` is
unsigned (usual arithmetic conversions). `sq` is the conversion of `sqrt` of the value. -/
def int64 (sq : BitVec 64 → BitVec 64) : VT (BitVec 64) where
  zero := 0
  one := 1
  top := BitVec.intMax 64
  bot := BitVec.intMin 64
  ap o a b := match o with
    | .add => a + b
    | .mul => a * b
    | .min => smin a b
    | .max => smax a b
  sub := (· - ·)
  times n a := BitVec.ofNat 64 n * a
  quot a n := BitVec.ofNat 64 (a.toNat / n)
  isInt := true
  sqrt := sq

theorem int64_add (sq) : CMon ((int64 sq).ap .add) (int64 sq).zero :=
  ⟨fun a b c => BitVec.add_assoc a b c, fun a b => BitVec.add_comm a b, fun a => BitVec.add_zero a⟩

theorem int64_mul (sq) : CMon ((int64 sq).ap .mul) (int64 sq).one :=
  ⟨fun a b c => BitVec.mul_assoc a b c, fun a b => BitVec.mul_comm a b, fun a => BitVec.mul_one a⟩

theorem int64_min (sq) : CMon ((int64 sq).ap .min) (int64 sq).top := by
  refine ⟨fun a b c => ?_, fun a b => ?_, fun a => ?_⟩
  · show smin (smin a b) c = smin a (smin b c)
    unfold smin
    split <;> split <;> (try split) <;> first | rfl | omega
  · show smin a b = smin b a
    unfold smin
    split <;> split <;> first | rfl | omega | exact BitVec.eq_of_toInt_eq (by omega)
  · show smin a (BitVec.intMax 64) = a
    unfold smin
    rw [if_neg]
    have := BitVec.toInt_lt (x := a)
    have h2 : (BitVec.intMax 64).toInt = 2 ^ 63 - 1 := by decide
    rw [h2]; omega

theorem int64_max (sq) : CMon ((int64 sq).ap .max) (int64 sq).bot := by
  refine ⟨fun a b c => ?_, fun a b => ?_, fun a => ?_⟩
  · show smax (smax a b) c = smax a (smax b c)
    unfold smax
    split <;> split <;> (try split) <;> first | rfl | omega
  · show smax a b = smax b a
    unfold smax
    split <;> split <;> first | rfl | omega | exact BitVec.eq_of_toInt_eq (by omega)
  · show smax a (BitVec.intMin 64) = a
    unfold smax
    rw [if_neg]
    have := BitVec.le_toInt (x := a)
    have h2 : (BitVec.intMin 64).toInt = -2 ^ 63 := by decide
    rw [h2]; omega

theorem int64_sum_replicate (sq) (n : Nat) (v : BitVec 64) : sumOf (int64 sq) (List.replicate n v) = BitVec.ofNat 64 n * v := by
  induction n with
  | zero => simp [sumOf, fold, int64]
  | succ n ih =>
    show v + sumOf (int64 sq) (List.replicate n v) = _
    rw [ih]
    have : BitVec.ofNat 64 (n + 1) = BitVec.ofNat 64 n + 1 := by
      apply BitVec.eq_of_toNat_eq; simp
    rw [this]; ring

/-- The arithmetic of `int64_t` is lawful for every aggregation. -/
theorem int64_lawful (sq) (op : AggOp) : Lawful (int64 sq) op := by
  have times : ∀ n m, (int64 sq).ap .mul ((int64 sq).times n m) m =
      sumOf (int64 sq) (List.replicate n ((int64 sq).ap .mul ((int64 sq).sub (int64 sq).zero m) ((int64 sq).sub (int64 sq).zero m))) := by
    intro n m
    rw [int64_sum_replicate]
    show BitVec.ofNat 64 n * m * m = BitVec.ofNat 64 n * ((0 - m) * (0 - m))
    ring
  have times' : ∀ n m, (int64 sq).times n ((int64 sq).ap .mul m m) =
      sumOf (int64 sq) (List.replicate n ((int64 sq).ap .mul ((int64 sq).sub (int64 sq).zero m) ((int64 sq).sub (int64 sq).zero m))) := by
    intro n m
    rw [int64_sum_replicate]
    show BitVec.ofNat 64 n * (m * m) = BitVec.ofNat 64 n * ((0 - m) * (0 - m))
    ring
  cases op with
  | prod => exact ⟨int64_mul sq, rfl, fun _ => times, fun _ => times'⟩
  | min => exact ⟨int64_min sq, rfl, fun _ => times, fun _ => times'⟩
  | max => exact ⟨int64_max sq, rfl, fun _ => times, fun _ => times'⟩
  | _ => exact ⟨int64_add sq, rfl, fun _ => times, fun _ => times'⟩

/-- With equal types nothing is lost in conversions. -/
theorem same_exact {ρ : Type} (A : VT ρ) (op : AggOp) : Conv.Exact A (Conv.same A) op :=
  ⟨fun _ => True, trivial, trivial, fun _ => trivial, fun _ _ _ _ => ⟨trivial, rfl⟩⟩

theorem fold_smin (sq) : ∀ (l : List (BitVec 64)), l ≠ [] → fold (int64 sq) .min (int64 sq).top l ∈ l ∧
    ∀ v ∈ l, (fold (int64 sq) .min (int64 sq).top l).toInt ≤ v.toInt
  | [], h => absurd rfl h
  | [x], _ => by
    have : fold (int64 sq) .min (int64 sq).top [x] = x := (int64_min sq).unit x
    rw [this]; simp
  | x :: y :: l, _ => by
    obtain ⟨h1, h2⟩ := fold_smin sq (y :: l) (by simp)
    have : fold (int64 sq) .min (int64 sq).top (x :: y :: l) = smin x (fold (int64 sq) .min (int64 sq).top (y :: l)) := rfl
    rw [this]
    unfold smin
    split
    · refine ⟨List.mem_cons_of_mem _ h1, fun v hv => ?_⟩
      rcases List.mem_cons.1 hv with rfl | hv
      · omega
      · exact h2 v hv
    · refine ⟨List.mem_cons_self, fun v hv => ?_⟩
      rcases List.mem_cons.1 hv with rfl | hv
      · omega
      · have := h2 v hv; omega

/-- C79 spelled out for `int64_t`: the minimum of a non-empty matrix is one of its cells and not greater than any of them. -/
theorem C79_minimum_of_int64 (sq) (x : DM (BitVec 64)) (a : Mat (BitVec 64)) (hx : x.Is a) (hr : 0 < a.rows) (hc : 0 < a.cols) :
    ∃ v, aggAllDense (int64 sq) (Conv.same (int64 sq)) .min x = .ok v ∧ (∃ r c, r < a.rows ∧ c < a.cols ∧ a.cell r c = v) ∧
      ∀ r c, r < a.rows → c < a.cols → v.toInt ≤ (a.cell r c).toInt := by
  have hmem : ∀ r c, r < a.rows → c < a.cols → a.cell r c ∈ a.cells := by
    intro r c h1 h2
    simp only [Mat.cells, Mat.rowList, List.mem_flatMap, List.mem_map, List.mem_range]
    exact ⟨r, h1, c, h2, rfl⟩
  have hne : a.cells ≠ [] := List.ne_nil_of_mem (hmem 0 0 hr hc)
  obtain ⟨h1, h2⟩ := fold_smin sq a.cells hne
  refine ⟨_, ?_, ?_, fun r c hr hc => h2 _ (hmem r c hr hc)⟩
  · rw [C79_all_dense _ _ x a hx .min (int64_lawful sq _) (same_exact _ _) ⟨by simp, by simp⟩]
    show Except.ok (fold _ _ _ (List.map id a.cells)) = _
    rw [List.map_id]
  · simp only [Mat.cells, Mat.rowList, List.mem_flatMap, List.mem_map, List.mem_range] at h1
    obtain ⟨r, h3, c, h4, h5⟩ := h1
    exact ⟨r, c, h3, h4, h5⟩

/-! ### Mean of integers -/

/-- Rational numbers, for results that are not rounded. No infinite values: minimum and maximum are not lawful here. -/
def ratVT (sq : ℚ → ℚ) : VT ℚ where
  zero := 0
  one := 1
  top := 0
  bot := 0
  ap o a b := match o with
    | .add => a + b
    | .mul => a * b
    | .min => min a b
    | .max => max a b
  sub := (· - ·)
  times n a := n * a
  quot a n := a / n
  isInt := false
  sqrt := sq

theorem rat_sum_replicate (sq) (n : Nat) (v : ℚ) : sumOf (ratVT sq) (List.replicate n v) = n * v := by
  induction n with
  | zero => simp [sumOf, fold, ratVT]
  | succ n ih =>
    show v + sumOf (ratVT sq) (List.replicate n v) = _
    rw [ih]; push_cast; ring

theorem rat_lawful (sq) (op : AggOp) (h : op ≠ .min ∧ op ≠ .max) : Lawful (ratVT sq) op := by
  have add : CMon ((ratVT sq).ap .add) (ratVT sq).zero := ⟨fun a b c => add_assoc a b c, fun a b => add_comm a b, fun a => add_zero a⟩
  have mul : CMon ((ratVT sq).ap .mul) (ratVT sq).one := ⟨fun a b c => mul_assoc a b c, fun a b => mul_comm a b, fun a => mul_one a⟩
  have times : ∀ n m, (ratVT sq).ap .mul ((ratVT sq).times n m) m =
      sumOf (ratVT sq) (List.replicate n ((ratVT sq).ap .mul ((ratVT sq).sub (ratVT sq).zero m) ((ratVT sq).sub (ratVT sq).zero m))) := by
    intro n m
    rw [rat_sum_replicate]
    show (n : ℚ) * m * m = n * ((0 - m) * (0 - m))
    ring
  have times' : ∀ n m, (ratVT sq).times n ((ratVT sq).ap .mul m m) =
      sumOf (ratVT sq) (List.replicate n ((ratVT sq).ap .mul ((ratVT sq).sub (ratVT sq).zero m) ((ratVT sq).sub (ratVT sq).zero m))) := by
    intro n m
    rw [rat_sum_replicate]
    show (n : ℚ) * (m * m) = n * ((0 - m) * (0 - m))
    ring
  cases op with
  | min => exact absurd rfl h.1
  | max => exact absurd rfl h.2
  | prod => exact ⟨mul, mul_zero _, fun _ => times, fun _ => times'⟩
  | _ => exact ⟨add, add_zero _, fun _ => times, fun _ => times'⟩

/-- A double-valued aggregate of an integer matrix: each step converts the double-valued accumulator back to an integer (cutting
off the fraction), and computes with integers. Simplification: no bounds on the integers, no rounding. -/
def intsToRat : Conv Int ℚ := Conv.through (fun i => (i : ℚ)) (fun q => .ok ⌊q⌋) fun o a b => match o with
  | .add => ((a + b : Int) : ℚ)
  | .mul => ((a * b : Int) : ℚ)
  | .min => ((min a b : Int) : ℚ)
  | .max => ((max a b : Int) : ℚ)

theorem intsToRat_exact (sq) (op : AggOp) (h : op = .sum ∨ op = .mean ∨ op = .var ∨ op = .stddev) :
    Conv.Exact (ratVT sq) intsToRat op := by
  have main : ExactOn (ratVT sq) intsToRat .add (ratVT sq).zero := by
    refine ⟨fun q => ∃ i : Int, q = i, ⟨0, by simp [ratVT]⟩, ⟨0, by simp [ratVT]⟩, fun v => ⟨v, rfl⟩, ?_⟩
    rintro _ _ ⟨i, rfl⟩ ⟨j, rfl⟩
    refine ⟨⟨i + j, by simp [ratVT]⟩, ?_⟩
    show Except.ok (((⌊(i : ℚ)⌋ + ⌊(j : ℚ)⌋ : Int)) : ℚ) = Except.ok ((i : ℚ) + (j : ℚ))
    simp
  rcases h with rfl | rfl | rfl | rfl <;> exact main

theorem sumOf_ints (sq) (l : List Int) : sumOf (ratVT sq) (List.map (fun i : Int => (i : ℚ)) l) = ((l.sum : Int) : ℚ) := by
  induction l with
  | nil => simp [sumOf, fold, ratVT]
  | cons x l ih =>
    show (x : ℚ) + sumOf (ratVT sq) (List.map (fun i : Int => (i : ℚ)) l) = _
    rw [ih, List.sum_cons]; push_cast; rfl

/-- C79 for the mean of an integer matrix, computed as a floating-point number (without rounding and overflow): although the
running sum is converted back and forth in every step, the result is the sum of the cells divided by their number. -/
theorem C79_mean_of_ints (sq) (x : DM Int) (a : Mat Int) (hx : x.Is a) :
    aggAllDense (ratVT sq) intsToRat .mean x = .ok (((a.cells.sum : Int) : ℚ) / (a.rows * a.cols : Nat)) := by
  rw [C79_all_dense _ _ x a hx .mean (rat_lawful sq _ ⟨by simp, by simp⟩) (intsToRat_exact sq _ (by simp)) ⟨by simp, by simp⟩]
  have e : List.map intsToRat.cast a.cells = List.map (fun i : Int => (i : ℚ)) a.cells := rfl
  rw [e]
  simp only [aggOf, meanOf, sumOf_ints, List.length_map, cells_length]
  rfl

end Verif.Agg
