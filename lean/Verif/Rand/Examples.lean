/-
  Concrete cases that meet the hypotheses of C190-C195.
-/
import Verif.Rand.Csr
import Mathlib.Algebra.Order.Ring.Rat

namespace Verif.Rand
open Verif Verif.Dense

/-- Draws `0, 1, .., n-1, 0, 1, ..`. -/
theorem fair_mod {n : Nat} (hn : 0 < n) : Fair n (fun i => i % n) := by
  refine ⟨fun i => Nat.mod_lt _ hn, fun pos r hr => ⟨(n - pos % n) + r, ?_⟩⟩
  have h1 := Nat.mod_lt pos hn
  have e : pos + (n - pos % n + r) = r + n * (pos / n + 1) := by
    have := Nat.div_add_mod pos n
    rw [Nat.mul_add, Nat.mul_one]; omega
  simp only [e, Nat.add_mul_mod_self_left, Nat.mod_eq_of_lt hr]

theorem posConv_id : PosConv id := fun _ h => h

/-- Reversal is a possible outcome of `std::shuffle`. -/
theorem shuffle_rev (n : Nat) : ShuffleOk n (fun j => n - 1 - j) := ⟨fun j h => by omega, fun i j hi hj e => by omega⟩

/-- C190: three different numbers below 5. -/
example : Res.Ok (sampleInt id 5 3 false (fun i => i * 7 % 5) (fun j => 3 - 1 - j) (fun _ => 0)) (fun x => ∃ a, x.Is a ∧ DistinctColumn 3 a ∧
    ∀ r, r < 3 → 0 ≤ a.cell r 0 ∧ a.cell r 0 < 5) :=
  C190_sample_distinct id posConv_id 5 3 (by decide) (by decide) _ _ (shuffle_rev 3) _

example : ((sampleInt id 5 3 false (fun i => i * 7 % 5) (fun j => 3 - 1 - j) (fun _ => 0)).map fun x => x.mem.toList 3) = .ok [4, 2, 0] := by decide +kernel

/-- C190 with replacement: more numbers than the range has. -/
example : Res.Ok (sampleInt id 2 3 true (fun i => i % 2) id (fun _ => 0)) (fun x => ∃ a, x.Is a ∧ a.rows = 3 ∧ a.cols = 1 ∧
    ∀ r, r < 3 → 0 ≤ a.cell r 0 ∧ a.cell r 0 < 2) :=
  C190_sample_with_replacement id 2 3 (by decide) (by decide) _ _ (fun i => by omega) _

example : Res.Throws (sampleInt id 2 3 false (fun i => i % 2) id (fun _ => 0)) := C190_sample_rejects _ _ _ _ _ _ _ (by simp)

/-- Different draws are enough for C191. -/
theorem fresh_of_injective {V : Type} {draw : Nat → V} (h : Function.Injective draw) (l : List V) (pos : Nat) : ∃ k, draw (pos + k) ∉ l := by
  by_contra hc
  have hall : ∀ k, draw (pos + k) ∈ l := fun k => by
    by_contra hk
    exact hc ⟨k, hk⟩
  have hsub : (List.range (l.length + 1)).map (fun k => draw (pos + k)) ⊆ l := fun v hv => by
    obtain ⟨k, _, rfl⟩ := List.mem_map.1 hv
    exact hall k
  have hnd : ((List.range (l.length + 1)).map (fun k => draw (pos + k))).Nodup :=
    List.nodup_range.map (fun a b e => by have := h e; omega)
  have := (List.subperm_of_subset hnd hsub).length_le
  simp at this

theorem inv_inj : Function.Injective (fun i : Nat => (1 : Rat) / (i + 2)) := by
  intro a b e
  simp only [one_div] at e
  have := inv_injective e
  exact_mod_cast add_right_cancel this

/-- C191: 1/2, 1/3, 1/4, ... below 1. -/
example : Res.Ok (sampleFloat (fun i => (i : Rat)) 1 2 false (fun i => 1 / ((i : Rat) + 2)) (fun _ => 0)) (fun x => ∃ a, x.Is a ∧ DistinctColumn 2 a ∧
    ∀ r, r < 2 → 0 ≤ a.cell r 0 ∧ a.cell r 0 < 1) :=
  C191_sample_float_distinct _ 1 2 (by decide) (by norm_num) _ (fun i => by
    have h : (0 : Rat) ≤ i := by positivity
    exact ⟨by positivity, by rw [div_lt_one (by linarith)]; linarith⟩) (fun l pos _ => fresh_of_injective inv_inj l pos) _

/-- C191, refuted part: only one value can be drawn and two are requested. -/
example : Res.IsUB (sampleFloat (fun i => (i : Rat)) (1 / 1000) 2 false (fun _ => 0) (fun _ => 0)) :=
  C191_sample_float_diverges_partial _ _ 2 (by decide) (by norm_num) _ [0] (by decide) (by simp) _

/-- C192: a 3 x 4 matrix of values between -2 and 5 (zero among the draws), 70 % of them non-zero. -/
example : Res.Ok (randDense id 3 4 (-2 : Int) 5 (7 / 10) (fun i => (i % 8 : Int) - 2) (fun i => i * 5 % 12) (fun _ => 99)) (fun x => ∃ a, x.Is a ∧
    a.rows = 3 ∧ a.cols = 4 ∧ HasSparsity a (7 / 10) ∧ ∀ r c, r < 3 → c < 4 → a.cell r c = 0 ∨ (-2 ≤ a.cell r c ∧ a.cell r c ≤ 5)) :=
  C192_rand_dense id posConv_id 3 4 (7 / 10) _ _ _ (by decide) (by decide) (by decide) (by decide) (by norm_num) (by norm_num) (by decide)
    (fun i => by omega) (fun pos => by
      by_cases h : ((pos % 8 : Nat) : Int) - 2 = 0
      · exact ⟨1, by push_cast at *; omega⟩
      · exact ⟨0, by simpa using h⟩)

example : Res.Throws (randDense id 3 0 (-2 : Int) 5 (7 / 10) (fun _ => 1) (fun _ => 0) (fun _ => 99)) :=
  (C192_rand_rejects id 3 0 (-2 : Int) 5 (7 / 10) (fun _ => 1) (fun _ => 0) id id (fun _ => 99) id id (by simp)).1

/-- C193: the same for a sparse result, values between 1 and 5. -/
example : Res.Ok (randCsr 3 4 (1 : Int) 5 (7 / 10) (fun i => (i % 5 : Int) + 1) (fun i => i % 3) (fun i => i % 4) (fun _ => 99) id id) (fun x => ∃ a, x.Is 0 a ∧
    a.rows = 3 ∧ a.cols = 4 ∧ HasSparsity a (7 / 10) ∧ x.h.numNonZeros x.mem = .ok (nonZeros a) ∧
    ∀ r c, r < 3 → c < 4 → a.cell r c = 0 ∨ (1 ≤ a.cell r c ∧ a.cell r c ≤ 5)) :=
  C193_rand_sparse 3 4 (7 / 10) _ _ _ _ _ _ (by decide) (by decide) (by decide) (by norm_num) (by norm_num) (by decide)
    (fun i => by omega) (fair_mod (by decide)) (fair_mod (by decide))

/-- C194: 50000 x 50000 cells. -/
example : Res.IsUB (randDense id 50000 50000 (0 : Int) 1 1 (fun _ => 1) (fun _ => 0) (fun _ => 99)) :=
  C194_rand_many_cells_partial id 50000 50000 1 _ _ _ (by decide) (by decide) (by decide) (by decide) (by norm_num) (by norm_num) (by decide) (by decide)

/-- C195: integers between 0 and 1. -/
example : Res.Ok (randCsr 3 4 (0 : Int) 1 1 (fun i => (i % 2 : Int)) (fun i => i % 3) (fun i => i % 4) (fun _ => 99) id id) (fun x => ∃ a n, x.Is 0 a ∧
    a.rows = 3 ∧ a.cols = 4 ∧ x.h.numNonZeros x.mem = .ok n ∧ |(n : Rat) - 1 * ((3 : Nat) * (4 : Nat))| ≤ 1 / 2 ∧
    ∀ r c, r < 3 → c < 4 → a.cell r c = 0 ∨ (0 ≤ a.cell r c ∧ a.cell r c ≤ 1)) :=
  C195_rand_sparse_stored 3 4 1 _ _ _ _ _ _ (by decide) (by decide) (by decide) (by norm_num) (by norm_num) (by decide)
    (fun i => by omega) (fair_mod (by decide)) (fair_mod (by decide))

example : Res.Ok (randCsr 3 4 (0 : Int) 1 1 (fun _ => 0) (fun i => i % 3) (fun i => i % 4) (fun _ => 99) id id) (fun x => ∃ a n, x.Is 0 a ∧
    a.rows = 3 ∧ a.cols = 4 ∧ x.h.numNonZeros x.mem = .ok n ∧ |(n : Rat) - 1 * ((3 : Nat) * (4 : Nat))| ≤ 1 / 2 ∧ nonZeros a = 0) :=
  C195_rand_sparse_zeros_partial 3 4 1 _ _ _ _ _ (by decide) (by decide) (by decide) (by norm_num) (by norm_num) (by decide)
    (fair_mod (by decide)) (fair_mod (by decide))

end Verif.Rand
