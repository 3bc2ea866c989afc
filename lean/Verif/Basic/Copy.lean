/-
  Bulk memory operations (`std::copy`, `memcpy`, `std::fill`) on heap arrays, and index arithmetic.
  Modelling conventions (see DESIGN.md section 2), not a model of a particular source file.
-/
import Verif.Basic.Res
import Mathlib.Tactic.Ring

namespace Verif
namespace Buf
variable {α : Type _}

/-- `std::copy(src + s, src + s + n, dst + d)` / `memcpy(dst + d, src + s, n * sizeof(..))`, different allocations. -/
def copy (src : Buf α) (s : Nat) (dst : Buf α) (d n : Nat) : Res (Buf α) :=
  if n = 0 then .ok dst
  else if src.size < s + n then .error (.ub "out-of-bounds read")
  else if dst.size < d + n then .error (.ub "out-of-bounds write")
  else .ok { dst with data := fun j => if d ≤ j ∧ j < d + n then src.data (s + (j - d)) else dst.data j }

/-- `std::fill(dst + lo, dst + hi, v)`. -/
def fill (dst : Buf α) (lo hi : Nat) (v : α) : Res (Buf α) :=
  if hi ≤ lo then .ok dst
  else if dst.size < hi then .error (.ub "out-of-bounds write")
  else .ok { dst with data := fun j => if lo ≤ j ∧ j < hi then v else dst.data j }

theorem copy_ok {src dst : Buf α} {s d n : Nat} (h1 : n = 0 ∨ s + n ≤ src.size) (h2 : n = 0 ∨ d + n ≤ dst.size) :
    Res.Ok (src.copy s dst d n) (fun b => b.size = dst.size ∧
      ∀ j, b.data j = if d ≤ j ∧ j < d + n then src.data (s + (j - d)) else dst.data j) := by
  unfold copy
  by_cases hn : n = 0
  · refine ⟨dst, by simp [hn], rfl, fun j => ?_⟩
    have : ¬ (d ≤ j ∧ j < d + n) := by omega
    simp [this]
  · have a : ¬ src.size < s + n := by omega
    have b : ¬ dst.size < d + n := by omega
    simp only [hn, a, b, if_false]
    exact ⟨_, rfl, rfl, fun j => rfl⟩

theorem fill_ok {dst : Buf α} {lo hi : Nat} {v : α} (h : hi ≤ lo ∨ hi ≤ dst.size) :
    Res.Ok (dst.fill lo hi v) (fun b => b.size = dst.size ∧
      ∀ j, b.data j = if lo ≤ j ∧ j < hi then v else dst.data j) := by
  unfold fill
  by_cases hn : hi ≤ lo
  · refine ⟨dst, by simp [hn], rfl, fun j => ?_⟩
    have : ¬ (lo ≤ j ∧ j < hi) := by omega
    simp [this]
  · have b : ¬ dst.size < hi := by omega
    simp only [hn, b, if_false]
    exact ⟨_, rfl, rfl, fun j => rfl⟩

end Buf

/-! Row-major index arithmetic. -/

theorem rm_lt {r R s c C : Nat} (hr : r < R) (hc : c < C) (hs : C ≤ s) : r * s + c < R * s := by
  have : (r + 1) * s ≤ R * s := Nat.mul_le_mul_right _ hr
  have e : (r + 1) * s = r * s + s := by ring
  omega

theorem rm_le {r R s : Nat} (hr : r ≤ R) : r * s ≤ R * s := Nat.mul_le_mul_right _ hr

theorem rm_inj {s r r' c c' : Nat} (hc : c < s) (hc' : c' < s) (h : r * s + c = r' * s + c') : r = r' ∧ c = c' := by
  have key : ∀ a b x y : Nat, a < b → x < s → a * s + x = b * s + y → False := by
    intro a b x y hab hx he
    have : (a + 1) * s ≤ b * s := Nat.mul_le_mul_right _ hab
    have e : (a + 1) * s = a * s + s := by ring
    omega
  rcases Nat.lt_trichotomy r r' with h1 | h1 | h1
  · exact (key r r' c c' h1 hc h).elim
  · subst h1; omega
  · exact (key r' r c' c h1 hc' h.symm).elim

theorem rm_eq_iff {s r r' c c' : Nat} (hc : c < s) (hc' : c' < s) :
    (r * s + c = r' * s + c') ↔ (r = r' ∧ c = c') :=
  ⟨rm_inj hc hc', by rintro ⟨rfl, rfl⟩; rfl⟩

/-- A row-major position lies in the segment `[c0, c1)` of row `r'` exactly if its row is `r'` and its column in range. -/
theorem rm_seg_iff {s r r' c c0 c1 : Nat} (hc : c < s) (h1 : c1 ≤ s) :
    (r' * s + c0 ≤ r * s + c ∧ r * s + c < r' * s + c1) ↔ (r = r' ∧ c0 ≤ c ∧ c < c1) := by
  constructor
  · rintro ⟨ha, hb⟩
    rcases Nat.lt_trichotomy r r' with h | h | h
    · have : (r + 1) * s ≤ r' * s := Nat.mul_le_mul_right _ h
      have e : (r + 1) * s = r * s + s := by ring
      omega
    · subst h; omega
    · have : (r' + 1) * s ≤ r * s := Nat.mul_le_mul_right _ h
      have e : (r' + 1) * s = r' * s + s := by ring
      omega
  · rintro ⟨rfl, h2, h3⟩; omega

/-- Lexicographic order of row-major positions. -/
theorem rm_lt_iff {s r r' c c' : Nat} (hc : c < s) (hc' : c' < s) :
    (r * s + c < r' * s + c') ↔ (r < r' ∨ (r = r' ∧ c < c')) := by
  rcases Nat.lt_trichotomy r r' with h | h | h
  · have : (r + 1) * s ≤ r' * s := Nat.mul_le_mul_right _ h
    have e : (r + 1) * s = r * s + s := by ring
    omega
  · subst h; omega
  · have : (r' + 1) * s ≤ r * s := Nat.mul_le_mul_right _ h
    have e : (r' + 1) * s = r' * s + s := by ring
    omega

end Verif
