/-
  Specification side of the matrix-multiplication properties: sums of products over plain matrices, independent of any storage.
  The value type is abstract: an addition, a multiplication and a zero; the laws needed are hypotheses of the theorems (all of them hold
  for the integers and, except for infinities, NaN and signed zeros, for floating-point numbers, whose sums are not re-associated here).
-/
import Verif.Dense.Spec
import Verif.Basic.Copy

namespace Verif.Mm
open Verif

/-- The arithmetic of a value type. -/
structure Arith (α : Type) where
  zero : α
  add : α → α → α
  mul : α → α → α

variable {α : Type}

/-- `((0 + f 0 * g 0) + f 1 * g 1) + … + f (n-1) * g (n-1)`. -/
def dot (A : Arith α) : Nat → (Nat → α) → (Nat → α) → α
  | 0, _, _ => A.zero
  | n + 1, f, g => A.add (dot A n f g) (A.mul (f n) (g n))

/-- The matrix product (meaningful if `a.cols = b.rows`). -/
def matProd (A : Arith α) (a b : Mat α) : Mat α := ⟨a.rows, b.cols, fun i j => dot A a.cols (fun k => a.cell i k) (fun k => b.cell k j)⟩

/-- `a` or its transpose. -/
def flip (t : Bool) (a : Mat α) : Mat α := if t then a.transpose else a

theorem dot_congr (A : Arith α) : ∀ (n : Nat) {f f' g g' : Nat → α}, (∀ k, k < n → f k = f' k) → (∀ k, k < n → g k = g' k) →
    dot A n f g = dot A n f' g'
  | 0, _, _, _, _, _, _ => rfl
  | n + 1, f, f', g, g', h1, h2 => by
    simp only [dot]
    rw [dot_congr A n (fun k hk => h1 k (by omega)) (fun k hk => h2 k (by omega)), h1 n (by omega), h2 n (by omega)]

/-- Terms that add nothing can be dropped at the end. -/
theorem dot_tail (A : Arith α) {f g : Nat → α} {m n : Nat} (hmn : m ≤ n)
    (h : ∀ k, m ≤ k → k < n → ∀ s, A.add s (A.mul (f k) (g k)) = s) : dot A n f g = dot A m f g := by
  induction n with
  | zero => have : m = 0 := by omega
            subst this; rfl
  | succ n ih =>
    by_cases e : m = n + 1
    · subst e; rfl
    · rw [dot, h n (by omega) (by omega), ih (by omega) fun k h1 h2 => h k h1 (by omega)]

theorem dot_comm (A : Arith α) (hc : ∀ a b, A.mul a b = A.mul b a) : ∀ (n : Nat) (f g : Nat → α), dot A n f g = dot A n g f
  | 0, _, _ => rfl
  | n + 1, f, g => by simp only [dot]; rw [dot_comm A hc n f g, hc]

/-- Interleavings: `Interleave ts s` says that `s` is an execution order of the threads `ts`, each of which performs its own steps in its
own order. -/
inductive Interleave {β : Type} : List (List β) → List β → Prop
  | done (ts : List (List β)) (h : ∀ t ∈ ts, t = []) : Interleave ts []
  | step (ts : List (List β)) (i : Nat) (x : β) (xs s : List β) (h : ts[i]? = some (x :: xs)) (rest : Interleave (ts.set i xs) s) :
      Interleave ts (x :: s)

theorem Interleave.mem {β : Type} {ts : List (List β)} {s : List β} (h : Interleave ts s) : ∀ x ∈ s, ∃ t ∈ ts, x ∈ t := by
  induction h with
  | done ts h => simp
  | step ts i x xs s h rest ih =>
    intro y hy
    rcases List.mem_cons.1 hy with rfl | hy
    · exact ⟨_, List.mem_of_getElem? h, by simp⟩
    · obtain ⟨t, ht, hyt⟩ := ih y hy
      rcases List.mem_or_eq_of_mem_set ht with h1 | rfl
      · exact ⟨t, h1, hyt⟩
      · exact ⟨_, List.mem_of_getElem? h, by simp [hyt]⟩

/-- If the steps satisfying `p` all belong to one thread, then any interleaving performs them in that thread's order. -/
theorem Interleave.filter {β : Type} {ts : List (List β)} {s : List β} (h : Interleave ts s) (p : β → Bool) (k : Nat) {t : List β}
    (hk : ts[k]? = some t) (hp : ∀ i u, ts[i]? = some u → i ≠ k → ∀ x ∈ u, p x = false) : s.filter p = t.filter p := by
  induction h generalizing t with
  | done ts h =>
    have := h t (List.mem_of_getElem? hk)
    subst this; rfl
  | step ts i x xs s h rest ih =>
    by_cases e : i = k
    · subst e
      rw [hk] at h; cases h
      have hlt : i < ts.length := by
        by_contra hc; rw [List.getElem?_eq_none (by omega)] at hk; cases hk
      have := ih (t := xs) (by simp [hlt]) (by
        intro j u hj hji
        rw [List.getElem?_set_ne (by omega)] at hj
        exact hp j u hj hji)
      simp only [List.filter_cons]
      rw [this]
    · have hx : p x = false := hp i _ h e x (by simp)
      rw [List.filter_cons, if_neg (by simp [hx])]
      refine ih (by rw [List.getElem?_set_ne e]; exact hk) ?_
      intro j u hj hjk
      by_cases e2 : i = j
      · subst e2
        have hlt : i < ts.length := by
          by_contra hc; rw [List.getElem?_eq_none (by omega)] at h; cases h
        rw [List.getElem?_set_self hlt] at hj
        cases hj
        intro y hy
        exact hp i _ h e y (by simp [hy])
      · rw [List.getElem?_set_ne e2] at hj
        exact hp j u hj hjk

/-- Every set of threads can be executed. -/
theorem Interleave.skip {β : Type} {ts : List (List β)} {s : List β} (h : Interleave ts s) : Interleave ([] :: ts) s := by
  induction h with
  | done ts h => exact .done _ fun t ht => by rcases List.mem_cons.1 ht with rfl | h'
                                              · rfl
                                              · exact h t h'
  | step ts i x xs s h rest ih => exact .step _ (i + 1) x xs s (by simpa using h) (by simpa using ih)

theorem Interleave.inOrder {β : Type} : ∀ ts : List (List β), Interleave ts ts.flatten
  | [] => .done _ (by simp)
  | t :: ts => by
    rw [List.flatten_cons]
    induction t with
    | nil => exact (Interleave.inOrder ts).skip
    | cons x xs ih => exact .step _ 0 x xs _ rfl ih

end Verif.Mm
