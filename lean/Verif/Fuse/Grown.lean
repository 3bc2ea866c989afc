/-
  How pipelines grow: dependencies between the operations of a pipeline, as long as operations are only added one by one.
-/
import Verif.Fuse.Model
import Mathlib.Logic.Relation
import Mathlib.Data.List.Nodup

namespace Verif.Fuse
open Verif Verif.Vect
variable {α : Type}

/-- Operation `j` has the result of operation `i` as an operand. -/
def Uses (P : Prog α) (j i : Nat) : Prop := Ref.op i ∈ argsOf P j

/-- Operation `j` depends on the result of operation `i`. -/
def Dep (P : Prog α) (j i : Nat) : Prop := Relation.TransGen (Uses P) j i

/-- Operands are defined before their users. -/
def Ssa (P : Prog α) : Prop := ∀ j i, Uses P j i → i < j

variable {P : Prog α}

theorem Uses.lt_length {j i : Nat} (h : Uses P j i) : j < P.length := by
  unfold Uses argsOf at h
  cases hj : P[j]? with
  | none => rw [hj] at h; simp at h
  | some s => exact (List.getElem?_eq_some_iff.1 hj).1

theorem Dep.lt (hS : Ssa P) {j i : Nat} (h : Dep P j i) : i < j := by
  induction h with
  | single h => exact hS _ _ h
  | tail _ h ih => exact Nat.lt_trans (hS _ _ h) ih

/-- `valueDependsOnResultOf` is right. -/
theorem dependsOn_iff (hS : Ssa P) (p : Nat) : ∀ (n j : Nat), j < n → (dependsOn P p n (.op j) = true ↔ j = p ∨ Dep P j p)
  | 0, _, h => absurd h (Nat.not_lt_zero _)
  | n + 1, j, h => by
    have hd : dependsOn P p (n + 1) (.op j) = (j == p || (!(decide (j < p)) && (argsOf P j).any (dependsOn P p n))) := rfl
    rw [hd]
    constructor
    · intro hh
      rcases Bool.or_eq_true_iff.1 hh with hh | hh
      · exact .inl (by simpa using hh)
      · right
        obtain ⟨_, hh⟩ := Bool.and_eq_true_iff.1 hh
        obtain ⟨r, hr, hd⟩ := List.any_eq_true.1 hh
        cases r with
        | arg k => cases n <;> exact absurd hd (by simp [dependsOn])
        | op i =>
          have hij := hS j i hr
          rcases (dependsOn_iff hS p n i (by omega)).1 hd with h' | h'
          · subst h'; exact .single hr
          · exact .head hr h'
    · rintro (rfl | hd)
      · simp
      · have := hd.lt hS
        have hnlt : ¬ j < p := by omega
        simp only [hnlt, decide_false, Bool.not_false, Bool.true_and, Bool.or_eq_true, List.any_eq_true]
        right
        obtain ⟨i, h1, h2⟩ : ∃ i, Uses P j i ∧ (i = p ∨ Dep P i p) := by
          rcases Relation.TransGen.head'_iff.1 hd with ⟨i, h1, h2⟩
          refine ⟨i, h1, ?_⟩
          rcases Relation.reflTransGen_iff_eq_or_transGen.1 h2 with h | h
          · exact .inl h.symm
          · exact .inr h
        have hij := hS j i h1
        exact ⟨.op i, h1, (dependsOn_iff hS p n i (by omega)).2 h2⟩

theorem directlyFusible_iff (hS : Ssa P) (w : Nat) (L : List Nat) :
    directlyFusible P w L = true ↔ ∀ v ∈ L, ∀ j, Uses P v j → j ∉ L → j ≠ w → ¬ Dep P j w := by
  unfold directlyFusible
  rw [List.all_eq_true]
  constructor
  · intro h v hv j hj hn hw hd
    have h1 := List.all_eq_true.1 (h v hv) (.op j) hj
    have hjl : j < P.length := Nat.lt_trans (hS _ _ hj) hj.lt_length
    have h2 := (dependsOn_iff hS w P.length j hjl).2 (.inr hd)
    simp [hn, hw, h2] at h1
  · intro h v hv
    rw [List.all_eq_true]
    intro r hr
    cases r with
    | arg k => rfl
    | op j =>
      by_cases hn : j ∈ L
      · simp [hn]
      · by_cases hw : j = w
        · simp [hw]
        · have hjl : j < P.length := Nat.lt_trans (hS _ _ hr) (Uses.lt_length hr)
          have : ¬ dependsOn P w P.length (.op j) = true := fun h' => by
            rcases (dependsOn_iff hS w P.length j hjl).1 h' with h' | h'
            · exact hw h'
            · exact h v hv j hr hn hw h'
          simp [hn, this]

theorem merges_uses {v w : Nat} (h : w ∈ merges P v) : Uses P v w ∧ cand P w = true ∧ byRows P w = true := by
  unfold merges at h
  obtain ⟨⟨r, s⟩, h1, h2⟩ := List.mem_filterMap.1 h
  have hr := List.of_mem_zip h1
  cases r with
  | arg k => simp at h2
  | op j =>
    cases s with
    | none => simp at h2
    | rows =>
      simp only at h2
      split at h2
      · rename_i hc
        obtain rfl : j = w := by simpa using h2
        exact ⟨hr.1, by simpa using hc⟩
      · simp at h2

/-- A pipeline that came about by adding operands one by one. -/
inductive Grown (P : Prog α) : List Nat → Prop
  | start (v : Nat) (h : cand P v = true) : Grown P [v]
  | push {L : List Nat} (v w : Nat) (h : Grown P L) (hv : v ∈ L) (hw : w ∈ merges P v) (hn : w ∉ L) (hd : directlyFusible P w L = true) :
      Grown P (L ++ [w])

theorem Grown.nodup {L : List Nat} (h : Grown P L) : L.Nodup := by
  induction h with
  | start v => simp
  | push v w _ _ _ hn _ ih => exact List.nodup_append.2 ⟨ih, by simp, fun a ha b hb e => hn (by rw [← List.mem_singleton.1 hb, ← e]; exact ha)⟩

theorem Grown.ne_nil {L : List Nat} (h : Grown P L) : L ≠ [] := by cases h <;> simp

theorem Grown.cand {L : List Nat} (h : Grown P L) : ∀ v ∈ L, cand P v = true := by
  induction h with
  | start v h => simpa using h
  | push v w _ _ hw _ _ ih =>
    intro x hx
    rcases List.mem_append.1 hx with hx | hx
    · exact ih x hx
    · obtain rfl : x = w := by simpa using hx
      exact (merges_uses hw).2.1

/-- Later elements do not depend on earlier ones, and values from outside do not depend on the pipeline. -/
theorem Grown.deps (hS : Ssa P) {L : List Nat} (h : Grown P L) :
    L.Pairwise (fun x w => ¬ Dep P w x) ∧ ∀ v ∈ L, ∀ j, Uses P v j → j ∉ L → ∀ x ∈ L, ¬ Dep P j x := by
  induction h with
  | start v _ =>
    refine ⟨by simp, fun u hu j hj hn x hx hd => ?_⟩
    simp only [List.mem_singleton] at hu hx
    subst hu hx
    exact absurd ((Dep.lt hS hd).trans (hS _ _ hj)) (Nat.lt_irrefl _)
  | @push L v w hL hv hw hn hd ih =>
    have hf := (directlyFusible_iff hS w L).1 hd
    have hu := (merges_uses hw).1
    have hwx : ∀ x ∈ L, ¬ Dep P w x := fun x hx => ih.2 v hv w hu hn x hx
    refine ⟨List.pairwise_append.2 ⟨ih.1, by simp, fun x hx y hy => ?_⟩, fun u hu' j hj hjn x hx hdx => ?_⟩
    · obtain rfl : y = w := by simpa using hy
      exact hwx x hx
    · have hjL : j ∉ L := fun h => hjn (by simp [h])
      have hjw : j ≠ w := fun h => hjn (by simp [h])
      rcases List.mem_append.1 hu' with hu'' | hu''
      · rcases List.mem_append.1 hx with hx | hx
        · exact ih.2 u hu'' j hj hjL x hx hdx
        · obtain rfl : x = w := by simpa using hx
          exact hf u hu'' j hj hjL hjw hdx
      · obtain rfl : u = w := by simpa using hu''
        rcases List.mem_append.1 hx with hx | hx
        · exact hwx x hx (.head hj hdx)
        · obtain rfl : x = u := by simpa using hx
          exact absurd ((Dep.lt hS hdx).trans (hS _ _ hj)) (Nat.lt_irrefl _)

/-- Everything but the first element is a row-wise operand of another one that came before it. -/
theorem Grown.connected {L : List Nat} (h : Grown P L) : ∀ k, k + 1 < L.length → ∃ i, i ≤ k ∧ ∃ v w, L[i]? = some v ∧ L[k + 1]? = some w ∧ w ∈ merges P v := by
  induction h with
  | start v => intro k hk; simp at hk
  | @push L v w hL hv hw hn hd ih =>
    intro k hk
    by_cases hlt : k + 1 < L.length
    · obtain ⟨i, hi, v', w', h1, h2, h3⟩ := ih k hlt
      exact ⟨i, hi, v', w', by rw [List.getElem?_append_left (by omega)]; exact h1, by rw [List.getElem?_append_left hlt]; exact h2, h3⟩
    · have hk' : k + 1 = L.length := by simp at hk; omega
      obtain ⟨i, hi, he⟩ := List.getElem_of_mem hv
      exact ⟨i, by omega, v, w, by rw [List.getElem?_append_left hi, List.getElem?_eq_getElem hi, he], by simp [hk'], hw⟩

end Verif.Fuse
