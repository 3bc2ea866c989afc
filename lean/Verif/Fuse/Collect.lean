/-
  The pipelines that are collected if no intermediate result is shared: each grows by adding operands one by one, and each vectorizable
  operation belongs to exactly one pipeline.
-/
import Verif.Fuse.Grown
import Mathlib.Data.List.Sort
import Mathlib.Data.List.Perm.Basic

namespace Verif.Fuse
open Verif Verif.Vect
variable {α : Type} {P : Prog α}

/-- Each intermediate result is a fusion candidate for at most one operand. -/
def NoSharing (P : Prog α) : Prop := ((candidates P).flatMap (merges P)).Nodup

/-- Invariant of the collection: `done` are the visited operations, `M` the fusion candidates considered so far. -/
structure FInv (P : Prog α) (done M : List Nat) (st : FSt) : Prop where
  grown : ∀ L ∈ st.pipes, Grown P L
  nodup : st.pipes.flatten.Nodup
  dom : ∀ x, st.ix x ≠ none → x ∈ M
  ix : ∀ x k, st.ix x = some k → ∃ L, st.pipes[k]? = some L ∧ x ∈ L
  mem : ∀ x, x ∈ st.pipes.flatten ↔ x ∈ done ∨ st.ix x ≠ none

theorem set_split {β : Type} (l : List β) (k : Nat) (x : β) (h : l[k]? = some x) (y : β) :
    ∃ a b, l = a ++ x :: b ∧ l.set k y = a ++ y :: b ∧ a.length = k := by
  obtain ⟨hk, hx⟩ := List.getElem?_eq_some_iff.1 h
  refine ⟨l.take k, l.drop (k + 1), ?_, ?_, by simp; omega⟩
  · rw [← hx]; simp
  · exact List.set_eq_take_append_cons_drop .. |>.trans (if_pos hk)

theorem fuse_inv {done M : List Nat} {st : FSt} (h : FInv P done M st) {cur v w : Nat} {L : List Nat} (hL : st.pipes[cur]? = some L) (hv : v ∈ L)
    (hw : w ∈ merges P v) (hM : w ∉ M) (hd : w ∉ done) :
    FInv P done (M ++ [w]) (fuse P cur st w) ∧ ∃ L', (fuse P cur st w).pipes[cur]? = some L' ∧ v ∈ L' := by
  have hix : st.ix w = none := by
    by_contra hne
    exact hM (h.dom w hne)
  have hg : st.pipes.getD cur [] = L := by simp [List.getD, hL]
  unfold fuse
  rw [hix]
  simp only [hg]
  split
  · rename_i hf
    obtain ⟨a, b, e1, e2, e3⟩ := set_split st.pipes cur L hL (L ++ [w])
    have hwf : w ∉ st.pipes.flatten := fun hm => by
      rcases (h.mem w).1 hm with h' | h'
      · exact hd h'
      · exact h' hix
    have hperm : (st.pipes.set cur (L ++ [w])).flatten.Perm (w :: st.pipes.flatten) := by
      rw [e2, e1]
      simp only [List.flatten_append, List.flatten_cons, List.append_assoc]
      refine (List.Perm.append_left _ (List.perm_middle (l₁ := L) (l₂ := b.flatten))).trans ?_
      exact List.perm_middle
    have hcur : (st.pipes.set cur (L ++ [w]))[cur]? = some (L ++ [w]) := by
      rw [e2, ← e3]; simp
    refine ⟨⟨?_, ?_, ?_, ?_, ?_⟩, L ++ [w], hcur, by simp [hv]⟩
    · intro K hK
      rcases List.mem_or_eq_of_mem_set hK with hK | rfl
      · exact h.grown K hK
      · refine .push v w (h.grown L (List.mem_of_getElem? hL)) hv hw (fun hm => hwf ?_) hf
        exact List.mem_flatten.2 ⟨L, List.mem_of_getElem? hL, hm⟩
    · exact hperm.nodup_iff.2 (List.nodup_cons.2 ⟨hwf, h.nodup⟩)
    · intro x hx
      by_cases hxw : x = w
      · simp [hxw]
      · have : st.ix x ≠ none := by simpa [hxw] using hx
        exact List.mem_append_left _ (h.dom x this)
    · intro x k hx
      by_cases hxw : x = w
      · subst hxw
        obtain rfl : cur = k := by simpa using hx
        exact ⟨L ++ [x], hcur, by simp⟩
      · have hxk : st.ix x = some k := by simpa [hxw] using hx
        obtain ⟨K, h1, h2⟩ := h.ix x k hxk
        by_cases hk : k = cur
        · subst hk
          rw [hL] at h1
          obtain rfl : L = K := by simpa using h1
          exact ⟨L ++ [w], hcur, by simp [h2]⟩
        · exact ⟨K, by simp only [List.getElem?_set]; rw [if_neg (by omega)]; exact h1, h2⟩
    · intro x
      rw [hperm.mem_iff, List.mem_cons, h.mem]
      by_cases hxw : x = w
      · simp [hxw]
      · simp [hxw]
  · refine ⟨⟨h.grown, h.nodup, fun x hx => List.mem_append_left _ (h.dom x hx), h.ix, h.mem⟩, L, hL, hv⟩

theorem foldl_inv {done : List Nat} {cur v : Nat} : ∀ (l M : List Nat) (st : FSt), FInv P done M st → (∃ L, st.pipes[cur]? = some L ∧ v ∈ L) →
    (∀ w ∈ l, w ∈ merges P v ∧ w ∉ done) → (M ++ l).Nodup → FInv P done (M ++ l) (l.foldl (fuse P cur) st)
  | [], M, st, h, _, _, _ => by simpa using h
  | w :: l, M, st, h, ⟨L, hL, hv⟩, hw, hn => by
    have hwM : w ∉ M := fun hm => (List.nodup_append.1 hn).2.2 w hm w (by simp) rfl
    obtain ⟨h1, h2⟩ := fuse_inv h hL hv (hw w (by simp)).1 hwM (hw w (by simp)).2
    have := foldl_inv l (M ++ [w]) (fuse P cur st w) h1 h2 (fun x hx => hw x (by simp [hx])) (by simpa using hn)
    simpa using this

theorem visit_inv {done M : List Nat} {st : FSt} (h : FInv P done M st) {v : Nat} (hc : cand P v = true) (hv : v ∉ done)
    (hw : ∀ w ∈ merges P v, w ∉ done ++ [v]) (hn : (M ++ merges P v).Nodup) : FInv P (done ++ [v]) (M ++ merges P v) (visit P st v) := by
  unfold visit
  cases hix : st.ix v with
  | some c =>
    refine foldl_inv (v := v) _ _ _ ⟨h.grown, h.nodup, h.dom, h.ix, fun x => ?_⟩ (h.ix v c hix) (fun w hh => ⟨hh, hw w hh⟩) hn
    rw [h.mem]
    simp only [List.mem_append, List.mem_singleton]
    constructor
    · rintro (h' | h')
      · exact .inl (.inl h')
      · exact .inr h'
    · rintro ((h' | rfl) | h')
      · exact .inl h'
      · right; simp [hix]
      · exact .inr h'
  | none =>
    have hvf : v ∉ st.pipes.flatten := fun hm => by
      rcases (h.mem v).1 hm with h' | h'
      · exact hv h'
      · exact h' hix
    refine foldl_inv (v := v) _ _ _ ⟨?_, ?_, h.dom, ?_, ?_⟩ ⟨[v], by simp, by simp⟩ (fun w hh => ⟨hh, hw w hh⟩) hn
    · intro L hL
      rcases List.mem_append.1 hL with hL | hL
      · exact h.grown L hL
      · obtain rfl : L = [v] := by simpa using hL
        exact .start v hc
    · simp only [List.flatten_append, List.flatten_cons, List.flatten_nil, List.append_nil]
      exact List.nodup_append.2 ⟨h.nodup, by simp, fun a ha b hb e => hvf (by rw [← List.mem_singleton.1 hb, ← e]; exact ha)⟩
    · intro x k hx
      obtain ⟨L, h1, h2⟩ := h.ix x k hx
      exact ⟨L, by simp only []; rw [List.getElem?_append_left (List.getElem?_eq_some_iff.1 h1).1]; exact h1, h2⟩
    · intro x
      simp only [List.flatten_append, List.flatten_cons, List.flatten_nil, List.append_nil, List.mem_append, h.mem, List.mem_singleton]
      tauto

theorem visits_inv (hS : Ssa P) : ∀ (l done M : List Nat) (st : FSt), FInv P done M st → (∀ v ∈ l, cand P v = true) →
    (done ++ l).Pairwise (· > ·) → (M ++ l.flatMap (merges P)).Nodup → FInv P (done ++ l) (M ++ l.flatMap (merges P)) (l.foldl (visit P) st)
  | [], done, M, st, h, _, _, _ => by simpa using h
  | v :: l, done, M, st, h, hc, hs, hn => by
    have hp := List.pairwise_append.1 hs
    have hv : ∀ x ∈ done, x > v := fun x hx => hp.2.2 x hx v (by simp)
    have h1 := visit_inv h (hc v (by simp)) (fun hm => Nat.lt_irrefl _ (hv v hm))
      (fun w hw hm => by
        have hlt := hS v w (merges_uses hw).1
        rcases List.mem_append.1 hm with hm | hm
        · have := hv w hm; omega
        · have : w = v := by simpa using hm
          omega)
      (by
        refine hn.sublist ?_
        simp only [List.flatMap_cons]
        exact List.Sublist.append_left (List.sublist_append_left _ _) _)
    have := visits_inv hS l (done ++ [v]) (M ++ merges P v) _ h1 (fun x hx => hc x (by simp [hx])) (by simpa using hs) (by simpa using hn)
    simpa using this

theorem candidates_sorted (P : Prog α) : (candidates P).Pairwise (· < ·) := List.Pairwise.filter _ List.pairwise_lt_range

theorem mem_candidates {i : Nat} : i ∈ candidates P ↔ cand P i = true := by
  unfold candidates
  rw [List.mem_filter, List.mem_range]
  refine ⟨fun h => h.2, fun h => ⟨?_, h⟩⟩
  unfold cand at h
  cases hi : P[i]? with
  | none => rw [hi] at h; simp at h
  | some s => exact (List.getElem?_eq_some_iff.1 hi).1

/-- Without sharing, all pipelines grow one by one, and they partition the vectorizable operations. -/
theorem pipelines_ok (hS : Ssa P) (hn : NoSharing P) : (∀ L ∈ pipelines P, Grown P L) ∧ (pipelines P).flatten.Perm (candidates P) := by
  have h0 : FInv P [] [] ⟨[], fun _ => none⟩ :=
    ⟨by simp, by simp, fun x h => absurd rfl h, fun x k h => by simp at h, fun x => by simp⟩
  have hperm : ((candidates P).reverse.flatMap (merges P)).Perm ((candidates P).flatMap (merges P)) :=
    List.Perm.flatMap_right _ (List.reverse_perm _)
  have h := visits_inv hS (candidates P).reverse [] [] _ h0 (fun v hv => mem_candidates.1 (List.mem_reverse.1 hv))
    (by simpa [List.pairwise_reverse] using candidates_sorted P) (by simpa using hperm.nodup_iff.2 hn)
  refine ⟨h.grown, ?_⟩
  have hnd : (candidates P).Nodup := (candidates_sorted P).imp (fun h => Nat.ne_of_lt h)
  refine (List.perm_ext_iff_of_nodup h.nodup hnd).2 fun x => ?_
  rw [h.mem]
  constructor
  · rintro (h' | h')
    · simpa using h'
    · have := h.dom x h'
      simp only [List.nil_append, List.mem_flatMap] at this
      obtain ⟨v, _, hx⟩ := this
      exact mem_candidates.2 (merges_uses hx).2.1
  · intro h'; exact .inl (by simpa using h')

end Verif.Fuse
