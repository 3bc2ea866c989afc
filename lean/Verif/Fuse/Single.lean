/-
  A condition that can be read off the program: every intermediate result that could be fused is used once.
-/
import Verif.Fuse.Create

namespace Verif.Fuse
open Verif Verif.Vect
variable {α : Type} {P : Prog α}

/-- Every vectorizable result that is combined by rows is used at most once in the block. -/
def SingleUse (P : Prog α) : Prop := ∀ j, cand P j = true → byRows P j = true → (P.flatMap (·.args)).count (.op j) ≤ 1

theorem two_count {β : Type} [DecidableEq β] {l : List β} {x : β} {p q : Nat} (hpq : p < q) (hp : l[p]? = some x) (hq : l[q]? = some x) : 2 ≤ l.count x := by
  have e : l = l.take q ++ l.drop q := by simp
  rw [e, List.count_append]
  have h1 : x ∈ l.take q := List.mem_of_getElem? (i := p) (by rw [List.getElem?_take_of_lt hpq]; exact hp)
  have h2 : x ∈ l.drop q := List.mem_of_getElem? (i := 0) (by rw [List.getElem?_drop]; simpa using hq)
  have := List.count_pos_iff.2 h1
  have := List.count_pos_iff.2 h2
  omega

theorem args_get {v : Nat} {s : Stmt α} (h : P[v]? = some s) : argsOf P v = s.args := by unfold argsOf; rw [h]; rfl

theorem two_users {v v' j : Nat} (hlt : v < v') (h1 : Uses P v j) (h2 : Uses P v' j) : 2 ≤ (P.flatMap (·.args)).count (.op j) := by
  have e : P.flatMap (·.args) = (P.take v').flatMap (·.args) ++ (P.drop v').flatMap (·.args) := by rw [← List.flatMap_append]; simp
  have hv := h1.lt_length
  have hv' := h2.lt_length
  unfold Uses at h1 h2
  rw [args_get (List.getElem?_eq_getElem hv)] at h1
  rw [args_get (List.getElem?_eq_getElem hv')] at h2
  have m1 : (.op j) ∈ (P.take v').flatMap (·.args) := List.mem_flatMap.2 ⟨P[v], List.mem_of_getElem? (i := v) (by rw [List.getElem?_take_of_lt hlt]; simp [hv]), h1⟩
  have m2 : (.op j) ∈ (P.drop v').flatMap (·.args) := List.mem_flatMap.2 ⟨P[v'], List.mem_of_getElem? (i := 0) (by rw [List.getElem?_drop]; simp [hv']), h2⟩
  rw [e, List.count_append]
  have := List.count_pos_iff.2 m1
  have := List.count_pos_iff.2 m2
  omega

theorem SingleUse.unique (h : SingleUse P) {v v' j : Nat} (hc : cand P j = true) (hb : byRows P j = true) (h1 : Uses P v j) (h2 : Uses P v' j) : v = v' := by
  have := h j hc hb
  rcases Nat.lt_trichotomy v v' with h' | h' | h'
  · have := two_users h' h1 h2; omega
  · exact h'
  · have := two_users h' h2 h1; omega

theorem merges_sublist (v : Nat) : ((merges P v).map Ref.op).Sublist (argsOf P v) := by
  unfold merges
  generalize argsOf P v = l
  generalize splitsOf P v = ss
  induction l generalizing ss with
  | nil => simp
  | cons r l ih =>
    cases ss with
    | nil => simp
    | cons s ss =>
      rw [List.zip_cons_cons, List.filterMap_cons]
      split
      · exact (ih ss).cons _
      · rename_i w hw
        cases r with
        | arg k => simp at hw
        | op j =>
          cases s with
          | none => simp at hw
          | rows =>
            simp only at hw
            split at hw
            · obtain rfl : j = w := by simpa using hw
              simp only [List.map_cons]
              exact (ih ss).cons_cons _
            · simp at hw

theorem flatMap_args : P.flatMap (·.args) = (List.range P.length).flatMap (argsOf P) := by
  have h : ∀ (Q : Prog α) (R : Prog α), (List.range' R.length Q.length).flatMap (argsOf (R ++ Q)) = Q.flatMap (·.args) := by
    intro Q
    induction Q with
    | nil => intro R; simp
    | cons s Q ih =>
      intro R
      have := ih (R ++ [s])
      rw [List.length_cons, List.range'_succ, List.flatMap_cons, List.flatMap_cons]
      have e : argsOf (R ++ s :: Q) R.length = s.args := args_get (by simp)
      rw [e]
      congr 1
      simpa using this
  have := h P []
  rw [List.range_eq_range']
  simpa using this.symm

theorem SingleUse.noSharing (h : SingleUse P) : NoSharing P := by
  unfold NoSharing
  have hsub : (((candidates P).flatMap (merges P)).map Ref.op).Sublist (P.flatMap (·.args)) := by
    rw [flatMap_args]
    have h1 : ∀ l : List Nat, ((l.flatMap (merges P)).map Ref.op).Sublist (l.flatMap (argsOf P)) := by
      intro l
      induction l with
      | nil => simp
      | cons v l ih =>
        rw [List.flatMap_cons, List.flatMap_cons, List.map_append]
        exact (merges_sublist v).append ih
    refine (h1 _).trans ?_
    have h2 : ∀ (l : List Nat) (p : Nat → Bool), ((l.filter p).flatMap (argsOf P)).Sublist (l.flatMap (argsOf P)) := by
      intro l p
      induction l with
      | nil => simp
      | cons v l ih =>
        by_cases hv : p v = true
        · rw [List.filter_cons_of_pos hv, List.flatMap_cons, List.flatMap_cons]; exact ih.append_left _
        · rw [List.filter_cons_of_neg hv, List.flatMap_cons]; exact ih.trans (List.sublist_append_right _ _)
    exact h2 _ _
  have hn : (((candidates P).flatMap (merges P)).map Ref.op).Nodup := by
    rw [List.nodup_iff_count_le_one]
    intro r
    by_cases hr : r ∈ ((candidates P).flatMap (merges P)).map Ref.op
    · obtain ⟨j, hj, rfl⟩ := List.mem_map.1 hr
      obtain ⟨v, _, hv⟩ := List.mem_flatMap.1 hj
      obtain ⟨_, h2, h3⟩ := merges_uses hv
      exact (hsub.count_le _).trans (h j h2 h3)
    · rw [List.count_eq_zero_of_not_mem hr]; omega
  exact hn.of_map _

theorem Grown.tail_merge {L : List Nat} (h : Grown P L) : ∀ x ∈ L.tail, ∃ v ∈ L, x ∈ merges P v := by
  induction h with
  | start v => intro x hx; simp at hx
  | @push L v w hL hv hw hn hd ih =>
    intro x hx
    have e : (L ++ [w]).tail = L.tail ++ [w] := List.tail_append_of_ne_nil hL.ne_nil
    rw [e] at hx
    rcases List.mem_append.1 hx with hx | hx
    · obtain ⟨u, h1, h2⟩ := ih x hx
      exact ⟨u, by simp [h1], h2⟩
    · obtain rfl : x = w := by simpa using hx
      exact ⟨v, by simp [hv], hw⟩

theorem Grown.le_head (hS : Ssa P) {L : List Nat} (h : Grown P L) : ∀ x ∈ L, x ≤ L.headD 0 := by
  induction h with
  | start v => intro x hx; simpa using Nat.le_of_eq (by simpa using hx)
  | @push L v w hL hv hw hn hd ih =>
    intro x hx
    have e : (L ++ [w]).headD 0 = L.headD 0 := by
      cases L with
      | nil => exact absurd rfl hL.ne_nil
      | cons a l => rfl
    rw [e]
    rcases List.mem_append.1 hx with hx | hx
    · exact ih x hx
    · obtain rfl : x = w := by simpa using hx
      have := hS _ _ (merges_uses hw).1
      have := ih v hv
      omega

/-- The last operation is not used inside the pipeline. -/
theorem Grown.used_tail (hS : Ssa P) {L : List Nat} (h : Grown P L) {v j : Nat} (hv : v ∈ L) (hj : j ∈ L) (hu : Uses P v j) : j ∈ L.tail := by
  have h1 := h.le_head hS v hv
  have h2 := hS _ _ hu
  cases L with
  | nil => simp at hv
  | cons a T =>
    simp only [List.headD_cons] at h1
    rcases List.mem_cons.1 hj with rfl | h'
    · omega
    · exact h'

theorem merges_pos {v w : Nat} (h : w ∈ merges P v) : ∃ p : Nat, (argsOf P v)[p]? = some (Ref.op w) ∧ (splitsOf P v)[p]? = some Split.rows := by
  unfold merges at h
  obtain ⟨⟨r, s⟩, h1, h2⟩ := List.mem_filterMap.1 h
  obtain ⟨p, hp, he⟩ := List.getElem_of_mem h1
  have hz := List.getElem?_zip_eq_some.1 ((List.getElem?_eq_getElem hp).trans (congrArg some he))
  cases r with
  | arg k => simp at h2
  | op j =>
    cases s with
    | none => simp at h2
    | rows =>
      simp only at h2
      split at h2
      · obtain rfl : j = w := by simpa using h2
        exact ⟨p, hz.1, hz.2⟩
      · simp at h2

/-- The rank of an operation: the last operation of its pipeline. -/
def headOf (P : Prog α) (i : Nat) : Nat :=
  match (pipelines P).find? (·.contains i) with
  | some L => L.headD 0
  | none => i

theorem SingleUse.fusible (hS : Ssa P) (h : SingleUse P) : Fusible P (headOf P) := by
  obtain ⟨hg, hp⟩ := pipelines_ok hS h.noSharing
  have hnd : (pipelines P).flatten.Nodup := hp.nodup_iff.2 ((candidates_sorted P).imp (fun h => Nat.ne_of_lt h))
  have hpriv : ∀ L ∈ pipelines P, Private P L := by
    intro L hL x hx u hu
    obtain ⟨v, h1, h2⟩ := (hg L hL).tail_merge x hx
    obtain ⟨h3, h4, h5⟩ := merges_uses h2
    rw [h.unique h4 h5 hu h3]; exact h1
  have hhead : ∀ L ∈ pipelines P, ∀ x ∈ L, headOf P x = L.headD 0 := by
    intro L hL x hx
    unfold headOf
    cases hf : (pipelines P).find? (·.contains x) with
    | none =>
      have := List.find?_eq_none.1 hf L hL
      simp [hx] at this
    | some K =>
      have hK := List.mem_of_find?_eq_some hf
      have hxK : x ∈ K := by simpa using List.find?_some hf
      have : K = L := by
        by_contra hne
        obtain ⟨m, hm, e1⟩ := List.getElem_of_mem hK
        obtain ⟨n, hn, e2⟩ := List.getElem_of_mem hL
        have hd := List.pairwise_iff_getElem.1 (List.nodup_flatten.1 hnd).2
        rcases Nat.lt_trichotomy m n with h' | h' | h'
        · exact hd m n hm hn h' (e1 ▸ hxK) (e2 ▸ hx)
        · subst h'; exact hne (e1.symm.trans e2)
        · exact hd n m hn hm h' (e2 ▸ hx) (e1 ▸ hxK)
      rw [this]
  have hle : ∀ j, j ≤ headOf P j := by
    intro j
    by_cases hj : ∃ L ∈ pipelines P, j ∈ L
    · obtain ⟨L, hL, hjL⟩ := hj
      rw [hhead L hL j hjL]
      exact (hg L hL).le_head hS j hjL
    · unfold headOf
      have : (pipelines P).find? (·.contains j) = none := List.find?_eq_none.2 fun L hL hc => hj ⟨L, hL, by simpa using hc⟩
      rw [this]
  refine ⟨h.noSharing, fun L hL => .inl (hpriv L hL), fun L hL x hx y hy => by rw [hhead L hL x hx, hhead L hL y hy], ?_, ?_⟩
  · intro j i hu
    have hij := hS _ _ hu
    by_cases hi : ∃ L ∈ pipelines P, i ∈ L
    · obtain ⟨L, hL, hiL⟩ := hi
      rw [hhead L hL i hiL]
      cases hLe : L with
      | nil => rw [hLe] at hiL; simp at hiL
      | cons a T =>
        simp only [List.headD_cons]
        rw [hLe] at hiL
        rcases List.mem_cons.1 hiL with rfl | hT
        · exact Nat.le_trans (Nat.le_of_lt hij) (hle j)
        · have hjL := hpriv L hL i (by rw [hLe]; exact hT) j hu
          rw [hhead L hL j hjL, hLe]
          exact Nat.le_refl _
    · unfold headOf
      have : (pipelines P).find? (·.contains i) = none := List.find?_eq_none.2 fun L hL hc => hi ⟨L, hL, by simpa using hc⟩
      rw [this]
      exact Nat.le_trans (Nat.le_of_lt hij) (hle j)
  · intro L hL v hv p j hpj hj
    have hu : Uses P v j := List.mem_of_getElem? hpj
    obtain ⟨u, h1, h2⟩ := (hg L hL).tail_merge j ((hg L hL).used_tail hS hv hj hu)
    obtain ⟨h3, h4, h5⟩ := merges_uses h2
    obtain rfl := h.unique h4 h5 hu h3
    obtain ⟨q, hq1, hq2⟩ := merges_pos h2
    have hc : (argsOf P v).count (.op j) ≤ 1 := by
      have hsub : (argsOf P v).Sublist (P.flatMap (·.args)) := by
        rw [flatMap_args]
        obtain ⟨l1, l2, e⟩ := List.append_of_mem (List.mem_range.2 hu.lt_length)
        rw [e, List.flatMap_append, List.flatMap_cons]
        exact (List.sublist_append_left _ _).trans (List.sublist_append_right _ _)
      exact (hsub.count_le _).trans (h j h4 h5)
    have : p = q := by
      rcases Nat.lt_trichotomy p q with h' | h' | h'
      · have := two_count h' hpj hq1; omega
      · exact h'
      · have := two_count h' hq1 hpj; omega
    rw [this]; exact hq2

end Verif.Fuse
