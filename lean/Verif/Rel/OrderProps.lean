/-
  Proofs about `Verif/Rel/Order.lean`: the index list is the stable lexicographic sort, and the groups are the maximal
  runs of at least two rows with the same keys.
-/
import Verif.Rel.Order

namespace Verif.Rel
open Verif

/-! ## `std::stable_sort` -/

theorem Key.Lawful.cmp_trans {k : Key} (hk : k.Lawful) (asc : Bool) (a b c : Nat) :
    k.cmp asc a b → k.cmp asc b c → k.cmp asc a c := by
  unfold Key.cmp
  cases asc
  · exact fun h h' => hk.trans _ _ _ h' h
  · exact fun h h' => hk.trans _ _ _ h h'

theorem Key.Lawful.cmp_ntrans {k : Key} (hk : k.Lawful) (asc : Bool) (a b c : Nat) :
    k.cmp asc a b = false → k.cmp asc b c = false → k.cmp asc a c = false := by
  unfold Key.cmp
  cases asc
  · exact fun h h' => hk.ntrans _ _ _ h' h
  · exact fun h h' => hk.ntrans _ _ _ h h'

theorem Key.Lawful.cmp_asymm {k : Key} (hk : k.Lawful) (asc : Bool) (a b : Nat) :
    k.cmp asc a b = true → k.cmp asc b a = false := by
  intro h
  cases h' : k.cmp asc b a
  · rfl
  · have := hk.cmp_trans asc a b a h h'
    unfold Key.cmp at this
    cases asc <;> simp [hk.irrefl] at this

theorem Key.Lawful.same_iff {k : Key} (hk : k.Lawful) (asc : Bool) (i j : Nat) :
    Same k i j ↔ k.cmp asc i j = false ∧ k.cmp asc j i = false := by
  unfold Same Key.cmp
  rw [hk.ne_iff]
  cases asc
  · exact and_comm
  · exact Iff.rfl

theorem before_iff {k : Key} {asc : Bool} {i j : Nat} : Before k asc i j ↔ k.cmp asc i j = true := by
  unfold Before Key.cmp
  cases asc <;> simp

theorem Key.Lawful.same_symm {k : Key} (hk : k.Lawful) {i j : Nat} (h : Same k i j) : Same k j i := by
  rw [hk.same_iff true] at *; exact h.symm

theorem Key.Lawful.same_refl {k : Key} (hk : k.Lawful) (i : Nat) : Same k i i := by
  rw [hk.same_iff true]; simp [Key.cmp, hk.irrefl]

theorem Key.Lawful.same_trans {k : Key} (hk : k.Lawful) {i j l : Nat} (h : Same k i j) (h' : Same k j l) : Same k i l := by
  rw [hk.same_iff true] at *
  exact ⟨hk.cmp_ntrans _ _ _ _ h.1 h'.1, hk.cmp_ntrans _ _ _ _ h'.2 h.2⟩

/-- Requirements of `std::stable_sort` on the comparator: a strict weak order. -/
structure StrictWeak (cmp : Nat → Nat → Bool) : Prop where
  asymm : ∀ a b, cmp a b = true → cmp b a = false
  ntrans : ∀ a b c, cmp a b = false → cmp b c = false → cmp a c = false

theorem Key.Lawful.strictWeak {k : Key} (hk : k.Lawful) (asc : Bool) : StrictWeak (k.cmp asc) :=
  ⟨hk.cmp_asymm asc, hk.cmp_ntrans asc⟩

theorem stableSort_perm (cmp : Nat → Nat → Bool) (l : List Nat) : (stableSort cmp l).Perm l := List.mergeSort_perm _ _

theorem nodup_pair_false {m : List Nat} (hn : m.Nodup) {a b : Nat} (h : [a, b].Sublist m) (h' : [b, a].Sublist m) : False := by
  induction m with
  | nil => simp at h
  | cons x m ih =>
    rw [List.nodup_cons] at hn
    cases h with
    | cons _ h =>
      cases h' with
      | cons _ h' => exact ih hn.2 h h'
      | cons_cons _ h' => exact hn.1 (h.subset (by simp))
    | cons_cons _ h =>
      cases h' with
      | cons _ h' => exact hn.1 (h'.subset (by simp))
      | cons_cons _ h' => exact hn.1 (h.subset (by simp))

/-- On a duplicate-free ascending list, the stable sort puts smaller elements first and keeps the order of equivalent
    ones. -/
theorem stableSort_pairwise {cmp : Nat → Nat → Bool} (hc : StrictWeak cmp) {l : List Nat} (hl : l.Pairwise (· < ·)) :
    (stableSort cmp l).Pairwise fun i j => cmp i j = true ∨ (cmp i j = false ∧ cmp j i = false ∧ i < j) := by
  have htr : ∀ a b c : Nat, (!cmp b a) = true → (!cmp c b) = true → (!cmp c a) = true := by
    intro a b c h h'
    simp only [Bool.not_eq_true'] at *
    exact hc.ntrans _ _ _ h' h
  have hto : ∀ a b : Nat, ((!cmp b a) || !cmp a b) = true := by
    intro a b
    cases h : cmp b a
    · simp
    · simp [hc.asymm _ _ h]
  have hs := List.pairwise_mergeSort (le := fun i j => !cmp j i) htr hto l
  have hnd : (stableSort cmp l).Nodup := (stableSort_perm cmp l).nodup_iff.2 (hl.imp (fun h => Nat.ne_of_lt h))
  rw [List.pairwise_iff_forall_sublist] at *
  intro i j hij
  have h1 := hs hij
  simp only [Bool.not_eq_true'] at h1
  cases h2 : cmp i j
  · refine .inr ⟨rfl, h1, ?_⟩
    have hne : i ≠ j := by
      have := hnd.sublist hij
      simpa using this
    rcases Nat.lt_or_ge i j with h | h
    · exact h
    · exfalso
      have hji : j < i := by omega
      have hi : i ∈ l := (stableSort_perm cmp l).mem_iff.1 (hij.subset (by simp))
      have hj : j ∈ l := (stableSort_perm cmp l).mem_iff.1 (hij.subset (by simp))
      have hsub : [j, i].Sublist l := by
        obtain ⟨s, t, rfl⟩ := List.append_of_mem hi
        rcases List.mem_append.1 hj with h | h
        · exact List.Sublist.append (List.singleton_sublist.2 h) (List.singleton_sublist.2 List.mem_cons_self)
        · exfalso
          rcases List.mem_cons.1 h with h | h
          · omega
          · have := @hl i j (((List.singleton_sublist.2 h).cons_cons i).trans (List.sublist_append_right _ _))
            omega
      have h3 := List.pair_sublist_mergeSort (le := fun i j => !cmp j i) htr hto (by simp [h2]) hsub
      have h3' : [j, i].Sublist (stableSort cmp l) := h3
      exact nodup_pair_false hnd hij h3'
  · exact .inl rfl

/-- Two lists with the same elements that are both sorted by the same strict order are the same list. -/
theorem eq_of_perm_pairwise {R : Nat → Nat → Prop} (hR : ∀ a b, R a b → ¬ R b a) {l l' : List Nat}
    (hp : l.Perm l') (h : l.Pairwise R) (h' : l'.Pairwise R) : l = l' :=
  List.Perm.eq_of_pairwise (fun a b _ _ x y => absurd y (hR a b x)) h h' hp

/-! ## Segments -/

/-- Representation of the group list: `segs` are the runs of equal keys starting at position `off`; all runs of two or
    more rows are listed, and (with `strict`) no others. -/
inductive Rep (strict : Bool) : Nat → List (List Nat) → List (Nat × Nat) → Prop
  | nil (off) : Rep strict off [] []
  | keep {off s ss gs} : (strict = true → 2 ≤ s.length) → Rep strict (off + s.length) ss gs →
      Rep strict off (s :: ss) ((off, off + s.length) :: gs)
  | skip {off s ss gs} : s.length ≤ 1 → Rep strict (off + s.length) ss gs → Rep strict off (s :: ss) gs

theorem stableSort_short (cmp : Nat → Nat → Bool) {s : List Nat} (h : s.length ≤ 1) : stableSort cmp s = s := by
  match s, h with
  | [], _ => simp [stableSort]
  | [a], _ => simp [stableSort]

theorem sortGroup_at (cmp : Nat → Nat → Bool) (pre s post : List Nat) :
    sortGroup cmp (pre ++ (s ++ post)) (pre.length, pre.length + s.length) = pre ++ (stableSort cmp s ++ post) := by
  unfold sortGroup
  simp only [List.take_left', List.drop_left', Nat.add_sub_cancel_left]
  rw [← List.append_assoc pre s post, List.drop_left' (by simp)]
  simp

theorem columnIDSort_rep {cmp : Nat → Nat → Bool} {off : Nat} {segs : List (List Nat)} {gs : List (Nat × Nat)}
    (h : Rep st off segs gs) : ∀ pre : List Nat, pre.length = off →
      gs.foldl (sortGroup cmp) (pre ++ segs.flatten) = pre ++ (segs.map (stableSort cmp)).flatten := by
  induction h with
  | nil off => intro pre _; simp
  | @keep off s ss gs _ _ ih =>
    intro pre hp
    subst hp
    rw [List.foldl_cons, List.flatten_cons, sortGroup_at, ← List.append_assoc, ih _ (by simp [(stableSort_perm cmp s).length_eq])]
    simp
  | @skip off s ss gs hs _ ih =>
    intro pre hp
    subst hp
    rw [List.flatten_cons, ← List.append_assoc, ih _ (by simp)]
    simp [stableSort_short cmp hs]

/-- Splitting a run at the rows where the value of the column changes. -/
def runs (k : Key) : List Nat → List (List Nat)
  | [] => []
  | a :: l => (a :: l.takeWhile fun x => !k.ne (k.val x) (k.val a)) :: runs k (l.dropWhile fun x => !k.ne (k.val x) (k.val a))
termination_by l => l.length
decreasing_by
  have := (List.dropWhile_sublist (p := fun x => !k.ne (k.val x) (k.val a)) (l := l)).length_le
  simp only [List.length_cons]; omega

theorem runs_flatten (k : Key) (l : List Nat) : (runs k l).flatten = l := by
  fun_induction runs k l with
  | case1 => rfl
  | case2 a l ih => simp [ih, List.takeWhile_append_dropWhile]

theorem runs_ne_nil (k : Key) (l : List Nat) : ∀ s ∈ runs k l, s ≠ [] := by
  fun_induction runs k l with
  | case1 => simp
  | case2 a l ih =>
    intro s hs
    rcases List.mem_cons.1 hs with rfl | hs
    · simp
    · exact ih s hs

theorem nextDiff_eq (ne : κ → κ → Bool) (fv : κ) : ∀ (m pre post : List κ),
    nextDiff ne (pre ++ (m ++ post)) fv pre.length (pre.length + m.length)
      = .ok (pre.length + (m.takeWhile fun x => !ne x fv).length) := by
  intro m
  induction m with
  | nil => intro pre post; rw [nextDiff]; simp
  | cons v m ih =>
    intro pre post
    rw [nextDiff]
    simp only [List.length_cons, Nat.lt_add_right_iff_pos, Nat.succ_pos, if_true, List.cons_append]
    rw [List.getElem?_append_right (Nat.le_refl _)]
    simp only [Nat.sub_self, List.getElem?_cons_zero]
    cases h : ne v fv
    · have := ih (pre ++ [v]) post
      simp only [List.length_append, List.length_singleton, List.append_assoc, List.cons_append, List.nil_append] at this
      rw [show pre.length + (m.length + 1) = pre.length + 1 + m.length by omega, if_neg (by simp), this]
      simp [List.takeWhile_cons, h]
      omega
    · simp [List.takeWhile_cons, h]

theorem scanGroup_eq {k : Key} (hk : k.Lawful) : ∀ (fuel : Nat) (s pre post : List Nat), s.length ≤ fuel →
    ∃ gs, scanGroup k.ne ((pre ++ (s ++ post)).map k.val) fuel pre.length (pre.length + s.length) = .ok (some gs) ∧
      (∀ segs gs', Rep true (pre.length + s.length) segs gs' → Rep true pre.length (runs k s ++ segs) (gs ++ gs')) := by
  intro fuel
  induction fuel with
  | zero =>
    intro s pre post hs
    have : s = [] := List.length_eq_zero_iff.1 (by omega)
    subst this
    exact ⟨[], by simp [scanGroup], fun segs gs' h => by simpa [runs] using h⟩
  | succ fuel ih =>
    intro s pre post hs
    cases s with
    | nil => exact ⟨[], by simp [scanGroup], fun segs gs' h => by simpa [runs] using h⟩
    | cons a l =>
      have hself : k.ne (k.val a) (k.val a) = false := (hk.ne_iff _ _).2 ⟨hk.irrefl _, hk.irrefl _⟩
      let t := l.takeWhile fun x => !k.ne (k.val x) (k.val a)
      let d := l.dropWhile fun x => !k.ne (k.val x) (k.val a)
      have htd : l = t ++ d := (List.takeWhile_append_dropWhile ..).symm
      have hlen : l.length = t.length + d.length := by rw [← List.length_append, ← htd]
      simp only [List.length_cons] at hs
      obtain ⟨gs, h1, h2⟩ := ih d (pre ++ a :: t) post (by omega)
      have hn := nextDiff_eq k.ne (k.val a) ((a :: l).map k.val) (pre.map k.val) (post.map k.val)
      have htw : (((a :: l).map k.val).takeWhile fun x => !k.ne x (k.val a)).length = t.length + 1 := by
        rw [List.takeWhile_map, List.length_map, List.takeWhile_cons]
        simp [Function.comp_def, hself, t]
      rw [htw] at hn
      simp only [List.length_map, List.map_cons, List.cons_append, List.length_cons] at hn
      have hget : ((pre ++ (a :: l ++ post)).map k.val)[pre.length]? = some (k.val a) := by simp
      have e1 : (pre ++ (a :: l ++ post)) = (pre ++ a :: t) ++ (d ++ post) := by
        conv_lhs => rw [htd]
        simp
      have hscan : scanGroup k.ne ((pre ++ (a :: l ++ post)).map k.val) (fuel + 1) pre.length (pre.length + (a :: l).length)
          = .ok (some (if t.length + 1 > 1 then (pre.length, pre.length + (t.length + 1)) :: gs else gs)) := by
        rw [scanGroup, if_neg (by simp), hget]
        dsimp only
        have : nextDiff k.ne ((pre ++ (a :: l ++ post)).map k.val) (k.val a) pre.length (pre.length + (a :: l).length)
            = .ok (pre.length + (t.length + 1)) := by
          rw [← hn]; simp [List.map_append]
        rw [this]
        show (scanGroup k.ne _ fuel _ _ >>= _) = _
        rw [e1]
        rw [show (pre.length + (t.length + 1)) = (pre ++ a :: t).length by simp, show pre.length + (a :: l).length = (pre ++ a :: t).length + d.length by
            simp only [List.length_append, List.length_cons]; omega, h1]
        simp [bind, Except.bind]
      refine ⟨_, hscan, fun segs gs' hr => ?_⟩
      have hr' := h2 segs gs' (by
        have : (pre ++ a :: t).length + d.length = pre.length + (a :: l).length := by
          simp only [List.length_append, List.length_cons]; omega
        rw [this]; exact hr)
      rw [runs]
      simp only [List.length_append, List.length_cons] at hr'
      by_cases ht : t.length + 1 > 1
      · rw [if_pos ht]
        exact Rep.keep (s := a :: t) (fun _ => by simp only [List.length_cons]; omega) hr'
      · rw [if_neg ht]
        exact Rep.skip (s := a :: t) (by simp only [List.length_cons]; omega) hr'

theorem runs_short (k : Key) {s : List Nat} (h : s.length ≤ 1) : ∀ t ∈ runs k s, t.length ≤ 1 := by
  match s, h with
  | [], _ => simp [runs]
  | [a], _ => simp [runs]

theorem rep_skip_all {ss : List (List Nat)} : ∀ {off : Nat} {segs gs}, (∀ t ∈ ss, t.length ≤ 1) →
    Rep st (off + ss.flatten.length) segs gs → Rep st off (ss ++ segs) gs := by
  induction ss with
  | nil => intro off segs gs _ h; simpa using h
  | cons s ss ih =>
    intro off segs gs hs h
    refine Rep.skip (hs s List.mem_cons_self) (ih (fun t ht => hs t (List.mem_cons_of_mem _ ht)) ?_)
    simpa [Nat.add_assoc] using h

theorem columnGroupScan_eq {k : Key} (hk : k.Lawful) (fuel : Nat) {off : Nat} {segs : List (List Nat)} {gs : List (Nat × Nat)}
    (h : Rep st off segs gs) : ∀ (pre : List Nat) (ss : List (List Nat)), pre.length = off → ss.map List.length = segs.map List.length →
      ss.flatten.length ≤ fuel →
      ∃ gs', columnGroupScan fuel k.ne ((pre ++ ss.flatten).map k.val) gs = .ok (some gs') ∧
        Rep true off (ss.flatMap (runs k)) gs' := by
  induction h with
  | nil off =>
    intro pre ss _ hl _
    have : ss = [] := by simpa using hl
    subst this
    exact ⟨[], rfl, Rep.nil _⟩
  | @keep off s ss' gs _ _ ih =>
    intro pre ss hp hl hf
    match ss, hl with
    | s1 :: ss, hl =>
      simp only [List.map_cons, List.cons.injEq] at hl
      rw [List.flatten_cons, List.length_append] at hf
      subst hp
      obtain ⟨g1, h1, h2⟩ := scanGroup_eq hk fuel s1 pre ss.flatten (by omega)
      obtain ⟨g2, h3, h4⟩ := ih (pre ++ s1) ss (by simp [hl.1]) hl.2 (by omega)
      refine ⟨g1 ++ g2, ?_, ?_⟩
      · rw [columnGroupScan, ← hl.1, List.flatten_cons, h1]
        show (columnGroupScan fuel k.ne _ gs >>= _) = _
        rw [← List.append_assoc, h3]
        rfl
      · rw [List.flatMap_cons]
        exact h2 _ _ (by rw [hl.1]; exact h4)
  | @skip off s ss' gs hs _ ih =>
    intro pre ss hp hl hf
    match ss, hl with
    | s1 :: ss, hl =>
      simp only [List.map_cons, List.cons.injEq] at hl
      rw [List.flatten_cons, List.length_append] at hf
      subst hp
      obtain ⟨g2, h3, h4⟩ := ih (pre ++ s1) ss (by simp [hl.1]) hl.2 (by omega)
      refine ⟨g2, by rw [List.flatten_cons, ← List.append_assoc]; exact h3, ?_⟩
      rw [List.flatMap_cons]
      refine rep_skip_all (runs_short k (by omega)) ?_
      rw [runs_flatten, hl.1]; exact h4

/-! ## The invariant -/

/-- `segs` are the rows `0 … n-1` sorted by the keys `ks`, split into runs of equal keys. -/
structure Segs (n : Nat) (ks : List (Key × Bool)) (segs : List (List Nat)) : Prop where
  perm : segs.flatten.Perm (List.range n)
  across : segs.Pairwise fun s t => ∀ a ∈ s, ∀ b ∈ t, LexBefore ks a b
  within : ∀ s ∈ segs, s.Pairwise fun a b => LexSame ks a b ∧ a < b

theorem lexBefore_snoc {ks : List (Key × Bool)} {k : Key} {asc : Bool} {i j : Nat} :
    LexBefore (ks ++ [(k, asc)]) i j ↔ LexBefore ks i j ∨ (LexSame ks i j ∧ Before k asc i j) := by
  induction ks with
  | nil => simp [LexBefore, LexSame]
  | cons p ks ih =>
    obtain ⟨k', a'⟩ := p
    simp only [List.cons_append, LexBefore, ih, LexSame, List.mem_cons, forall_eq_or_imp]
    tauto

theorem lexSame_snoc {ks : List (Key × Bool)} {k : Key} {asc : Bool} {i j : Nat} :
    LexSame (ks ++ [(k, asc)]) i j ↔ LexSame ks i j ∧ Same k i j := by
  simp [LexSame, or_imp, forall_and]

theorem lexSame_symm {ks : List (Key × Bool)} (hk : ∀ p ∈ ks, p.1.Lawful) {i j : Nat} (h : LexSame ks i j) : LexSame ks j i :=
  fun p hp => (hk p hp).same_symm (h p hp)

theorem Segs.init (n : Nat) : Segs n [] [List.range n] where
  perm := by simp
  across := by simp
  within := by
    intro s hs
    simp only [List.mem_singleton] at hs
    subst hs
    exact List.pairwise_lt_range.imp fun h => ⟨fun p hp => by simp at hp, h⟩

/-- After sorting a run by the next column, elements are ordered by that column, ties by row number. -/
theorem sorted_seg {k : Key} (hk : k.Lawful) (asc : Bool) {s : List Nat} (hs : s.Pairwise (· < ·)) :
    (stableSort (k.cmp asc) s).Pairwise fun i j => Before k asc i j ∨ (Same k i j ∧ i < j) :=
  (stableSort_pairwise (hk.strictWeak asc) hs).imp fun {i j} h => by
    rcases h with h | ⟨h1, h2, h3⟩
    · exact .inl (before_iff.2 h)
    · exact .inr ⟨(hk.same_iff asc i j).2 ⟨h1, h2⟩, h3⟩

theorem runs_props {k : Key} (hk : k.Lawful) (asc : Bool) (l : List Nat)
    (h : l.Pairwise fun i j => Before k asc i j ∨ (Same k i j ∧ i < j)) :
    ((runs k l).Pairwise fun s t => ∀ a ∈ s, ∀ b ∈ t, Before k asc a b) ∧
    ∀ s ∈ runs k l, s.Pairwise fun a b => Same k a b ∧ a < b := by
  fun_induction runs k l with
  | case1 => simp
  | case2 a l ih =>
    let t := l.takeWhile fun x => !k.ne (k.val x) (k.val a)
    let d := l.dropWhile fun x => !k.ne (k.val x) (k.val a)
    have htd : l = t ++ d := (List.takeWhile_append_dropWhile ..).symm
    rw [List.pairwise_cons] at h
    obtain ⟨ha, hl⟩ := h
    obtain ⟨ih1, ih2⟩ := ih (hl.sublist (List.dropWhile_sublist _))
    have hta : ∀ x ∈ t, Same k x a := by
      intro x hx
      have := List.all_eq_true.1 (List.all_takeWhile (p := fun x => !k.ne (k.val x) (k.val a)) (l := l)) x hx
      simpa [Same] using this
    -- every element of `d` is after `a`
    have hd : ∀ b ∈ d, Before k asc a b := by
      intro b hb
      -- the head of `d` differs from `a`
      obtain ⟨d0, d', hd⟩ : ∃ d0 d', d = d0 :: d' := by
        cases h : d with
        | nil => rw [h] at hb; simp at hb
        | cons x y => exact ⟨x, y, rfl⟩
      have hne : k.ne (k.val d0) (k.val a) = true := by
        have := List.head_dropWhile_not (fun x => !k.ne (k.val x) (k.val a)) (l := l) (by
          show d ≠ []
          rw [hd]; simp)
        have e : (List.dropWhile (fun x => !k.ne (k.val x) (k.val a)) l).head (by show d ≠ []; rw [hd]; simp) = d0 := by
          have : d.head (by rw [hd]; simp) = d0 := by simp [hd]
          exact this
        rw [e] at this
        simpa using this
      have hb0 : Before k asc a d0 := by
        rcases ha d0 (by rw [htd, hd]; simp) with h | h
        · exact h
        · have := hk.same_symm h.1
          unfold Same at this
          rw [this] at hne; simp at hne
      rw [hd] at hb
      rcases List.mem_cons.1 hb with rfl | hb
      · exact hb0
      · have hdp : d.Pairwise _ := hl.sublist (List.dropWhile_sublist _)
        rw [hd, List.pairwise_cons] at hdp
        rcases hdp.1 b hb with h | h
        · exact before_iff.2 (hk.cmp_trans asc _ _ _ (before_iff.1 hb0) (before_iff.1 h))
        · rw [before_iff] at *
          rw [hk.same_iff asc] at h
          cases h' : k.cmp asc a b
          · have := hk.cmp_ntrans asc _ _ _ h' h.1.2
            rw [hb0] at this; simp at this
          · rfl
    constructor
    · rw [List.pairwise_cons]
      refine ⟨?_, ih1⟩
      intro u hu x hx b hb
      have hbd : b ∈ d := by
        have : b ∈ (runs k d).flatten := List.mem_flatten.2 ⟨u, hu, hb⟩
        rwa [runs_flatten] at this
      rcases List.mem_cons.1 hx with rfl | hx
      · exact hd b hbd
      · have h1 := before_iff.1 (hd b hbd)
        rw [before_iff]
        have h2 := (hk.same_iff asc x a).1 (hta x hx)
        cases h' : k.cmp asc x b
        · have := hk.cmp_ntrans asc _ _ _ h2.2 h'
          rw [h1] at this; simp at this
        · rfl
    · intro s hs
      rcases List.mem_cons.1 hs with rfl | hs
      · have hsub : (a :: t).Sublist (a :: l) := (List.takeWhile_sublist _).cons_cons a
        have hp : (a :: l).Pairwise fun i j => Before k asc i j ∨ (Same k i j ∧ i < j) := List.pairwise_cons.2 ⟨ha, hl⟩
        have hp' := hp.sublist hsub
        refine hp'.imp_of_mem ?_
        intro x y hx hy hxy
        have hs : ∀ z ∈ a :: t, Same k z a := by
          intro z hz
          rcases List.mem_cons.1 hz with rfl | hz
          · exact hk.same_refl _
          · exact hta z hz
        have hsame : Same k x y := hk.same_trans (hs x hx) (hk.same_symm (hs y hy))
        rcases hxy with h | h
        · rw [before_iff] at h
          rw [hk.same_iff asc] at hsame
          rw [h] at hsame; simp at hsame
        · exact h
      · exact ih2 s hs

theorem Segs.step {n : Nat} {ks : List (Key × Bool)} {segs : List (List Nat)} (h : Segs n ks segs)
    {k : Key} (hk : k.Lawful) (asc : Bool) (hks : ∀ p ∈ ks, p.1.Lawful) :
    Segs n (ks ++ [(k, asc)]) ((segs.map (stableSort (k.cmp asc))).flatMap (runs k)) := by
  have hfl : ((segs.map (stableSort (k.cmp asc))).flatMap (runs k)).flatten = (segs.map (stableSort (k.cmp asc))).flatten := by
    rw [List.flatMap_def, List.flatten_flatten, List.map_map, List.map_map]
    congr 1
    refine List.map_congr_left fun s _ => ?_
    simp [runs_flatten]
  have hin : ∀ s ∈ segs, ∀ u ∈ runs k (stableSort (k.cmp asc) s), ∀ a ∈ u, a ∈ s := by
    intro s _ u hu a ha
    have : a ∈ (runs k (stableSort (k.cmp asc) s)).flatten := List.mem_flatten.2 ⟨u, hu, ha⟩
    rw [runs_flatten] at this
    exact (stableSort_perm _ _).mem_iff.1 this
  have hsame : ∀ s ∈ segs, ∀ a ∈ s, ∀ b ∈ s, LexSame ks a b := by
    intro s hs a ha b hb
    have hp := h.within s hs
    rw [List.pairwise_iff_getElem] at hp
    obtain ⟨i, hi, rfl⟩ := List.mem_iff_getElem.1 ha
    obtain ⟨j, hj, rfl⟩ := List.mem_iff_getElem.1 hb
    rcases Nat.lt_trichotomy i j with hij | hij | hij
    · exact (hp i j hi hj hij).1
    · subst hij; exact fun p hp => (hks p hp).same_refl _
    · exact lexSame_symm hks (hp j i hj hi hij).1
  constructor
  · rw [hfl]
    refine List.Perm.trans ?_ h.perm
    clear hfl hin hsame h
    induction segs with
    | nil => simp
    | cons s ss ih => simpa using (stableSort_perm (k.cmp asc) s).append ih
  · rw [List.flatMap_def, List.pairwise_flatten]
    constructor
    · intro l hl
      obtain ⟨s', hs', rfl⟩ := List.mem_map.1 hl
      obtain ⟨s, hs, rfl⟩ := List.mem_map.1 hs'
      have := (runs_props hk asc _ (sorted_seg hk asc ((h.within s hs).imp fun h => h.2))).1
      refine this.imp_of_mem ?_
      intro u v hu hv huv a ha b hb
      rw [lexBefore_snoc]
      exact .inr ⟨hsame s hs a (hin s hs u hu a ha) b (hin s hs v hv b hb), huv a ha b hb⟩
    · rw [List.map_map, List.pairwise_map]
      refine h.across.imp_of_mem ?_
      intro s t hs ht hst u hu v hv a ha b hb
      rw [lexBefore_snoc]
      exact .inl (hst a (hin s hs u hu a ha) b (hin t ht v hv b hb))
  · intro u hu
    rw [List.mem_flatMap] at hu
    obtain ⟨s', hs', hu⟩ := hu
    obtain ⟨s, hs, rfl⟩ := List.mem_map.1 hs'
    have := (runs_props hk asc _ (sorted_seg hk asc ((h.within s hs).imp fun h => h.2))).2 u hu
    refine this.imp_of_mem ?_
    intro a b ha hb hab
    exact ⟨lexSame_snoc.2 ⟨hsame s hs a (hin s hs u hu a ha) b (hin s hs u hu b hb), hab.1⟩, hab.2⟩

/-- The state of the kernel between columns: index list and groups represent the sorted runs. -/
def Good (n : Nat) (ks : List (Key × Bool)) (st : List Nat × List (Nat × Nat)) : Prop :=
  ∃ segs, Segs n ks segs ∧ st.1 = segs.flatten ∧ ∃ b, Rep b 0 segs st.2

theorem Good.init (n : Nat) : Good n [] (List.range n, [(0, n)]) := by
  refine ⟨[List.range n], Segs.init n, by simp, false, ?_⟩
  have := Rep.keep (strict := false) (off := 0) (s := List.range n) (by simp) (Rep.nil _)
  simpa using this

theorem Good.sort {n ks} {st : List Nat × List (Nat × Nat)} (h : Good n ks st) {k : Key} (hk : k.Lawful) (asc : Bool)
    (hks : ∀ p ∈ ks, p.1.Lawful) {fuel : Nat} (hf : n ≤ fuel) :
    ∃ segs' gs', multiColumnIDSort fuel k asc st = .ok (some (columnIDSort k asc st.2 st.1, gs')) ∧
      Segs n (ks ++ [(k, asc)]) segs' ∧ columnIDSort k asc st.2 st.1 = segs'.flatten ∧ Rep true 0 segs' gs' ∧ ∀ s ∈ segs', s ≠ [] := by
  obtain ⟨segs, hs, hst, b, hr⟩ := h
  have h1 : columnIDSort k asc st.2 st.1 = (segs.map (stableSort (k.cmp asc))).flatten := by
    rw [hst]
    have := columnIDSort_rep (cmp := k.cmp asc) hr [] rfl
    simpa [columnIDSort] using this
  have hstep := hs.step hk asc hks
  have hlen : (segs.map (stableSort (k.cmp asc))).flatten.length ≤ fuel := by
    have h2 := hs.perm.length_eq
    have h3 : (segs.map (stableSort (k.cmp asc))).flatten.length = segs.flatten.length := by
      simp only [List.length_flatten, List.map_map]
      congr 1
      exact List.map_congr_left fun s _ => (stableSort_perm _ s).length_eq
    rw [h3, h2]; simpa using hf
  obtain ⟨gs', h4, h5⟩ := columnGroupScan_eq hk fuel hr [] (segs.map (stableSort (k.cmp asc))) rfl (by
    rw [List.map_map]
    exact List.map_congr_left fun s _ => (stableSort_perm _ s).length_eq) hlen
  refine ⟨_, gs', ?_, hstep, ?_, h5, fun s hs => ?_⟩
  · unfold multiColumnIDSort
    simp only [h1]
    rw [List.nil_append] at h4
    rw [h4]
    rfl
  · rw [h1, List.flatMap_def, List.flatten_flatten, List.map_map, List.map_map]
    congr 1
    refine List.map_congr_left fun s _ => ?_
    simp [runs_flatten]
  · obtain ⟨t, _, ht⟩ := List.mem_flatMap.1 hs
    exact runs_ne_nil k t s ht

theorem multiSorts_good {n : Nat} {fuel : Nat} (hf : n ≤ fuel) : ∀ (rest : List (Key × Bool)) (ks) (st),
    (∀ p ∈ ks, p.1.Lawful) → (∀ p ∈ rest, p.1.Lawful) → Good n ks st →
    ∃ st', multiSorts fuel rest st = .ok (some st') ∧ Good n (ks ++ rest) st' := by
  intro rest
  induction rest with
  | nil => intro ks st _ _ h; exact ⟨st, rfl, by simpa using h⟩
  | cons p rest ih =>
    intro ks st hks hr h
    obtain ⟨k, asc⟩ := p
    obtain ⟨segs', gs', h1, h2, h3, h4, _⟩ := h.sort (hr (k, asc) List.mem_cons_self) asc hks hf
    obtain ⟨st', h5, h6⟩ := ih (ks ++ [(k, asc)]) (columnIDSort k asc st.2 st.1, gs') (by
      intro p hp
      rcases List.mem_append.1 hp with hp | hp
      · exact hks p hp
      · exact hr p (by simp at hp; simp [hp]))
      (fun p hp => hr p (List.mem_cons_of_mem _ hp)) ⟨segs', h2, h3, true, h4⟩
    refine ⟨st', ?_, by simpa using h6⟩
    rw [multiSorts, h1]
    exact h5

theorem Segs.isStableOrder {n ks segs} (h : Segs n ks segs) : IsStableOrder n ks segs.flatten where
  perm := h.perm
  sorted := by
    rw [List.pairwise_flatten]
    refine ⟨fun s hs => (h.within s hs).imp fun h => .inr h, h.across.imp fun h x hx y hy => .inl (h x hx y hy)⟩

theorem orderIdx_good (n fuel : Nat) (hf : n ≤ fuel) (keys : List (Key × Bool)) (hne : keys ≠ [])
    (hk : ∀ p ∈ keys, p.1.Lawful) (wg : Bool) :
    ∃ idx gs, orderIdx fuel n keys wg = .ok (some (idx, gs)) ∧ ∃ segs, Segs n keys segs ∧ idx = segs.flatten ∧
      (wg = true → Rep true 0 segs gs) ∧ ∀ s ∈ segs, s ≠ [] := by
  obtain ⟨k, asc, hlast⟩ : ∃ k asc, keys.getLast? = some (k, asc) := by
    cases h : keys.getLast? with
    | none => exact absurd (List.getLast?_eq_none_iff.1 h) hne
    | some p => exact ⟨p.1, p.2, rfl⟩
  have hsplit : keys.dropLast ++ [(k, asc)] = keys := by
    have := List.getLast?_eq_some_iff.1 hlast
    obtain ⟨ys, rfl⟩ := this
    simp
  obtain ⟨st, h1, h2⟩ := multiSorts_good hf keys.dropLast [] (List.range n, [(0, n)]) (by simp)
    (fun p hp => hk p (List.dropLast_subset _ hp)) (Good.init n)
  rw [List.nil_append] at h2
  obtain ⟨segs', gs', h3, h4, h5, h6, h7⟩ := h2.sort (hk (k, asc) (by rw [← hsplit]; simp)) asc
    (fun p hp => hk p (List.dropLast_subset _ hp)) hf
  rw [hsplit] at h4
  unfold orderIdx
  rw [hlast]
  simp only [h1]
  cases wg
  · exact ⟨_, _, rfl, segs', h4, h5, by simp, h7⟩
  · exact ⟨_, gs', by rw [← h3]; rfl, segs', h4, h5, fun _ => h6, h7⟩

end Verif.Rel
