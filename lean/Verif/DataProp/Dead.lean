/-
  What inserting recorded data properties does not change (C328, C329).
-/
import Verif.DataProp.Pass

namespace Verif.DataProp

/-! ### Specification -/

/-- What type inference sees of an operation: the operation, the types of its operands and of its results. -/
def seen (o : Op) : Nat × List Ty × List Ty := (o.uid, o.args.map (·.2), o.res)

/-- The operations of the program itself, without the casts of the pass. -/
def own (p : Ops) : List Op := (allOps p).filter fun o => o.kind ≠ .behind ∧ o.kind ≠ .front

theorem own_cons (o : Op) (b r : Ops) : own (.cons o b r) = (if o.kind ≠ .behind ∧ o.kind ≠ .front then [o] else []) ++ (own b ++ own r) := by
  unfold own
  rw [allOps, List.filter_cons, List.filter_append]
  by_cases h : o.kind ≠ .behind ∧ o.kind ≠ .front <;> simp [h]

theorem own_putBehind (o : Op) : ∀ (l : List (Nat × Ty)) (r : Ops), own (putBehind o l r) = own r := by
  intro l
  induction l with
  | nil => intro r; rfl
  | cons q l ih =>
    intro r
    rw [putBehind, ih, own_cons]
    simp [castBehind, own, allOps]

theorem own_putFront : ∀ (l : List Op) (r : Ops), (∀ o ∈ l, o.kind = .front) → own (putFront l r) = own r := by
  intro l
  induction l with
  | nil => intro r _; rfl
  | cons o l ih =>
    intro r h
    rw [putFront, own_cons, ih r (fun o ho => h o (List.mem_cons_of_mem _ ho)), h o (by simp)]
    simp [own, allOps]

theorem own_insertWalk : ∀ (p : Ops) (l : List Entry), own (insertWalk p l).1 = own p := by
  intro p
  induction p with
  | nil => intro l; rfl
  | cons o body rest ihb ihr =>
    intro l
    simp only [insertWalk]
    rw [own_cons, own_cons, own_putBehind, ihr]
    congr 2
    split
    · exact ihb _
    · rfl

/-- The treated values come with their types. -/
def Honest (p : Ops) (tr : List (Val × Ty)) : Prop := ∀ q ∈ tr, ∃ o ∈ allOps p, ∃ j, q.1 = .res o.uid j ∧ o.res[j]? = some q.2

theorem insertResults_idx (o : Op) : ∀ (ts : List Ty) (i : Nat) (l : List Entry) j, o.res.drop i = ts →
    j ∈ (insertResults o i ts l).2.1 → ∃ t, o.res[j]? = some t := by
  intro ts
  induction ts with
  | nil => intro i l j _ hj; simp [insertResults] at hj
  | cons t ts ih =>
    intro i l j hd hj
    obtain ⟨ht, hd'⟩ := drop_cons hd
    cases l with
    | nil => simp [insertResults] at hj
    | cons e l =>
      rw [insertResults] at hj
      split at hj
      · split at hj
        · simp only at hj
          split at hj
          · exact ih _ _ _ hd' hj
          · rcases List.mem_cons.mp hj with rfl | hj
            · exact ⟨t, ht⟩
            · exact ih _ _ _ hd' hj
        · exact ih _ _ _ hd' hj
      · exact ih _ _ _ hd' hj

theorem honest_insertWalk : ∀ (p : Ops) (l : List Entry), Honest p (insertWalk p l).2.1 := by
  intro p
  induction p with
  | nil => intro l q hq; simp [insertWalk] at hq
  | cons o body rest ihb ihr =>
    intro l q hq
    simp only [insertWalk] at hq
    rw [List.mem_append, List.mem_append] at hq
    rcases hq with (hq | hq) | hq
    · refine ⟨o, by simp [allOps], ?_⟩
      unfold treated at hq
      rw [List.mem_map] at hq
      obtain ⟨j, hj, rfl⟩ := hq
      have : ∃ t, o.res[j]? = some t := by
        split at hj
        · exact insertResults_idx o o.res 0 l j rfl hj
        · cases hj
      obtain ⟨t, ht⟩ := this
      exact ⟨j, rfl, by rw [List.getD_eq_getElem?_getD, ht]; rfl⟩
    · split at hq
      · obtain ⟨d, hd, h⟩ := ihb _ q hq
        exact ⟨d, by simp [allOps, hd], h⟩
      · cases hq
    · obtain ⟨d, hd, h⟩ := ihr _ q hq
      exact ⟨d, by simp [allOps, hd], h⟩

theorem mem_of_lookup {β γ : Type} [BEq β] [LawfulBEq β] {l : List (β × γ)} {k : β} {v : γ} (h : l.lookup k = some v) : (k, v) ∈ l := by
  induction l with
  | nil => cases h
  | cons a l ih =>
    obtain ⟨k', v'⟩ := a
    rw [List.lookup_cons] at h
    split at h
    · rename_i e
      have := eq_of_beq e
      subst this
      cases h
      exact List.mem_cons_self
    · exact List.mem_cons_of_mem _ (ih h)

theorem redirect_types (tr : List (Val × Ty)) (sel : Nat → Nat → Bool) (u : Nat) : ∀ (as : List (Val × Ty)) (i : Nat),
    (∀ a ∈ as, ∀ t, (a.1, t) ∈ tr → a.2 = t) → (redirect tr sel u i as).map (·.2) = as.map (·.2) := by
  intro as
  induction as with
  | nil => intro i _; rfl
  | cons a as ih =>
    intro i h
    rw [redirect, List.map_cons, List.map_cons, ih (i + 1) (fun b hb => h b (List.mem_cons_of_mem _ hb))]
    congr 1
    split
    · rename_i d j t hv hl
      split
      · exact (h a (by simp) t (mem_of_lookup hl)).symm
      · rfl
    · rfl

theorem redirect_vals (tr : List (Val × Ty)) (sel : Nat → Nat → Bool) (u : Nat) : ∀ (as : List (Val × Ty)) (i : Nat),
    (∀ a ∈ as, ∀ d j, a.1 ≠ .behind d j) → ∀ a ∈ redirect tr sel u i as, ∀ d j, a.1 ≠ .behind d j := by
  intro as
  induction as with
  | nil => intro i _ a ha; cases ha
  | cons b as ih =>
    intro i h a ha
    rw [redirect] at ha
    rcases List.mem_cons.mp ha with rfl | ha
    · intro d j
      split
      · split
        · simp
        · exact h b (by simp) d j
      · exact h b (by simp) d j
    · exact ih (i + 1) (fun b hb => h b (List.mem_cons_of_mem _ hb)) a ha

theorem own_redirectAll (tr : List (Val × Ty)) (sel : Nat → Nat → Bool) : ∀ p : Ops,
    (∀ o ∈ own p, ∀ a ∈ o.args, ∀ t, (a.1, t) ∈ tr → a.2 = t) → (own (redirectAll tr sel p)).map seen = (own p).map seen := by
  intro p
  induction p with
  | nil => intro _; rfl
  | cons o b r ihb ihr =>
    intro h
    simp only [redirectAll]
    rw [own_putFront _ _ (by
      intro c hc
      split at hc
      · exact castsBefore_front _ _ _ c hc
      · cases hc), own_cons, own_cons]
    simp only [List.map_append]
    rw [own_cons] at h
    rw [ihb fun o ho => h o (by simp [ho]), ihr fun o ho => h o (by simp [ho])]
    congr 1
    by_cases hc : o.kind = .ctrl
    · simp only [hc, if_true]
      have h1 : o.kind ≠ .behind ∧ o.kind ≠ .front := by rw [hc]; decide
      rw [if_pos h1] at h
      simp only [ne_eq, reduceCtorEq, not_false_eq_true, and_self, if_true, List.map_cons, List.map_nil, List.cons.injEq, and_true]
      unfold seen
      simp only [redirect_types tr sel o.uid o.args 0 (h o (by simp))]
    · simp only [hc, if_false]

theorem own_source {p : Ops} (h : Source p) : own p = allOps p := by
  unfold own
  rw [List.filter_eq_self]
  intro o ho
  have := h o ho
  simp [this.1, this.2.1]

/-! ### Uses of the casts -/

/-- No operand is the result of a cast behind an operation. -/
def NoUse (p : Ops) : Prop := ∀ o ∈ allOps p, ∀ a ∈ o.args, ∀ d j, a.1 ≠ .behind d j

theorem noUse_cons {o : Op} {b r : Ops} : NoUse (.cons o b r) ↔ (∀ a ∈ o.args, ∀ d j, a.1 ≠ .behind d j) ∧ NoUse b ∧ NoUse r := by
  unfold NoUse
  simp only [allOps, List.mem_cons, List.mem_append]
  constructor
  · intro h
    exact ⟨h o (.inl rfl), fun q hq => h q (.inr (.inl hq)), fun q hq => h q (.inr (.inr hq))⟩
  · rintro ⟨h1, h2, h3⟩ q (rfl | hq | hq)
    · exact h1
    · exact h2 q hq
    · exact h3 q hq

theorem noUse_nil : NoUse .nil := by intro o ho; cases ho

theorem noUse_putBehind (o : Op) : ∀ (l : List (Nat × Ty)) (r : Ops), NoUse r → NoUse (putBehind o l r) := by
  intro l
  induction l with
  | nil => intro r h; exact h
  | cons q l ih =>
    intro r h
    rw [putBehind]
    refine ih _ (noUse_cons.mpr ⟨?_, noUse_nil, h⟩)
    intro a ha d j
    simp only [castBehind, List.mem_singleton] at ha
    subst ha
    simp

theorem noUse_insertWalk : ∀ (p : Ops) (l : List Entry), NoUse p → NoUse (insertWalk p l).1 := by
  intro p
  induction p with
  | nil => intro l h; exact h
  | cons o body rest ihb ihr =>
    intro l h
    obtain ⟨h1, h2, h3⟩ := noUse_cons.mp h
    simp only [insertWalk]
    refine noUse_cons.mpr ⟨h1, ?_, noUse_putBehind _ _ _ (ihr _ h3)⟩
    split
    · exact ihb _ h2
    · exact h2

theorem noUse_putFront : ∀ (l : List Op) (r : Ops), (∀ o ∈ l, ∀ a ∈ o.args, ∀ d j, a.1 ≠ .behind d j) → NoUse r → NoUse (putFront l r) := by
  intro l
  induction l with
  | nil => intro r _ h; exact h
  | cons o l ih =>
    intro r h hr
    rw [putFront]
    exact noUse_cons.mpr ⟨h o (by simp), noUse_nil, ih r (fun q hq => h q (List.mem_cons_of_mem _ hq)) hr⟩

theorem noUse_redirectAll (tr : List (Val × Ty)) (sel : Nat → Nat → Bool) : ∀ p : Ops, NoUse p → NoUse (redirectAll tr sel p) := by
  intro p
  induction p with
  | nil => intro h; exact h
  | cons o b r ihb ihr =>
    intro h
    obtain ⟨h1, h2, h3⟩ := noUse_cons.mp h
    simp only [redirectAll]
    refine noUse_putFront _ _ ?_ (noUse_cons.mpr ⟨?_, ihb h2, ihr h3⟩)
    · intro c hc
      split at hc
      · unfold castsBefore at hc
        rw [List.mem_dedup, List.mem_filterMap] at hc
        obtain ⟨a, _, ha⟩ := hc
        split at ha
        · rw [Option.map_eq_some_iff] at ha
          obtain ⟨t, _, rfl⟩ := ha
          intro a ha d j
          simp only [List.mem_singleton] at ha
          subst ha
          simp
        · cases ha
      · cases hc
    · split
      · exact redirect_vals tr sel o.uid o.args 0 h1
      · exact h1

/-- **C328, refuted.** The properties that are inserted do not reach any operation: for every well-typed program, every file of recorded properties, and whichever of the uses are redirected,
the operations of the program have operands of exactly the types they had before (and the same results), so that type inference, the selection of representations and of kernels see no
difference; and the results of the casts that carry recorded sparsities are not used by any operation at all. -/
theorem C328_inserted_properties_have_no_effect_partial (p : Ops) (hp : Source p) (ht : WellTyped p) (f : List Entry) (sel : Nat → Nat → Bool) :
    ((allOps (insertPass sel p f)).filter fun o => o.kind ≠ .behind ∧ o.kind ≠ .front).map seen = (allOps p).map seen ∧
    ∀ o ∈ allOps (insertPass sel p f), ∀ a ∈ o.args, ∀ d j, a.1 ≠ .behind d j := by
  constructor
  · show (own (insertPass sel p f)).map seen = _
    unfold insertPass
    rw [own_redirectAll, own_insertWalk, own_source hp]
    rw [own_insertWalk, own_source hp]
    intro o ho a ha t hat
    obtain ⟨d, hd, j, e1, e2⟩ := honest_insertWalk p _ _ hat
    exact ht o ho a ha d hd j t e1 e2
  · refine noUse_redirectAll _ _ _ (noUse_insertWalk _ _ ?_)
    intro o ho a ha d j e
    rcases (hp o ho).2.2 a ha with ⟨d', j', h⟩ | ⟨n, h⟩ <;> rw [h] at e <;> cases e

/-! ### Entries without a number -/

theorem insertResults_stuck (o : Op) (e : Entry) (he : ∀ q, e.2 ≠ some (.num q)) : ∀ (ts : List Ty) (i : Nat) (A B : List Entry),
    (insertResults o i ts (A ++ e :: B)).1 = (insertResults o i ts A).1 ∧
    (insertResults o i ts (A ++ e :: B)).2.1 = (insertResults o i ts A).2.1 ∧
    ∃ A', (insertResults o i ts A).2.2 = A' ∧ (insertResults o i ts (A ++ e :: B)).2.2 = A' ++ e :: B := by
  intro ts
  induction ts with
  | nil => intro i A B; simp [insertResults]
  | cons t ts ih =>
    intro i A B
    cases A with
    | nil =>
      have h1 : insertResults o i (t :: ts) ([] ++ e :: B) = insertResults o (i + 1) ts (e :: B) := by
        rw [List.nil_append, insertResults]
        split
        · rename_i q hq; exact absurd hq (he q)
        · rfl
      have h2 : insertResults o i (t :: ts) [] = ([], [], []) := by rw [insertResults]
      have h3 : insertResults o (i + 1) ts [] = ([], [], []) := by cases ts <;> rw [insertResults]
      have := ih (i + 1) [] B
      rw [h3] at this
      rw [h1, h2]
      simpa using this
    | cons a A =>
      rw [List.cons_append, insertResults, insertResults]
      split
      · split
        · obtain ⟨h1, h2, A', h3, h4⟩ := ih (i + 1) A B
          simp only
          split
          · exact ⟨by simp [h1], by simp [h2], A', h3, h4⟩
          · exact ⟨by simp [h1], by simp [h2], A', h3, h4⟩
        · exact ih (i + 1) (a :: A) B
      · exact ih (i + 1) (a :: A) B

theorem insertWalk_stuck (e : Entry) (he : ∀ q, e.2 ≠ some (.num q)) : ∀ (p : Ops) (A B : List Entry),
    (insertWalk p (A ++ e :: B)).1 = (insertWalk p A).1 ∧
    (insertWalk p (A ++ e :: B)).2.1 = (insertWalk p A).2.1 ∧
    ∃ A', (insertWalk p A).2.2 = A' ∧ (insertWalk p (A ++ e :: B)).2.2 = A' ++ e :: B := by
  intro p
  induction p with
  | nil => intro A B; simp [insertWalk]
  | cons o body rest ihb ihr =>
    intro A B
    simp only [insertWalk]
    generalize ha : (if o.kind.handled then insertResults o 0 o.res (A ++ e :: B) else ([], [], A ++ e :: B)) = a
    generalize ha' : (if o.kind.handled then insertResults o 0 o.res A else ([], [], A)) = a'
    have qa : a.1 = a'.1 ∧ a.2.1 = a'.2.1 ∧ a.2.2 = a'.2.2 ++ e :: B := by
      subst ha; subst ha'
      split
      · obtain ⟨h1, h2, A', h3, h4⟩ := insertResults_stuck o e he o.res 0 A B
        exact ⟨h1, h2, by rw [h4, h3]⟩
      · exact ⟨rfl, rfl, rfl⟩
    obtain ⟨a1, a2, a3⟩ := qa
    rw [a3]
    generalize hb : (if o.kind.entered then insertWalk body (a'.2.2 ++ e :: B) else (body, [], a'.2.2 ++ e :: B)) = b
    generalize hb' : (if o.kind.entered then insertWalk body a'.2.2 else (body, [], a'.2.2)) = b'
    have qb : b.1 = b'.1 ∧ b.2.1 = b'.2.1 ∧ b.2.2 = b'.2.2 ++ e :: B := by
      subst hb; subst hb'
      split
      · obtain ⟨h1, h2, A', h3, h4⟩ := ihb a'.2.2 B
        exact ⟨h1, h2, by rw [h4, h3]⟩
      · exact ⟨rfl, rfl, rfl⟩
    obtain ⟨b1, b2, b3⟩ := qb
    rw [b3]
    obtain ⟨c1, c2, A', c3, c4⟩ := ihr b'.2.2 B
    refine ⟨by rw [a1, b1, c1], by rw [a2, b2, c2], A', c3, c4⟩

/-- **C329, refuted.** An entry without a number (such as that of a matrix without cells, for which `null` is recorded) does not only have no effect itself: no entry with a
higher identifier has any, since all later results are compared with this one. The result is exactly that for the file with the lower identifiers only. -/
theorem C329_entries_behind_one_without_number_partial (p : Ops) (f : List Entry) (sel : Nat → Nat → Bool) (hd : f.Pairwise fun a b => a.1 ≠ b.1)
    (e : Entry) (he : e ∈ f) (hn : ∀ q, e.2 ≠ some (.num q)) :
    insertPass sel p f = insertPass sel p (f.filter fun a => a.1 < e.1) := by
  have hperm := sortEntries_perm f
  have hlt : (sortEntries f).Pairwise fun a b => a.1 < b.1 := by
    have h1 := sortEntries_sorted f
    have h2 : (sortEntries f).Pairwise fun a b => a.1 ≠ b.1 := (hperm.pairwise_iff (fun {a b} h => Ne.symm h)).mpr hd
    exact (h1.and h2).imp fun h => by omega
  obtain ⟨A, B, hAB⟩ := List.append_of_mem (hperm.mem_iff.mpr he)
  have hA : sortEntries (f.filter fun a => a.1 < e.1) = A := by
    refine sortEntries_eq ?_ ?_
    · have hp := (hperm.filter fun a => decide (a.1 < e.1)).symm
      rw [hAB] at hp
      rw [hAB, List.pairwise_append] at hlt
      obtain ⟨_, h2, h3⟩ := hlt
      rw [List.pairwise_cons] at h2
      rw [List.filter_append, List.filter_cons] at hp
      have e1 : A.filter (fun a => decide (a.1 < e.1)) = A := List.filter_eq_self.mpr fun a ha => by simpa using h3 a ha e (by simp)
      have e2 : B.filter (fun a => decide (a.1 < e.1)) = [] := List.filter_eq_nil_iff.mpr fun b hb => by have := h2.1 b hb; simp; omega
      rw [e1, e2] at hp
      simpa using hp
    · rw [hAB, List.pairwise_append] at hlt
      exact hlt.1
  unfold insertPass
  rw [hA, hAB]
  obtain ⟨h1, h2, -⟩ := insertWalk_stuck e hn p A B
  simp only [h1, h2]

/-- A program: `X` is a matrix, then a loop with `X` as operand and a matrix as result, and an operation on the result. -/
def prog : Ops :=
  .cons ⟨0, .main, [], []⟩
    (.cons ⟨1, .plain, [], [.mat 1 (-1)]⟩ .nil
      (.cons ⟨2, .ctrl, [(.res 1 0, .mat 1 (-1))], [.mat 1 (-1), .other 3]⟩ (.cons ⟨3, .plain, [(.arg 0, .mat 1 (-1))], [.mat 1 (-1)]⟩ .nil .nil)
        (.cons ⟨4, .plain, [(.res 2 0, .mat 1 (-1))], [.mat 2 (-1)]⟩ .nil .nil)))
    .nil

instance (p : Ops) : Decidable (WellTyped p) :=
  decidable_of_iff (∀ o ∈ allOps p, ∀ a ∈ o.args, ∀ d ∈ allOps p, ∀ j ∈ List.range d.res.length, a.1 = .res d.uid j → some a.2 = d.res[j]?) (by
    constructor
    · intro h o ho a ha d hd j t e1 e2
      have hj : j < d.res.length := by
        by_contra hj
        rw [List.getElem?_eq_none (by omega)] at e2
        cases e2
      have := h o ho a ha d hd j (List.mem_range.mpr hj) e1
      rw [e2] at this
      exact Option.some.inj this
    · intro h o ho a ha d hd j hj e1
      rw [List.mem_range] at hj
      rw [List.getElem?_eq_getElem hj]
      congr 1
      exact h o ho a ha d hd j _ e1 (List.getElem?_eq_getElem hj))

example : WellTyped prog := by decide +kernel
example : Source prog := by
  intro o ho
  simp only [prog, allOps, List.mem_cons, List.mem_append, List.not_mem_nil, or_false, false_or] at ho
  rcases ho with rfl | rfl | rfl | rfl | rfl <;> simp
example : record prog = [(.res 1 0, 1), (.res 2 0, 2), (.res 4 0, 3)] := by decide +kernel

/-- With the file `{"1": 0.5, "2": 0.25, "3": 0.125}`, there is one cast behind the loop, of type `sp[0.25]`, which is not used. -/
example : (allOps (insertPass (fun _ _ => true) prog [(3, some (.num (1/8))), (1, some (.num (1/2))), (2, some (.num (1/4)))])).map seen =
    [(0, [], []), (1, [], [.mat 1 (-1)]), (0, [.mat 1 (-1)], [.mat 1 (-1)]), (2, [.mat 1 (-1)], [.mat 1 (-1), .other 3]), (3, [.mat 1 (-1)], [.mat 1 (-1)]),
     (0, [.mat 1 (-1)], [.mat 1 (1/4)]), (4, [.mat 1 (-1)], [.mat 2 (-1)])] := by
  have hs : sortEntries [(3, some (.num (1/8))), (1, some (.num (1/2))), (2, some (.num (1/4)))] =
      [(1, some (.num (1/2))), (2, some (.num (1/4))), (3, some (.num (1/8)))] :=
    sortEntries_eq (by decide +kernel) (by decide +kernel)
  unfold insertPass
  rw [hs]
  decide +kernel

/-- With `null` for the first matrix, nothing is inserted. -/
example (sel : Nat → Nat → Bool) : insertPass sel prog [(1, some .null), (2, some (.num (1/4))), (3, some (.num (1/8)))] = insertPass sel prog [] :=
  C329_entries_behind_one_without_number_partial prog _ sel (by decide +kernel) (1, some .null) (by simp) (by simp)

end Verif.DataProp
