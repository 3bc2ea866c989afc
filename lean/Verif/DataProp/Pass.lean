/-
  The identifiers of recorded data properties and what inserting them changes (C327, C328).
-/
import Verif.DataProp.Model

namespace Verif.DataProp

/-! ### Specification -/

/-- All operations of a program, also those in regions, in the order of the text. -/
def allOps : Ops → List Op
  | .nil => []
  | .cons o body rest => o :: (allOps body ++ allOps rest)

/-- The operations of the function `main` whose results are of interest, in the order of the text: not those in other functions, nor those inside of loops and branches. -/
def ofMain : Ops → List Op
  | .nil => []
  | .cons o body rest =>
    (if o.kind = .ctrl ∨ o.kind = .plain then [o] else []) ++ (if o.kind = .ctrl ∨ o.kind = .udf then [] else ofMain body) ++ ofMain rest

/-- The results of an operation that are matrices, with their types. -/
def matrices (o : Op) : List (Val × Ty) :=
  (o.res.zipIdx.filter fun q => match q.1 with | .mat _ _ => true | .other _ => false).map fun q => (.res o.uid q.2, q.1)

/-- The type with another sparsity. -/
def withSp (s : ℚ) : Ty → Ty
  | .mat r _ => .mat r s
  | t => t

/-- A program before the pass: there are none of its casts. -/
def Source (p : Ops) : Prop :=
  ∀ o ∈ allOps p, o.kind ≠ .behind ∧ o.kind ≠ .front ∧ ∀ a ∈ o.args, (∃ d j, a.1 = .res d j) ∨ ∃ n, a.1 = .arg n

/-- Operands have the types of the values they are. -/
def WellTyped (p : Ops) : Prop :=
  ∀ o ∈ allOps p, ∀ a ∈ o.args, ∀ d ∈ allOps p, ∀ j t, a.1 = .res d.uid j → d.res[j]? = some t → a.2 = t

/-! ### Recording -/

/-- The matrices among the results from number `i` on. -/
def matsFrom (u : Nat) : Nat → List Ty → List (Val × Ty)
  | _, [] => []
  | i, t :: ts => if t.isMat then (.res u i, t) :: matsFrom u (i + 1) ts else matsFrom u (i + 1) ts

theorem matsFrom_eq (u : Nat) : ∀ (ts : List Ty) (i : Nat), matsFrom u i ts =
    ((ts.zipIdx i).filter fun q => match q.1 with | .mat _ _ => true | .other _ => false).map fun q => (Val.res u q.2, q.1) := by
  intro ts
  induction ts with
  | nil => intro i; rfl
  | cons t ts ih =>
    intro i
    rw [List.zipIdx_cons, List.filter_cons, matsFrom, ih]
    cases t <;> simp [Ty.isMat]

theorem matrices_eq (o : Op) : matrices o = matsFrom o.uid 0 o.res := (matsFrom_eq o.uid o.res 0).symm

theorem recordResults_eq (o : Op) : ∀ (ts : List Ty) (i id : Nat),
    (recordResults o i ts id).1.map (·.1) = (matsFrom o.uid i ts).map (·.1) ∧
    (recordResults o i ts id).1.map (·.2) = List.range' id (matsFrom o.uid i ts).length ∧
    (recordResults o i ts id).2 = id + (matsFrom o.uid i ts).length := by
  intro ts
  induction ts with
  | nil => intro i id; simp [recordResults, matsFrom]
  | cons t ts ih =>
    intro i id
    rw [recordResults, matsFrom]
    by_cases h : t.isMat
    · obtain ⟨h1, h2, h3⟩ := ih (i + 1) (id + 1)
      simp only [h, if_true]
      refine ⟨by simp [h1], ?_, by simp [h3]; omega⟩
      simp [List.range'_succ, h2]
    · simp only [h]
      exact ih (i + 1) id

theorem handled_iff (k : Kind) : k.handled = true ↔ k = .ctrl ∨ k = .plain := by cases k <;> simp [Kind.handled]
theorem entered_iff (k : Kind) : k.entered = true ↔ ¬ (k = .ctrl ∨ k = .udf) := by cases k <;> simp [Kind.entered]

/-- All matrices in the order of the walk. -/
def mats (p : Ops) : List (Val × Ty) := (ofMain p).flatMap matrices

theorem mats_cons (o : Op) (body rest : Ops) : mats (.cons o body rest) =
    (if o.kind.handled then matsFrom o.uid 0 o.res else []) ++ ((if o.kind.entered then mats body else []) ++ mats rest) := by
  unfold mats
  rw [ofMain, List.flatMap_append, List.flatMap_append, List.append_assoc]
  congr 1
  · by_cases h : o.kind.handled
    · rw [if_pos h, if_pos ((handled_iff _).mp h)]; simp [matrices_eq]
    · rw [if_neg h, if_neg (fun h' => h ((handled_iff _).mpr h'))]; rfl
  · congr 1
    by_cases h : o.kind.entered
    · rw [if_pos h, if_neg ((entered_iff _).mp h)]
    · rw [if_neg h, if_pos (by rw [entered_iff] at h; exact not_not.mp h)]; rfl

theorem recordWalk_eq : ∀ (p : Ops) (id : Nat),
    (recordWalk p id).1.map (·.1) = (mats p).map (·.1) ∧
    (recordWalk p id).1.map (·.2) = List.range' id (mats p).length ∧
    (recordWalk p id).2 = id + (mats p).length := by
  intro p
  induction p with
  | nil => intro id; simp [recordWalk, mats, ofMain]
  | cons o body rest ihb ihr =>
    intro id
    rw [mats_cons]
    simp only [recordWalk]
    generalize hA : (if o.kind.handled then matsFrom o.uid 0 o.res else []) = A
    generalize hB : (if o.kind.entered then mats body else []) = B
    generalize ha : (if o.kind.handled then recordResults o 0 o.res id else ([], id)) = a
    have qa : a.1.map (·.1) = A.map (·.1) ∧ a.1.map (·.2) = List.range' id A.length ∧ a.2 = id + A.length := by
      subst hA; subst ha
      by_cases h : o.kind.handled
      · rw [if_pos h, if_pos h]; exact recordResults_eq o o.res 0 id
      · rw [if_neg h, if_neg h]; simp
    generalize hb : (if o.kind.entered then recordWalk body a.2 else ([], a.2)) = b
    have qb : b.1.map (·.1) = B.map (·.1) ∧ b.1.map (·.2) = List.range' a.2 B.length ∧ b.2 = a.2 + B.length := by
      subst hB; subst hb
      by_cases h : o.kind.entered
      · rw [if_pos h, if_pos h]; exact ihb a.2
      · rw [if_neg h, if_neg h]; simp
    obtain ⟨r1, r2, r3⟩ := ihr b.2
    obtain ⟨a1, a2, a3⟩ := qa
    obtain ⟨b1, b2, b3⟩ := qb
    refine ⟨?_, ?_, ?_⟩
    · simp only [List.map_append, a1, b1, r1, List.append_assoc]
    · simp only [List.map_append, a2, b2, r2, List.length_append]
      rw [b3, a3, List.append_assoc, List.range'_append_1, List.range'_append_1]
    · rw [r3, b3, a3]; simp only [List.length_append]; omega

/-! ### Sorting -/

theorem sorted_unique {l m : List Entry} (h : l.Perm m) (hl : l.Pairwise fun a b => a.1 ≤ b.1) (hm : m.Pairwise fun a b => a.1 < b.1) : l = m := by
  refine h.eq_of_pairwise (le := fun a b => a.1 ≤ b.1) ?_ hl (hm.imp fun h => Nat.le_of_lt h)
  intro a b ha hb h1 h2
  have ha' : a ∈ m := h.mem_iff.mp ha
  obtain ⟨i, hi, rfl⟩ := List.getElem_of_mem ha'
  obtain ⟨j, hj, rfl⟩ := List.getElem_of_mem hb
  rw [List.pairwise_iff_getElem] at hm
  rcases Nat.lt_trichotomy i j with h | h | h
  · have := hm i j hi hj h; omega
  · subst h; rfl
  · have := hm j i hj hi h; omega

theorem sortEntries_perm (f : List Entry) : (sortEntries f).Perm f := List.mergeSort_perm f _

theorem sortEntries_sorted (f : List Entry) : (sortEntries f).Pairwise fun a b => a.1 ≤ b.1 := by
  have := List.pairwise_mergeSort (le := fun (a b : Entry) => decide (a.1 ≤ b.1)) (fun a b c h1 h2 => by simp at *; omega) (fun a b => by simp; omega) f
  exact this.imp fun h => by simpa using h

theorem sortEntries_eq {f m : List Entry} (h : f.Perm m) (hm : m.Pairwise fun a b => a.1 < b.1) : sortEntries f = m :=
  sorted_unique ((sortEntries_perm f).trans h) (sortEntries_sorted f) hm

/-! ### Inserting -/

theorem drop_cons {α : Type} {l ts : List α} {t : α} {i : Nat} (h : l.drop i = t :: ts) : l[i]? = some t ∧ l.drop (i + 1) = ts := by
  constructor
  · have := List.getElem?_drop (xs := l) (i := i) (j := 0)
    rw [h] at this
    simpa using this.symm
  · rw [← List.drop_drop, h]; rfl

theorem withSp_eq (s : ℚ) (t : Ty) : t.withSparsity s = withSp s t := by cases t <;> rfl

/-- The cast that carries the sparsity of the result `q`. -/
def recordedCast (s : Val → ℚ) (q : Val × Ty) : Op := ⟨0, .behind, [q], [withSp (s q.1) q.2]⟩

theorem insertResults_full (s : Val → ℚ) (o : Op) : ∀ (ts : List Ty) (i : Nat) (E l' : List Entry), o.res.drop i = ts →
    E.map (·.2) = (matsFrom o.uid i ts).map (fun q => some (Json.num (s q.1))) →
    (insertResults o i ts (E ++ l')).1.map (castBehind o) = (if o.kind = .ctrl then (matsFrom o.uid i ts).map (recordedCast s) else []) ∧
    (insertResults o i ts (E ++ l')).2.2 = l' := by
  intro ts
  induction ts with
  | nil =>
    intro i E l' _ hE
    have : E = [] := by simpa [matsFrom] using hE
    subst this
    simp [insertResults, matsFrom]
  | cons t ts ih =>
    intro i E l' hd hE
    obtain ⟨ht, hd'⟩ := drop_cons hd
    have hg : o.res.getD i (.other 0) = t := by rw [List.getD_eq_getElem?_getD, ht]; rfl
    rw [matsFrom] at hE ⊢
    by_cases h : t.isMat
    · simp only [h, if_true, List.map_cons] at hE ⊢
      cases E with
      | nil => simp at hE
      | cons e E =>
        simp only [List.map_cons, List.cons.injEq] at hE
        obtain ⟨he, hE⟩ := hE
        obtain ⟨h1, h2⟩ := ih (i + 1) E l' hd' hE
        rw [List.cons_append, insertResults]
        simp only [he, h, if_true]
        by_cases hc : o.kind = .ctrl
        · simp only [hc, if_true, List.map_cons] at h1 ⊢
          refine ⟨?_, h2⟩
          rw [h1]
          congr 1
          unfold castBehind recordedCast
          simp only [hg, withSp_eq]
        · simp only [hc, if_false] at h1 ⊢
          exact ⟨h1, h2⟩
    · simp only [h] at hE ⊢
      have ih := ih (i + 1) E l' hd' hE
      cases hl : E ++ l' with
      | nil =>
        rw [insertResults]
        have h3 : E = [] ∧ l' = [] := List.append_eq_nil_iff.mp hl
        rw [h3.1] at hE
        have hm : matsFrom o.uid (i + 1) ts = [] := by simpa using hE.symm
        rw [h3.2]
        simp [hm]
      | cons e l =>
        rw [hl] at ih
        rw [insertResults]
        split
        · simp only [h]; exact ih
        · exact ih

/-- The casts behind operations, in the order of the text. -/
def casts (p : Ops) : List Op := (allOps p).filter fun o => o.kind = .behind

theorem casts_cons (o : Op) (b r : Ops) : casts (.cons o b r) = (if o.kind = .behind then [o] else []) ++ (casts b ++ casts r) := by
  unfold casts
  rw [allOps, List.filter_cons, List.filter_append]
  by_cases h : o.kind = .behind <;> simp [h]

theorem casts_putBehind (o : Op) : ∀ (l : List (Nat × Ty)) (r : Ops), casts (putBehind o l r) = (l.map (castBehind o)).reverse ++ casts r := by
  intro l
  induction l with
  | nil => intro r; rfl
  | cons q l ih =>
    intro r
    rw [putBehind, ih, casts_cons]
    have : (castBehind o q).kind = .behind := rfl
    rw [if_pos this]
    simp [casts, allOps]

theorem casts_putFront : ∀ (l : List Op) (r : Ops), (∀ o ∈ l, o.kind = .front) → casts (putFront l r) = casts r := by
  intro l
  induction l with
  | nil => intro r _; rfl
  | cons o l ih =>
    intro r h
    rw [putFront, casts_cons, ih r (fun o ho => h o (List.mem_cons_of_mem _ ho)), h o (by simp)]
    simp [casts, allOps]

theorem castsBefore_front (tr : List (Val × Ty)) (o : Op) (as : List (Val × Ty)) : ∀ c ∈ castsBefore tr o as, c.kind = .front := by
  intro c hc
  unfold castsBefore at hc
  rw [List.mem_dedup, List.mem_filterMap] at hc
  obtain ⟨a, _, ha⟩ := hc
  split at ha
  · rw [Option.map_eq_some_iff] at ha
    obtain ⟨t, _, rfl⟩ := ha
    rfl
  · cases ha

theorem casts_redirectAll (tr : List (Val × Ty)) (sel : Nat → Nat → Bool) : ∀ p : Ops, casts (redirectAll tr sel p) = casts p := by
  intro p
  induction p with
  | nil => rfl
  | cons o b r ihb ihr =>
    simp only [redirectAll]
    rw [casts_putFront _ _ (by
      intro c hc
      split at hc
      · exact castsBefore_front _ _ _ c hc
      · cases hc), casts_cons, casts_cons, ihb, ihr]
    by_cases h : o.kind = .ctrl
    · simp [h]
    · simp [h]

theorem source_cons {o : Op} {b r : Ops} (h : Source (.cons o b r)) : o.kind ≠ .behind ∧ Source b ∧ Source r := by
  refine ⟨(h o (by simp [allOps])).1, fun q hq => h q ?_, fun q hq => h q ?_⟩ <;> simp [allOps, hq]

theorem casts_source {p : Ops} (h : Source p) : casts p = [] := by
  unfold casts
  rw [List.filter_eq_nil_iff]
  intro o ho
  simpa using (h o ho).1

theorem insertWalk_full (s : Val → ℚ) : ∀ (p : Ops) (E l' : List Entry), Source p →
    E.map (·.2) = (mats p).map (fun q => some (Json.num (s q.1))) →
    casts (insertWalk p (E ++ l')).1 = ((ofMain p).filter fun o => o.kind = .ctrl).flatMap (fun o => ((matrices o).map (recordedCast s)).reverse) ∧
    (insertWalk p (E ++ l')).2.2 = l' := by
  intro p
  induction p with
  | nil =>
    intro E l' _ hE
    have : E = [] := by simpa [mats, ofMain] using hE
    subst this
    simp [insertWalk, casts, allOps, ofMain]
  | cons o body rest ihb ihr =>
    intro E l' hs hE
    obtain ⟨hk, hsb, hsr⟩ := source_cons hs
    rw [mats_cons, List.map_append, List.map_append] at hE
    obtain ⟨EA, E1, rfl, hA, hE1⟩ := List.map_eq_append_iff.mp hE
    obtain ⟨EB, EC, rfl, hB, hC⟩ := List.map_eq_append_iff.mp hE1
    simp only [insertWalk]
    rw [List.append_assoc, List.append_assoc]
    generalize ha : (if o.kind.handled then insertResults o 0 o.res (EA ++ (EB ++ (EC ++ l'))) else ([], [], EA ++ (EB ++ (EC ++ l')))) = a
    have qa : a.1.map (castBehind o) = (if o.kind = .ctrl then (matrices o).map (recordedCast s) else []) ∧ a.2.2 = EB ++ (EC ++ l') := by
      subst ha
      by_cases h : o.kind.handled
      · rw [if_pos h] at hA ⊢
        rw [matrices_eq]
        exact insertResults_full s o o.res 0 EA _ rfl hA
      · rw [if_neg h] at hA ⊢
        have : EA = [] := by simpa using hA
        subst this
        have : o.kind ≠ .ctrl := fun e => h (by rw [e]; rfl)
        simp [this]
    obtain ⟨a1, a2⟩ := qa
    rw [a2]
    generalize hb : (if o.kind.entered then insertWalk body (EB ++ (EC ++ l')) else (body, [], EB ++ (EC ++ l'))) = b
    have qb : casts b.1 = (if o.kind.entered then ((ofMain body).filter fun o => o.kind = .ctrl).flatMap (fun o => ((matrices o).map (recordedCast s)).reverse) else []) ∧
        b.2.2 = EC ++ l' := by
      subst hb
      by_cases h : o.kind.entered
      · rw [if_pos h] at hB ⊢
        rw [if_pos h]
        exact ihb EB _ hsb hB
      · rw [if_neg h] at hB ⊢
        have : EB = [] := by simpa using hB
        subst this
        rw [if_neg h]
        exact ⟨casts_source hsb, by simp⟩
    obtain ⟨b1, b2⟩ := qb
    rw [b2]
    obtain ⟨c1, c2⟩ := ihr EC l' hsr hC
    refine ⟨?_, c2⟩
    rw [casts_cons, if_neg hk, casts_putBehind, a1, b1, c1, ofMain]
    simp only [List.nil_append, List.filter_append, List.flatMap_append]
    rcases hkk : o.kind <;> simp [Kind.entered, hkk]

/-- **C327.** The matrix-typed results of `main` (outside of loops and branches) get the identifiers 1, 2, 3, ... in the order of the text, each exactly one; and if the recorded properties
are inserted into the same program, the entry that is consulted for a result is the one that was recorded for it, in whatever order the file has them: behind each loop or branch there is
exactly one cast per matrix-typed result, with exactly the sparsity `s` recorded for that result, and there are no others. -/
theorem C327_recorded_properties_find_their_values (p : Ops) (hp : Source p) :
    (record p).map (·.1) = ((ofMain p).flatMap matrices).map (·.1) ∧
    (record p).map (·.2) = List.range' 1 ((ofMain p).flatMap matrices).length ∧
    ∀ (s : Val → ℚ) (f : List Entry) (sel : Nat → Nat → Bool), f.Perm ((record p).map fun e => (e.2, some (.num (s e.1)))) →
      ((allOps (insertPass sel p f)).filter fun o => o.kind = .behind) =
        ((ofMain p).filter fun o => o.kind = .ctrl).flatMap fun o =>
          ((matrices o).map fun q => (⟨0, .behind, [q], [withSp (s q.1) q.2]⟩ : Op)).reverse := by
  obtain ⟨h1, h2, -⟩ := recordWalk_eq p 1
  refine ⟨h1, h2, fun s f sel hf => ?_⟩
  have hsort : sortEntries f = (record p).map fun e => (e.2, some (.num (s e.1))) := by
    refine sortEntries_eq hf ?_
    have : ((record p).map (·.2)).Pairwise (· < ·) := by
      rw [show (record p).map (·.2) = _ from h2]
      exact List.pairwise_lt_range'
    rw [List.pairwise_map] at this ⊢
    exact this
  have hfull := insertWalk_full s p ((record p).map fun e => (e.2, some (.num (s e.1)))) [] hp (by
    rw [List.map_map]
    have : (record p).map ((fun x : Entry => x.2) ∘ fun e => (e.2, some (Json.num (s e.1)))) = ((record p).map (·.1)).map fun v => some (Json.num (s v)) := by
      rw [List.map_map]; rfl
    rw [this, show (record p).map (·.1) = _ from h1, List.map_map]
    rfl)
  rw [List.append_nil] at hfull
  have hc := casts_redirectAll (insertWalk p (sortEntries f)).2.1 sel (insertWalk p (sortEntries f)).1
  rw [hsort] at hc
  show casts (insertPass sel p f) = _
  unfold insertPass
  rw [hsort, hc, hfull.1]
  rfl

end Verif.DataProp
