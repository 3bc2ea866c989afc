/-
  The FROM clause with joins: the current frame of the visitor is the scope of the specification.
-/
import Verif.Sql.Names

namespace Verif.Sql
open Verif Verif.Rel Verif.Ir
variable {V : Type}

/-- The tables have distinct column names, and their rows have a value for each column. -/
def TabOK (t : Tab V) : Prop := (t.labels.map unq).Nodup ∧ ∀ row ∈ t.rows, row.length = t.labels.length

/-- The scope of the tables `rs`. -/
structure ScopeOK (rs : List Ref) (S : Scope V) : Prop where
  mem : ∀ c ∈ S.sc, ∃ r ∈ rs, c.1 = r.corr
  nodup : S.sc.Nodup
  rows : ∀ row ∈ S.rows, row.length = S.sc.length

theorem ScopeOK.noDots {rs : List Ref} {S : Scope V} (h : ScopeOK rs S) (hn : NamesOK rs) : NoDots S.sc := by
  intro c hc
  obtain ⟨r, hr, h⟩ := h.mem c hc
  rw [h]
  exact (hn.names r hr).2

theorem NamesOK.left {a b : List Ref} (h : NamesOK (a ++ b)) : NamesOK a :=
  ⟨fun r hr => h.names r (by simp [hr]), (List.pairwise_append.1 h.ok).1⟩

theorem NamesOK.right {a b : List Ref} (h : NamesOK (a ++ b)) : NamesOK b :=
  ⟨fun r hr => h.names r (by simp [hr]), (List.pairwise_append.1 h.ok).2.1⟩

theorem disjoint_scopes {a b : List Ref} (h : NamesOK (a ++ b)) {S T : Scope V} (hS : ScopeOK a S) (hT : ScopeOK b T) : (S.sc ++ T.sc).Nodup := by
  rw [List.nodup_append]
  refine ⟨hS.nodup, hT.nodup, ?_⟩
  rintro c hc d hd rfl
  obtain ⟨r, hr, h1⟩ := hS.mem c hc
  obtain ⟨s, hs, h2⟩ := hT.mem c hd
  exact ((List.pairwise_append.1 h.ok).2.2 r hr s hs).1 (h1.symm.trans h2)

section
variable [Inhabited V] [DecidableEq V]

theorem table_scope {views : String → Option (Tab V)} {r : Ref} {S : Scope V} (h : Spec.table views r = some S)
    (hv : ∀ t, views r.var = some t → TabOK t) :
    ∃ t, views r.var = some t ∧ TabOK t ∧ S = ⟨t.labels.map fun l => (r.corr, unq l), t.rows⟩ ∧ ScopeOK [r] S := by
  unfold Spec.table at h
  obtain ⟨t, ht, rfl⟩ := Option.map_eq_some_iff.1 h
  refine ⟨t, ht, hv t ht, rfl, ⟨?_, ?_, ?_⟩⟩
  · intro c hc
    obtain ⟨l, _, rfl⟩ := List.mem_map.1 hc
    exact ⟨r, by simp, rfl⟩
  · have h2 : (t.labels.map fun l => (r.corr, unq l)) = (t.labels.map unq).map fun c => (r.corr, c) := by rw [List.map_map]; rfl
    show (t.labels.map fun l => (r.corr, unq l)).Nodup
    rw [h2]
    exact (hv t ht).1.map fun a b h => by simpa using h
  · intro row hrow
    simpa using (hv t ht).2 row hrow

theorem ref_ok {views : String → Option (Tab V)} {done : List Ref} {st : St V} (hst : Names views done st) {r : Ref} (hn : NamesOK (done ++ [r]))
    {S : Scope V} (h : Spec.table views r = some S) (hv : ∀ t, views r.var = some t → TabOK t) :
    ∃ st', visitRef st r = .ok (⟨S.sc.map lab, S.rows⟩, st') ∧ Names views (done ++ [r]) st' ∧ SameRest st st' ∧ ScopeOK [r] S := by
  obtain ⟨t, ht, hok, rfl, hS⟩ := table_scope h hv
  obtain ⟨st', h1, h2, h3⟩ := visitRef_ok hst (r := r) (fun s hs => (List.pairwise_append.1 hn.ok).2.2 s hs r (by simp)) ht
    (hn.names r (by simp)).2 hok.1
  refine ⟨st', ?_, h2, h3, hS⟩
  rw [h1]
  simp only [List.map_map, Function.comp_def]

theorem cross_ok {views : String → Option (Tab V)} : ∀ {rs : List Ref} {r : Ref} {done : List Ref} {st : St V} (_ : Names views done st)
    (_ : NamesOK (done ++ r :: rs)) (_ : ∀ s ∈ r :: rs, ∀ t, views s.var = some t → TabOK t) {S : Scope V} (_ : Spec.cross views r rs = some S),
    ∃ st', visitFrom st r rs = .ok (⟨S.sc.map lab, S.rows⟩, st') ∧ Names views (done ++ r :: rs) st' ∧ SameRest st st' ∧ ScopeOK (r :: rs) S
  | [], r, done, st, hst, hn, hv, S, h => ref_ok hst hn h (hv r (by simp))
  | r' :: rs, r, done, st, hst, hn, hv, S, h => by
    simp only [Spec.cross, Option.bind_eq_bind, Option.bind_eq_some_iff, Option.some.injEq] at h
    obtain ⟨A, hA, B, hB, rfl⟩ := h
    have hn' : NamesOK ((done ++ [r]) ++ r' :: rs) := by simpa using hn
    obtain ⟨st1, h1, h2, h3, h4⟩ := ref_ok hst hn'.left hA (hv r (by simp))
    obtain ⟨st2, h5, h6, h7, h8⟩ := cross_ok h2 hn' (fun s hs => hv s (by simp [hs])) hB
    have hnd := disjoint_scopes (a := [r]) (b := r' :: rs) (hn.right) h4 h8
    refine ⟨st2, ?_, by simpa using h6, h3.trans h7, ⟨?_, hnd, ?_⟩⟩
    · simp only [visitFrom, h1, h5, Res.ok_bind]
      have hnd' : (A.sc.map lab ++ B.sc.map lab).Nodup := by
        rw [← List.map_append]
        refine nodup_lab ?_ hnd
        intro c hc
        rcases List.mem_append.1 hc with hc | hc
        · exact h4.noDots (hn.right (a := done)).left c hc
        · exact h8.noDots hn'.right c hc
      simp only [Tab.cartesian, Tab.checked, hnd', if_true, Res.ok_bind, List.map_append]
    · intro c hc
      rcases List.mem_append.1 hc with hc | hc
      · obtain ⟨s, hs, h⟩ := h4.mem c hc
        exact ⟨s, by simp [List.mem_singleton.1 hs], h⟩
      · obtain ⟨s, hs, h⟩ := h8.mem c hc
        exact ⟨s, by simp [List.mem_cons.1 hs], h⟩
    · intro row hrow
      simp only [List.mem_flatMap, List.mem_map] at hrow
      obtain ⟨x, hx, y, hy, rfl⟩ := hrow
      simp [h4.rows x hx, h8.rows y hy]

/-- Labels of columns found by `pos`. -/
theorem pos_ident {views : String → Option (Tab V)} {done rs : List Ref} {st : St V} (hst : Names views done st) (hn : NamesOK done) {S : Scope V}
    (hS : ScopeOK rs S) (hrs : ∀ r ∈ rs, r ∈ done) {i : Ident} {k : Nat} (h : Spec.pos S.sc i = some k) :
    ∃ c ∈ S.sc, visitIdent st i = .ok (lab c) ∧ c.2 = i.col ∧ c.2 ≠ "*" ∧ i.frame = some c.1 ∧ i.text = lab c ∧ '.' ∉ c.1.toList ∧ c.1 ≠ "" ∧
      (S.sc.map lab).idxOf? (lab c) = some k ∧ k < S.sc.length := by
  obtain ⟨f, hf, hc, hi, hm, hk⟩ := pos_some h
  obtain ⟨r, hr, hfr⟩ := hS.mem _ hm
  simp only at hfr
  subst hfr
  have hd := hn.names r (hrs r hr)
  refine ⟨(r.corr, i.col), hm, visitIdent_ok hst (hrs r hr) hf, rfl, hc, hf, by simp [Ident.text, hf, lab], hd.2, hd.1, ?_, hk⟩
  rw [idxOf?_lab _ hd.2, hi]
  intro c hc
  obtain ⟨s, hs, h⟩ := hS.mem c hc
  rw [h]
  exact (hn.names s (hrs s hs)).2

theorem joinConds_ok {views : String → Option (Tab V)} {done rs : List Ref} {r : Ref} {st : St V} (hst : Names views (done ++ [r]) st)
    (hn : NamesOK (done ++ [r])) {A B : Scope V} (hA : ScopeOK done A) (hB : ScopeOK [r] B) (sem : Sem V) :
    ∀ {cs : List JCond} {fs : List (List V → List V → Bool)}, cs.mapM (Spec.cond sem A.sc B.sc) = some fs →
    ∃ ds, joinConds st cs (condOps cs) = .ok ds ∧ ∃ es, (ds.mapM fun c => do
        let i ← Tab.idx ⟨A.sc.map lab, A.rows⟩ c.1
        let j ← Tab.idx ⟨B.sc.map lab, B.rows⟩ c.2.2
        (.ok (i, c.2.1, j) : Res (Nat × CmpOp × Nat))) = .ok es ∧
      ∀ x y, (es.all fun c => sem.cmp c.2.1 (cell c.1 x) (cell c.2.2 y)) = fs.all fun c => c x y := by
  intro cs
  induction cs with
  | nil => intro fs h; cases h; exact ⟨[], rfl, [], rfl, fun _ _ => rfl⟩
  | cons c cs ih =>
    intro fs h
    rw [List.mapM_cons] at h
    simp only [Option.bind_eq_bind, Option.pure_def, Option.bind_eq_some_iff, Option.some.injEq] at h
    obtain ⟨f, hf, fs', hfs, rfl⟩ := h
    simp only [Spec.cond, Option.bind_eq_bind, Option.bind_eq_some_iff, Option.some.injEq] at hf
    obtain ⟨i, hi, op, hop, j, hj, rfl⟩ := hf
    obtain ⟨ds, h1, es, h2, h3⟩ := ih hfs
    obtain ⟨ci, -, hci, -, -, -, -, -, -, hci', -⟩ := pos_ident hst hn hA (fun s hs => by simp [hs]) hi
    obtain ⟨cj, -, hcj, -, -, -, -, -, -, hcj', -⟩ := pos_ident hst hn hB (fun s hs => by simp [List.mem_singleton.1 hs]) hj
    have hops : condOps (c :: cs) = op :: condOps cs := by simp [condOps, hop]
    refine ⟨(lab ci, op, lab cj) :: ds, ?_, (i, op, j) :: es, ?_, ?_⟩
    · simp only [joinConds, hci, hcj, Res.ok_bind, hops, h1]
    · rw [List.mapM_cons]
      simp only [Tab.idx, hci', hcj', Res.ok_bind] at h2 ⊢
      rw [h2]
      rfl
    · intro x y
      rw [List.all_cons, List.all_cons, h3 x y]

/-- What is known of the state of the visitor after the FROM clause. -/
structure FromOK (views : String → Option (Tab V)) (rs : List Ref) (S : Scope V) (st : St V) : Prop where
  names : Names views rs st
  frame : st.frame = ⟨S.sc.map lab, S.rows⟩
  scope : ScopeOK rs S
  rest : ∃ st0, SameRest { St.init views with codegen := true } st0 ∧ st = { st0 with frame := st.frame }

theorem joinOp_eq (sem : Sem V) (a b : Tab V) (ds : List (String × CmpOp × String)) : joinOp sem a b ds = a.thetaJoin sem b ds := by
  unfold joinOp
  split <;> rfl

theorem join_ok {views : String → Option (Tab V)} {done : List Ref} {A S : Scope V} {st : St V} (hst : FromOK views done A st) {j : Join}
    (hn : NamesOK (done ++ [j.ref])) (hv : ∀ t, views j.ref.var = some t → TabOK t) (sem : Sem V) (h : Spec.join sem views A j = some S) :
    ∃ st', visitJoin sem st j = .ok st' ∧ FromOK views (done ++ [j.ref]) S st' := by
  simp only [Spec.join, Option.bind_eq_bind, Option.bind_eq_some_iff, Option.some.injEq] at h
  obtain ⟨B, hB, fs, hfs, rfl⟩ := h
  obtain ⟨st1, h1, h2, h3, h4⟩ := ref_ok hst.names hn hB hv
  obtain ⟨ds, h5, es, h6, h7⟩ := joinConds_ok (rs := done) h2 hn hst.scope h4 sem hfs
  have hnd := disjoint_scopes hn hst.scope h4
  have hdots : NoDots (A.sc ++ B.sc) := by
    intro c hc
    rcases List.mem_append.1 hc with hc | hc
    · exact hst.scope.noDots hn.left c hc
    · exact h4.noDots hn.right c hc
  unfold visitJoin
  rw [h1, Res.ok_bind]
  simp only
  rw [h5, Res.ok_bind, joinOp_eq, hst.frame]
  unfold Tab.thetaJoin
  simp only
  rw [h6, Res.ok_bind]
  have hnd' : (A.sc.map lab ++ B.sc.map lab).Nodup := by
    rw [← List.map_append]
    exact nodup_lab hdots hnd
  simp only [Tab.checked, hnd', if_true, Res.ok_bind]
  refine ⟨_, rfl, ⟨⟨h2.view, h2.has, h2.pfx, h2.rev, h2.aliases⟩, ?_, ⟨?_, hnd, ?_⟩, ?_⟩⟩
  · simp only [List.map_append, Tab.mk.injEq, true_and]
    apply List.flatMap_congr
    intro x _
    congr 1
    apply List.filter_congr
    intro y _
    exact h7 x y
  · intro c hc
    rcases List.mem_append.1 hc with hc | hc
    · obtain ⟨s, hs, h⟩ := hst.scope.mem c hc
      exact ⟨s, by simp [hs], h⟩
    · obtain ⟨s, hs, h⟩ := h4.mem c hc
      exact ⟨s, by simp [List.mem_singleton.1 hs], h⟩
  · intro row hrow
    simp only [List.mem_flatMap, List.mem_map, List.mem_filter] at hrow
    obtain ⟨x, hx, y, ⟨hy, _⟩, rfl⟩ := hrow
    simp [hst.scope.rows x hx, h4.rows y hy]
  · obtain ⟨st0, hr, he⟩ := hst.rest
    refine ⟨{ st1 with frame := st0.frame }, ?_, rfl⟩
    unfold SameRest at *
    rw [h3, he, hr]

theorem joins_ok {views : String → Option (Tab V)} (sem : Sem V) : ∀ {js : List Join} {done : List Ref} {A S : Scope V} {st : St V}
    (_ : FromOK views done A st) (_ : NamesOK (done ++ js.map (·.ref))) (_ : ∀ j ∈ js, ∀ t, views j.ref.var = some t → TabOK t)
    (_ : js.foldlM (Spec.join sem views) A = some S),
    ∃ st', js.foldlM (visitJoin sem) st = .ok st' ∧ FromOK views (done ++ js.map (·.ref)) S st'
  | [], done, A, S, st, hst, _, _, h => by cases h; exact ⟨st, rfl, by simpa using hst⟩
  | j :: js, done, A, S, st, hst, hn, hv, h => by
    rw [List.foldlM_cons, Option.bind_eq_bind, Option.bind_eq_some_iff] at h
    obtain ⟨B, hB, h⟩ := h
    have hn' : NamesOK ((done ++ [j.ref]) ++ js.map (·.ref)) := by simpa using hn
    obtain ⟨st1, h1, h2⟩ := join_ok hst hn'.left (hv j (by simp)) sem hB
    obtain ⟨st2, h3, h4⟩ := joins_ok sem h2 hn' (fun k hk => hv k (by simp [hk])) h
    refine ⟨st2, ?_, by simpa using h4⟩
    rw [List.foldlM_cons, h1]
    exact h3

/-- All tables of a query. -/
def Query.tables (q : Query V) : List Ref := q.ref :: q.refs ++ q.joins.map (·.ref)

theorem from_ok {views : String → Option (Tab V)} (sem : Sem V) (q : Query V) (hn : NamesOK q.tables)
    (hv : ∀ r ∈ q.tables, ∀ t, views r.var = some t → TabOK t) {S : Scope V} (h : Spec.from_ sem views q = some S) :
    ∃ f st, visitFrom { St.init views with codegen := true } q.ref q.refs = .ok f ∧
      q.joins.foldlM (visitJoin sem) { f.2 with frame := f.1 } = .ok st ∧ FromOK views q.tables S st := by
  simp only [Spec.from_, Option.bind_eq_bind, Option.bind_eq_some_iff] at h
  obtain ⟨A, hA, h⟩ := h
  obtain ⟨st1, h1, h2, h3, h4⟩ := cross_ok (names_init views) (by simpa using hn.left)
    (fun s hs => hv s (by unfold Query.tables; exact List.mem_append_left _ hs)) hA
  rw [List.nil_append] at h2
  have h5 : FromOK views (q.ref :: q.refs) A { st1 with frame := ⟨A.sc.map lab, A.rows⟩ } :=
    ⟨⟨h2.view, h2.has, h2.pfx, h2.rev, h2.aliases⟩, rfl, h4, st1, h3, rfl⟩
  obtain ⟨st2, h6, h7⟩ := joins_ok sem h5 hn (fun j hj => hv _ (by simp only [Query.tables, List.mem_append, List.mem_map]; exact .inr ⟨j, hj, rfl⟩)) h
  exact ⟨_, st2, h1, h6, h7⟩

end
end Verif.Sql
