/-
  Aggregations of all rows (no GROUP BY).
-/
import Verif.Sql.GroupRun

namespace Verif.Sql
open Verif Verif.Rel Verif.Ir
variable {V : Type}

/-- Aggregations are over columns, not over literals, and both sides of AND and OR contain an aggregation (C241). -/
def SExpr.Whole : SExpr V → Prop
  | .lit _ _ | .star | .ident _ => True
  | .paren e => e.Whole
  | .agg _ e => e.isCol = true
  | .bin _ l r => l.Whole ∧ r.Whole
  | .between _ _ x l r => x.Whole ∧ l.Whole ∧ r.Whole
  | .and _ l r | .or _ l r => (l.Whole ∧ l.isCol = true) ∧ r.Whole ∧ r.isCol = true

/-- The items are aggregations of this kind. -/
def Query.Whole (q : Query V) : Prop := ∀ it ∈ q.item :: q.items, it.e.Whole ∧ it.e.isCol = true

variable [Inhabited V] [DecidableEq V]

/-- The state while the items are visited. -/
structure WholeSt (views : String → Option (Tab V)) (rs : List Ref) (S : Scope V) (st : St V) : Prop where
  eval : EvalOK views rs S [] id st
  group : st.group = false
  columnName : st.columnName = []

theorem bool_mat {α : Type} {xs : List α} {v w : Val V} {f g : α → V} (sem : Sem V) (op : BinOp) (t : Tab V)
    (hv : Repr xs true v f) (hw : Repr xs true w g) :
    ∃ u, boolCode sem op t v w = .ok u ∧ Repr xs true u fun x => sem.bin op (f x) (g x) := by
  simp only [Repr, if_true] at hv hw
  subst hv hw
  unfold boolCode castCol
  rw [Res.ok_bind, Res.ok_bind]
  exact ew_repr sem op (m := true) (n := true) rfl rfl

theorem whole_ok {views : String → Option (Tab V)} {rs : List Ref} {S : Scope V} (hn : NamesOK rs) (hS : ScopeOK rs S) (sem : Sem V) :
    ∀ (e : SExpr V) {f}, e.NoBang → e.Lexical → e.Whole → Spec.groupValue sem S.sc [] e = some f → ∀ {st : St V}, WholeSt views rs S st →
    ∃ v st', visit sem e st = .ok (some v, st') ∧ WholeSt views rs S st' ∧ Repr [S.rows] e.isCol v f := by
  intro e
  induction e with
  | lit v t =>
    intro f _ _ _ h st hst
    cases h
    exact ⟨.sca v, st, by simp [visit, hst.eval.codegen], hst, ⟨v, rfl, rfl⟩⟩
  | star => intro f _ _ _ h; cases h
  | ident i => intro f _ _ _ h; simp [Spec.groupValue] at h
  | paren e ih =>
    intro f hb hl hw h st hst
    obtain ⟨v, st', h1, h2, h3⟩ := ih hb hl hw h hst
    exact ⟨v, st', by simp [visit, h1, Res.ok_bind, h2.eval.codegen], h2, h3⟩
  | agg g e ih =>
    intro f hb hl hw h st hst
    simp only [Spec.groupValue, Option.bind_eq_bind, Option.bind_eq_some_iff, Option.some.injEq] at h
    obtain ⟨f1, hf1, v, hv, rfl⟩ := h
    have hlast := (text_last sem S.sc e hl hv).2
    have hge : getGroupEnum g = .ok f1 := by simp [getGroupEnum, hf1]
    have hst1 : WholeSt views rs S { st with counter := st.counter + 1, ground := setInsert e.text st.ground } :=
      ⟨⟨⟨hst.eval.names.view, hst.eval.names.has, hst.eval.names.pfx, hst.eval.names.rev, hst.eval.names.aliases⟩, hst.eval.frame, hst.eval.ext, hst.eval.codegen,
        hst.eval.allowed⟩, hst.group, hst.columnName⟩
    obtain ⟨w, h1, h2⟩ := value_ok hst1.eval hn hS sem e v hb hv
    have hw' : e.isCol = true := hw
    rw [hw'] at h2
    simp only [Repr, if_true] at h2
    subst h2
    refine ⟨.mat [sem.aggOf f1 (S.rows.map v)], _, ?_, hst1, rfl⟩
    simp only [visit]
    rw [if_neg hlast, if_pos ⟨hst.group, hst.eval.codegen⟩, h1, Res.ok_bind]
    simp only [orError, Res.ok_bind, wholeAgg, needMat, hge]
  | bin s l r ihl ihr =>
    intro f hb hl hw h st hst
    simp only [Spec.groupValue, Option.bind_eq_bind, Option.bind_eq_some_iff, Option.some.injEq] at h
    obtain ⟨f1, hf1, f2, hf2, rfl⟩ := h
    obtain ⟨v, st1, h1, h2, r1⟩ := ihl hb.2.1 hl.1 hw.1 hf1 hst
    obtain ⟨w, st2, h3, h4, r2⟩ := ihr hb.2.2 hl.2 hw.2 hf2 h2
    obtain ⟨u, h5, h6⟩ := ew_repr sem s.op r1 r2
    exact ⟨u, st2, by simp [visit, h1, h3, Res.ok_bind, binCode, h4.eval.codegen, orError, symOp_ok hb.1, h5], h4, h6⟩
  | between k k' x l r ihx ihl ihr =>
    intro f hb hl hw h st hst
    simp only [Spec.groupValue, Option.bind_eq_bind, Option.bind_eq_some_iff, Option.some.injEq] at h
    obtain ⟨f0, hf0, f1, hf1, f2, hf2, rfl⟩ := h
    obtain ⟨o, st0, h7, h8, r0⟩ := ihx hb.1 hl.1 hw.1 hf0 hst
    obtain ⟨v, st1, h1, h2, r1⟩ := ihl hb.2.1 hl.2.1 hw.2.1 hf1 h8
    obtain ⟨w, st2, h3, h4, r2⟩ := ihr hb.2.2 hl.2.2 hw.2.2 hf2 h2
    obtain ⟨u, h5, h6⟩ := between_repr sem r0 r1 r2
    exact ⟨u, st2, by simp [visit, h7, h1, h3, Res.ok_bind, betweenOpt, h4.eval.codegen, orError, h5], h4, h6⟩
  | and k l r ihl ihr =>
    intro f hb hl hw h st hst
    simp only [Spec.groupValue, Option.bind_eq_bind, Option.bind_eq_some_iff, Option.some.injEq] at h
    obtain ⟨f1, hf1, f2, hf2, rfl⟩ := h
    obtain ⟨v, st1, h1, h2, r1⟩ := ihl hb.1 hl.1 hw.1.1 hf1 hst
    obtain ⟨w, st2, h3, h4, r2⟩ := ihr hb.2 hl.2 hw.2.1 hf2 h2
    rw [hw.1.2] at r1
    rw [hw.2.2] at r2
    obtain ⟨u, h5, h6⟩ := bool_mat sem .and st2.frame r1 r2
    exact ⟨u, st2, by simp [visit, h1, h3, Res.ok_bind, binCode, h4.eval.codegen, orError, h5], h4, h6⟩
  | or k l r ihl ihr =>
    intro f hb hl hw h st hst
    simp only [Spec.groupValue, Option.bind_eq_bind, Option.bind_eq_some_iff, Option.some.injEq] at h
    obtain ⟨f1, hf1, f2, hf2, rfl⟩ := h
    obtain ⟨v, st1, h1, h2, r1⟩ := ihl hb.1 hl.1 hw.1.1 hf1 hst
    obtain ⟨w, st2, h3, h4, r2⟩ := ihr hb.2 hl.2 hw.2.1 hf2 h2
    rw [hw.1.2] at r1
    rw [hw.2.2] at r2
    obtain ⟨u, h5, h6⟩ := bool_mat sem .or st2.frame r1 r2
    exact ⟨u, st2, by simp [visit, h1, h3, Res.ok_bind, binCode, h4.eval.codegen, orError, h5], h4, h6⟩

theorem wholeItem_ok {views : String → Option (Tab V)} {rs : List Ref} {S : Scope V} (hn : NamesOK rs) (hS : ScopeOK rs S) (sem : Sem V) {st : St V} (hst : WholeSt views rs S st)
    (it : Item V) (hb : it.e.NoBang ∧ it.e.Lexical ∧ it.e.Whole ∧ it.e.isCol = true) {f} (hf : Spec.groupValue sem S.sc [] it.e = some f) :
    ∃ st', visitItem sem st it = .ok (⟨[it.aka.getD it.e.text], [S.rows].map fun g => [f g]⟩, st') ∧ WholeSt views rs S st' := by
  obtain ⟨v, st1, h1, h2, h3⟩ := whole_ok hn hS sem it.e hb.1 hb.2.1 hb.2.2.1 hf hst
  rw [hb.2.2.2] at h3
  simp only [Repr, if_true] at h3
  subst h3
  exact ⟨st1, by simp [visitItem, h1, Res.ok_bind, orError, castCol, Tab.ofCol], h2⟩

theorem wholeItems_ok {views : String → Option (Tab V)} {rs : List Ref} {S : Scope V} (hn : NamesOK rs) (hS : ScopeOK rs S) (sem : Sem V) :
    ∀ (its : List (Item V)), (∀ it ∈ its, it.e.NoBang ∧ it.e.Lexical ∧ it.e.Whole ∧ it.e.isCol = true) →
    ∀ {cols : List (String × (List (List V) → V))}, (its.mapM fun it => (Spec.groupValue sem S.sc [] it.e).map fun v => (it.aka.getD it.e.text, v)) = some cols →
    ∀ {st : St V}, WholeSt views rs S st → ∀ {ls : List String} {g : List (List V) → List V}, (ls ++ cols.map (·.1)).Nodup →
    ∃ st', visitItems sem st ⟨ls, [S.rows].map g⟩ its = .ok (⟨ls ++ cols.map (·.1), [S.rows].map fun x => g x ++ cols.map fun c => c.2 x⟩, st') := by
  intro its
  induction its with
  | nil =>
    intro _ cols h st hst ls g _
    cases h
    exact ⟨st, by simp [visitItems]⟩
  | cons it its ih =>
    intro hb cols h st hst ls g hnd
    rw [List.mapM_cons] at h
    simp only [Option.bind_eq_bind, Option.pure_def, Option.bind_eq_some_iff, Option.some.injEq, Option.map_eq_some_iff] at h
    obtain ⟨_, ⟨f, hf, rfl⟩, cols', hcols, rfl⟩ := h
    obtain ⟨st1, h1, h2⟩ := wholeItem_ok hn hS sem hst it (hb it (by simp)) hf
    rw [List.map_cons, List.append_cons] at hnd
    obtain ⟨st2, h3⟩ := ih (fun x hx => hb x (by simp [hx])) hcols h2 (ls := ls ++ [it.aka.getD it.e.text]) (g := fun x => g x ++ [f x]) hnd
    refine ⟨st2, ?_⟩
    simp only [visitItems, h1, Res.ok_bind, bind_ok (List.nodup_append.1 hnd).1, h3]
    simp [List.append_assoc]

theorem whole_run {views : String → Option (Tab V)} (sem : Sem V) (q : Query V) (hn : NamesOK q.tables)
    (hv : ∀ r ∈ q.tables, ∀ t, views r.var = some t → TabOK t) (hg : q.groupBy = none) (hord : q.orderBy = []) (hb : q.NoBang) (hl : q.Lexical) (hw : q.Whole)
    (hdist : q.distinct = false) {T : Tab V} (h : Spec.aggregated sem views q = some T) (hT : T.labels.Nodup) : run sem views q = .ok T := by
  simp only [Spec.aggregated, Option.bind_eq_bind, Option.bind_eq_some_iff, Option.some.injEq] at h
  obtain ⟨S, hS, S', hS', cols, hcols, rfl⟩ := h
  rw [List.mapM_cons] at hcols
  simp only [Option.bind_eq_bind, Option.pure_def, Option.bind_eq_some_iff, Option.some.injEq, Option.map_eq_some_iff] at hcols
  obtain ⟨_, ⟨f0, hf0, rfl⟩, cols, hcols, rfl⟩ := hcols
  obtain ⟨f, st, hf, hj, hfrom⟩ := from_ok sem q hn hv hS
  have hflags : st.group = false ∧ st.columnName = [] := by
    obtain ⟨st0, h1, h2⟩ := hfrom.rest
    unfold SameRest at h1
    rw [h2, h1]
    exact ⟨rfl, rfl⟩
  have hev := evalOK_of_from hfrom
  obtain ⟨hwh, hsc, hok⟩ := where_ok hev hn hfrom.scope sem q.where_ hb.2.2.1 hS'
  have hst : WholeSt views q.tables S' { st with frame := ⟨S'.sc.map lab, S'.rows⟩ } := ⟨hev.withFrame (T := S'), hflags.1, hflags.2⟩
  obtain ⟨st1, hi, hst1⟩ := wholeItem_ok hn hok sem hst q.item ⟨hb.1, hl.1, hw _ (by simp)⟩ hf0
  obtain ⟨st2, his⟩ := wholeItems_ok hn hok sem q.items (fun it hit => ⟨hb.2.1 it hit, hl.2.1 it hit, hw it (by simp [hit])⟩) hcols hst1
    (ls := [q.item.aka.getD q.item.e.text]) (g := fun x => [f0 x]) (by simpa using hT)
  unfold run
  simp only [hf, hj, hwh, hg, hord, visitGroupBy, visitOrderBy, hi, his, Res.ok_bind, hdist, visitDistinct, if_true]
  simp

end Verif.Sql
