/-
  Queries without grouping, with and without DISTINCT.
-/
import Verif.Sql.Plain
import Mathlib.Data.List.Basic

namespace Verif.Sql
open Verif Verif.Rel Verif.Ir
variable {V : Type} [Inhabited V] [DecidableEq V]

theorem evalOK_of_from {views : String → Option (Tab V)} {rs : List Ref} {S : Scope V} {st : St V} (h : FromOK views rs S st) : EvalOK views rs S [] id st := by
  obtain ⟨st0, h1, h2⟩ := h.rest
  unfold SameRest at h1
  refine ⟨h.names, by simpa using h.frame, fun _ _ _ _ => rfl, ?_, .inl ?_⟩ <;> rw [h2, h1] <;> rfl

theorem EvalOK.withFrame {views : String → Option (Tab V)} {rs : List Ref} {S T : Scope V} {st : St V} (h : EvalOK views rs S [] id st) :
    EvalOK views rs T [] id { st with frame := ⟨T.sc.map lab, T.rows⟩ } :=
  ⟨⟨h.names.view, h.names.has, h.names.pfx, h.names.rev, h.names.aliases⟩, by simp, fun _ _ _ _ => rfl, h.codegen, h.allowed⟩

/-- No expression of the query uses the spelling `!=` (C241). -/
def Query.NoBang (q : Query V) : Prop :=
  q.item.e.NoBang ∧ (∀ it ∈ q.items, it.e.NoBang) ∧ (∀ e ∈ q.where_, e.NoBang) ∧ ∀ g ∈ q.groupBy, ∀ e ∈ g.having, e.NoBang

/-- The state of the visitor at the end of a plain query. -/
theorem plain_core {views : String → Option (Tab V)} (sem : Sem V) (q : Query V) (hn : NamesOK q.tables)
    (hv : ∀ r ∈ q.tables, ∀ t, views r.var = some t → TabOK t) (hg : q.groupBy = none) (hb : q.NoBang) {T : Tab V}
    (h : Spec.plain sem views q = some T) (hT : T.labels.Nodup) :
    ∃ st : St V, run sem views q = visitDistinct sem { st with frame := T } q.distinct ∧ st.group = false ∧ st.columnName = [] := by
  simp only [Spec.plain, Option.bind_eq_bind, Option.bind_eq_some_iff] at h
  obtain ⟨S, hS, S', hS', ks, hks, hsel⟩ := h
  simp only [Spec.select, Option.bind_eq_bind, Option.bind_eq_some_iff, Option.some.injEq] at hsel
  obtain ⟨cols, hcols, rfl⟩ := hsel
  rw [List.mapM_cons] at hcols
  simp only [Option.bind_eq_bind, Option.pure_def, Option.bind_eq_some_iff, Option.some.injEq] at hcols
  obtain ⟨c, hc, cols, hcols, rfl⟩ := hcols
  obtain ⟨f, st, hf, hj, hfrom⟩ := from_ok sem q hn hv hS
  have hflags : st.group = false ∧ st.agg = false ∧ st.columnName = [] := by
    obtain ⟨st0, h1, h2⟩ := hfrom.rest
    unfold SameRest at h1
    rw [h2, h1]
    exact ⟨rfl, rfl, rfl⟩
  have hev := evalOK_of_from hfrom
  obtain ⟨hw, hsc, hok⟩ := where_ok hev hn hfrom.scope sem q.where_ hb.2.2.1 hS'
  have hev' := hev.withFrame (T := S')
  have ho := order_ok hev' hn hok sem q.orderBy ks hks
  have hok2 : ScopeOK q.tables ⟨S'.sc, sortBy (rowBefore sem.lt ks) S'.rows⟩ :=
    ⟨hok.mem, hok.nodup, fun row hrow => hok.rows row ((sortBy_mem _ _ _).1 hrow)⟩
  have hev2 := hev.withFrame (T := ⟨S'.sc, sortBy (rowBefore sem.lt ks) S'.rows⟩)
  have hi := item_ok hev2 hn hok2 hflags.1 hflags.2.1 sem q.item hb.1 hc
  have his := items_ok hev2 hn hok2 hflags.1 hflags.2.1 sem q.items hb.2.1 cols hcols c.1 c.2 (by simpa using hT)
  unfold run
  simp only [hf, hj, hw, ho, hg, visitGroupBy, Res.ok_bind, hi, his, List.flatMap_cons]
  exact ⟨st, rfl, hflags.1, hflags.2.2⟩

/-! ### DISTINCT -/

theorem range_cell (row : List V) : (List.range row.length).map (fun i => cell i row) = row := by
  apply List.ext_getElem (by simp)
  intro i h1 h2
  simp [cell, List.getD_eq_getElem?_getD, List.getElem?_eq_getElem h2]

theorem idxOf?_getElem {l : List String} (hn : l.Nodup) {i : Nat} (hi : i < l.length) : l.idxOf? l[i] = some i := by
  induction l generalizing i with
  | nil => simp at hi
  | cons a l ih =>
    rw [List.idxOf?_cons]
    cases i with
    | zero => simp
    | succ i =>
      have hi' : i < l.length := by simpa using hi
      have : a ≠ l[i] := fun h => (List.nodup_cons.1 hn).1 (h ▸ List.getElem_mem hi')
      simp [this, ih (List.nodup_cons.1 hn).2 hi']

theorem mapM_idx (t : Tab V) (hn : t.labels.Nodup) : t.labels.mapM t.idx = .ok (List.range t.labels.length) := by
  have h : ∀ (l : List String) (k : Nat), t.labels.drop k = l → k ≤ t.labels.length → l.mapM t.idx = .ok ((List.range l.length).map (· + k)) := by
    intro l
    induction l with
    | nil => intro k _ _; rfl
    | cons a l ih =>
      intro k hk hle
      have hlt : k < t.labels.length := by
        by_contra hh
        rw [List.drop_eq_nil_of_le (by omega)] at hk
        cases hk
      rw [List.drop_eq_getElem_cons hlt] at hk
      injection hk with h1 h2
      rw [List.mapM_cons]
      have h3 : t.idx a = .ok k := by
        unfold Tab.idx
        rw [← h1, idxOf?_getElem hn hlt]
      rw [h3, Res.ok_bind, ih (k + 1) h2 hlt, Res.ok_bind, List.length_cons, List.range_succ_eq_map]
      simp [List.map_map, Function.comp_def, pure, Except.pure]
      omega
  simpa using h t.labels 0 rfl (by omega)

theorem effKeys_star {ls : List String} (h : ls ≠ []) : effKeys ls [] ["*"] = ls := by
  unfold effKeys starOf
  simp [h]

theorem group_star (sem : Sem V) (t : Tab V) (hn : t.labels.Nodup) (hne : t.labels ≠ []) (hrows : ∀ row ∈ t.rows, row.length = t.labels.length) :
    t.group sem ["*"] [] = .ok ⟨t.labels, sortBy (fun a b => lexBefore sem.lt (a.map fun v => (v, true)) b) t.rows.eraseDups⟩ := by
  unfold Tab.group
  simp only [List.map_nil, effKeys_star hne, mapM_idx t hn, Res.ok_bind, List.mapM_nil, pure, Except.pure, List.append_nil, Tab.checked, hn, if_true]
  congr 2
  have hid : ∀ row ∈ t.rows, ((List.range t.labels.length).map fun k => cell k row) = row := by
    intro row hrow
    rw [← hrows row hrow]
    exact range_cell row
  have h1 : t.rows.map (fun row => (List.range t.labels.length).map fun k => cell k row) = t.rows := by
    conv_rhs => rw [← List.map_id t.rows]
    exact List.map_congr_left hid
  unfold groupsOf
  simp only [h1, List.map_map, Function.comp_def]
  conv_rhs => rw [← List.map_id (sortBy _ _)]
  apply List.map_congr_left
  intro k hk
  rw [sortBy_mem, List.mem_eraseDups] at hk
  have h2 : (t.rows.filter fun r => decide (((List.range t.labels.length).map fun k => cell k r) = k)) = t.rows.filter fun r => decide (r = k) := by
    apply List.filter_congr
    intro r hr
    rw [hid r hr]
  rw [h2]
  have h3 : k ∈ t.rows.filter fun r => decide (r = k) := by simp [hk]
  cases hl : t.rows.filter fun r => decide (r = k) with
  | nil => rw [hl] at h3; cases h3
  | cons r l =>
    have hr : r ∈ t.rows.filter fun r => decide (r = k) := by rw [hl]; simp
    have hr' : r = k := by simpa using (List.mem_filter.1 hr).2
    simp only [List.headD_cons, id]
    rw [hr', hid k hk]

theorem insertBy_perm {α : Type} (p : α → α → Bool) (a : α) (l : List α) : (insertBy p a l).Perm (a :: l) := by
  induction l with
  | nil => exact .refl _
  | cons b l ih =>
    simp only [insertBy]
    split
    · exact (List.Perm.cons b ih).trans (.swap a b l)
    · exact .refl _

theorem sortBy_perm {α : Type} (p : α → α → Bool) (l : List α) : (sortBy p l).Perm l := by
  induction l with
  | nil => exact .refl _
  | cons a l ih => exact (insertBy_perm p a _).trans (ih.cons a)

/-- Rows of a plain query have one value per label. -/
theorem plain_rows {views : String → Option (Tab V)} (sem : Sem V) (q : Query V) (hn : NamesOK q.tables)
    (hv : ∀ r ∈ q.tables, ∀ t, views r.var = some t → TabOK t) (hb : q.NoBang) {T : Tab V}
    (h : Spec.plain sem views q = some T) : ∀ row ∈ T.rows, row.length = T.labels.length := by
  simp only [Spec.plain, Option.bind_eq_bind, Option.bind_eq_some_iff] at h
  obtain ⟨S, hS, S', hS', ks, hks, hsel⟩ := h
  simp only [Spec.select, Option.bind_eq_bind, Option.bind_eq_some_iff, Option.some.injEq] at hsel
  obtain ⟨cols, hcols, rfl⟩ := hsel
  obtain ⟨f, st, hf, hj, hfrom⟩ := from_ok sem q hn hv hS
  obtain ⟨-, hsc, hok⟩ := where_ok (evalOK_of_from hfrom) hn hfrom.scope sem q.where_ hb.2.2.1 hS'
  intro row hrow
  obtain ⟨r, hr, rfl⟩ := List.mem_map.1 hrow
  have hlen := hok.rows r ((sortBy_mem _ _ _).1 hr)
  show (cols.flatMap fun c => c.2 r).length = (cols.flatMap (·.1)).length
  clear hrow hb
  generalize q.item :: q.items = its at hcols
  induction its generalizing cols with
  | nil => cases hcols; rfl
  | cons it its ih =>
    rw [List.mapM_cons] at hcols
    simp only [Option.bind_eq_bind, Option.pure_def, Option.bind_eq_some_iff, Option.some.injEq] at hcols
    obtain ⟨c, hc, cols, hcols, rfl⟩ := hcols
    rw [List.flatMap_cons, List.flatMap_cons, List.length_append, List.length_append, ih cols hcols]
    congr 1
    unfold Spec.item at hc
    split at hc
    · cases hc; simpa using hlen
    · split at hc
      · rename_i f _ _
        cases hc
        simp only [List.length_map]
        have : ∀ l : List (String × String), ((List.range l.length).filter fun i => decide ((l.map (·.1))[i]? = some f)).length = (l.filter fun c => decide (c.1 = f)).length := by
          intro l
          induction l with
          | nil => rfl
          | cons c l ih =>
            rw [List.length_cons, List.range_succ_eq_map, List.filter_cons, List.filter_map, List.filter_cons]
            simp only [List.map_cons, List.getElem?_cons_zero, Option.some.injEq, Function.comp_def, List.getElem?_cons_succ]
            by_cases h : c.1 = f <;> simp [h, ih]
        exact this _
      · cases hc
    · obtain ⟨v, _, rfl⟩ := Option.map_eq_some_iff.1 hc
      rfl

end Verif.Sql
