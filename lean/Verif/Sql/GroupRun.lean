/-
  Queries with GROUP BY, and aggregations of whole tables.
-/
import Verif.Sql.Fetch

namespace Verif.Sql
open Verif Verif.Rel Verif.Ir
variable {V : Type} [Inhabited V] [DecidableEq V]

theorem collectItems_ok {views : String → Option (Tab V)} {rs : List Ref} {S : Scope V} {keys : List Ident} {knames : List String} (hn : NamesOK rs)
    (hS : ScopeOK rs S) (hg : ∀ c ∈ S.sc, GroupName c.1) (sem : Sem V) : ∀ (its : List (Item V)), (∀ it ∈ its, it.e.NoBang ∧ it.e.Lexical ∧ ∃ f, Spec.groupValue sem S.sc keys it.e = some f) →
    ∀ {as : List (AggC V)} {st : St V}, Coll views rs S keys knames as st →
    ∃ bs st', (its.flatMap fun it => it.e.aggs).mapM (resolve sem S.sc) = some bs ∧ collectItems sem st its = .ok st' ∧ Coll views rs S keys knames (as ++ bs) st' := by
  intro its
  induction its with
  | nil => intro _ as st hst; exact ⟨[], st, rfl, rfl, by simpa using hst⟩
  | cons it its ih =>
    intro h as st hst
    obtain ⟨hb, hl, f, hf⟩ := h it (by simp)
    obtain ⟨b, hbs⟩ := resolve_some sem S.sc keys it.e hf
    obtain ⟨st1, h1, h2⟩ := collect_ok hn hS hg sem it.e hb hl hf hst hbs
    obtain ⟨bs, st2, h3, h4, h5⟩ := ih (fun x hx => h x (by simp [hx])) h2
    refine ⟨b ++ bs, st2, ?_, ?_, by simpa using h5⟩
    · rw [List.flatMap_cons]
      exact mapM_append_some hbs h3
    · simp only [collectItems, h1, Res.ok_bind, h4]

/-- The aggregations of the HAVING clause. -/
def havingAggs : Option (SExpr V) → List (String × SExpr V)
  | none => []
  | some e => e.aggs

theorem collectHaving_ok {views : String → Option (Tab V)} {rs : List Ref} {S : Scope V} {keys : List Ident} {knames : List String} (hn : NamesOK rs)
    (hS : ScopeOK rs S) (hg : ∀ c ∈ S.sc, GroupName c.1) (sem : Sem V) (h : Option (SExpr V))
    (hh : ∀ e ∈ h, e.NoBang ∧ e.Lexical ∧ ∃ f, Spec.groupValue sem S.sc keys e = some f) {as : List (AggC V)} {st : St V} (hst : Coll views rs S keys knames as st) :
    ∃ bs st', (havingAggs h).mapM (resolve sem S.sc) = some bs ∧ visitHaving sem st h = .ok st' ∧ Coll views rs S keys knames (as ++ bs) st' := by
  cases h with
  | none => exact ⟨[], st, rfl, rfl, by simpa using hst⟩
  | some e =>
    obtain ⟨hb, hl, f, hf⟩ := hh e rfl
    obtain ⟨b, hbs⟩ := resolve_some sem S.sc keys e hf
    obtain ⟨st1, h1, h2⟩ := collect_ok hn hS hg sem e hb hl hf hst hbs
    exact ⟨b, st1, hbs, by simp [visitHaving, h1, Res.ok_bind, h2.codegen], h2⟩

section
variable {views : String → Option (Tab V)} {rs : List Ref} {S : Scope V} {keys : List Ident} {cs : List (String × String)} {kpos : List Nat} {as : List (AggC V)}

theorem Fet.withGroups {sem : Sem V} {gs gs' : List (List (List V))} {n : Nat} {st : St V} (h : Fet views rs sem keys cs kpos as gs n st) :
    Fet views rs sem keys cs kpos as gs' n { st with frame := ⟨cs.map lab ++ outLabels as, gs'.map (outRow sem kpos as)⟩ } :=
  ⟨⟨h.names.view, h.names.has, h.names.pfx, h.names.rev, h.names.aliases⟩, rfl, h.group, h.codegen, h.agg, h.grouped, h.counterCg⟩

theorem fetchHaving_ok (hc : GroupCtx rs S keys cs kpos as) (sem : Sem V) {gs gs' : List (List (List V))} {st : St V} (hst : Fet views rs sem keys cs kpos as gs 0 st)
    (h : Option (SExpr V)) (hh : ∀ e ∈ h, e.NoBang ∧ e.Lexical) (hv : Spec.having sem S.sc keys gs h = some gs') {bs post : List (AggC V)}
    (hbs : (havingAggs h).mapM (resolve sem S.sc) = some bs) (has : as = bs ++ post) :
    ∃ st', visitHaving sem st h = .ok st' ∧ Fet views rs sem keys cs kpos as gs' bs.length st' := by
  cases h with
  | none => cases hbs; cases hv; exact ⟨st, rfl, hst⟩
  | some e =>
    simp only [Spec.having, Option.bind_eq_bind, Option.bind_eq_some_iff, Option.some.injEq] at hv
    obtain ⟨f, hf, rfl⟩ := hv
    obtain ⟨v, st1, h1, h2, h3⟩ := fetch_ok hc sem e (hh e rfl).1 (hh e rfl).2 hf hst (pre := []) (post := post) hbs (by simpa using has) rfl
    rw [Nat.zero_add] at h2
    have h4 : castCol st1.frame v = .ok (gs.map f) := castCol_repr (by rw [h2.frame]; simp) h3
    have h5 := filterRow_ok sem st1.frame (xs := gs) (g := outRow sem kpos as) (by rw [h2.frame]) f
    refine ⟨_, ?_, h2.withGroups (gs' := gs.filter fun g => sem.truthy (f g))⟩
    simp only [visitHaving, h1, Res.ok_bind, h2.codegen, Bool.true_eq_false, if_false, filterBy, orError, h4, h5]
    rw [h2.frame]

theorem groupOrder_ok (hc : GroupCtx rs S keys cs kpos as) (sem : Sem V) {gs : List (List (List V))} {n : Nat} {st : St V} (hst : Fet views rs sem keys cs kpos as gs n st)
    (os : List (Ident × Bool)) (hk : ∀ o ∈ os, o.1 ∈ keys) {ks : List (Nat × Bool)} (h : Spec.orderCols S.sc os = some ks) :
    ∃ st', visitOrderBy sem st os = .ok st' ∧
      Fet views rs sem keys cs kpos as (sortBy (fun a b => rowBefore sem.lt ks (a.headD []) (b.headD [])) gs) n st' := by
  have hidx : ∀ (os : List (Ident × Bool)) (ks : List (Nat × Bool)), (∀ o ∈ os, o.1 ∈ keys) → Spec.orderCols S.sc os = some ks →
      ∃ js, orderIdxs st os = .ok js ∧ List.Forall₂ (fun (j k : Nat × Bool) => kpos[j.1]? = some k.1 ∧ j.2 = k.2) js ks := by
    intro os
    induction os with
    | nil => intro ks _ h; cases h; exact ⟨[], rfl, .nil⟩
    | cons o os ih =>
      intro ks hk h
      unfold Spec.orderCols at h
      rw [List.mapM_cons] at h
      simp only [Option.bind_eq_bind, Option.pure_def, Option.bind_eq_some_iff, Option.some.injEq, Option.map_eq_some_iff] at h
      obtain ⟨_, ⟨i, hi, rfl⟩, ks', hx, rfl⟩ := h
      obtain ⟨js, h1, h2⟩ := ih ks' (fun x hx => hk x (by simp [hx])) hx
      obtain ⟨c, j, h3, -, -, -, -, -, h4, h5⟩ := hc.key hst (hk o (by simp)) hi
      exact ⟨(j, o.2) :: js, by simp only [orderIdxs, h3, Res.ok_bind, Tab.idx, h4, h1], .cons ⟨h5, rfl⟩ h2⟩
  cases os with
  | nil =>
    cases h
    refine ⟨st, rfl, ?_⟩
    have : (fun a b : List (List V) => rowBefore sem.lt ([] : List (Nat × Bool)).reverse (a.headD []) (b.headD [])) = fun _ _ => false := by funext a b; rfl
    rw [this, sortBy_none]
    exact hst
  | cons o os =>
    obtain ⟨js, h1, h2⟩ := hidx (o :: os) ks hk h
    have hrow : ∀ a b : List (List V), rowBefore sem.lt js (outRow sem kpos as a) (outRow sem kpos as b) = rowBefore sem.lt ks (a.headD []) (b.headD []) := by
      intro a b
      unfold rowBefore
      congr 1
      · clear h1 h hk
        induction h2 with
        | nil => rfl
        | cons h _ ih => rw [List.map_cons, List.map_cons, ih, cell_outRow_key sem as h.1, h.2]
      · clear h1 h hk
        induction h2 with
        | nil => rfl
        | cons h _ ih => rw [List.map_cons, List.map_cons, ih, cell_outRow_key sem as h.1]
    refine ⟨_, ?_, hst.withGroups (gs' := sortBy (fun a b => rowBefore sem.lt ks (a.headD []) (b.headD [])) gs)⟩
    simp only [visitOrderBy, h1, Res.ok_bind, Tab.order, hst.frame]
    rw [sortBy_map (outRow sem kpos as) _ _ hrow]

theorem groupItem_ok (hc : GroupCtx rs S keys cs kpos as) (sem : Sem V) {gs : List (List (List V))} {n : Nat} {st : St V} (hst : Fet views rs sem keys cs kpos as gs n st)
    (it : Item V) (hb : it.e.NoBang ∧ it.e.Lexical) {f} (hf : Spec.groupValue sem S.sc keys it.e = some f) {pre bs post : List (AggC V)}
    (hbs : it.e.aggs.mapM (resolve sem S.sc) = some bs) (has : as = pre ++ bs ++ post) (hpre : pre.length = n) :
    ∃ st', visitItem sem st it = .ok (⟨[it.aka.getD it.e.text], gs.map fun g => [f g]⟩, st') ∧ Fet views rs sem keys cs kpos as gs (n + bs.length) st' := by
  obtain ⟨v, st1, h1, h2, h3⟩ := fetch_ok hc sem it.e hb.1 hb.2 hf hst hbs has hpre
  have h4 : castCol st1.frame v = .ok (gs.map f) := castCol_repr (by rw [h2.frame]; simp) h3
  refine ⟨st1, ?_, h2⟩
  simp only [visitItem, h1, Res.ok_bind, orError]
  cases v with
  | frame t => simp only [castCol] at h4; cases h4
  | sca c => simp only [h4, Res.ok_bind, Tab.ofCol, List.map_map, Function.comp_def]
  | mat vs => simp only [h4, Res.ok_bind, Tab.ofCol, List.map_map, Function.comp_def]

theorem groupItems_ok (hc : GroupCtx rs S keys cs kpos as) (sem : Sem V) {gs : List (List (List V))} : ∀ (its : List (Item V)), (∀ it ∈ its, it.e.NoBang ∧ it.e.Lexical) →
    ∀ {cols : List (String × (List (List V) → V))}, (its.mapM fun it => (Spec.groupValue sem S.sc keys it.e).map fun v => (it.aka.getD it.e.text, v)) = some cols →
    ∀ {n : Nat} {st : St V}, Fet views rs sem keys cs kpos as gs n st → ∀ {pre bs post : List (AggC V)},
    (its.flatMap fun it => it.e.aggs).mapM (resolve sem S.sc) = some bs → as = pre ++ bs ++ post → pre.length = n →
    ∀ {ls : List String} {g : List (List V) → List V}, (ls ++ cols.map (·.1)).Nodup →
    ∃ st', visitItems sem st ⟨ls, gs.map g⟩ its = .ok (⟨ls ++ cols.map (·.1), gs.map fun x => g x ++ cols.map fun c => c.2 x⟩, st') ∧ st'.group = true := by
  intro its
  induction its with
  | nil =>
    intro _ cols h n st hst pre bs post _ _ _ ls g _
    cases h
    exact ⟨st, by simp [visitItems], hst.group⟩
  | cons it its ih =>
    intro hb cols h n st hst pre bs post hbs has hpre ls g hnd
    rw [List.mapM_cons] at h
    simp only [Option.bind_eq_bind, Option.pure_def, Option.bind_eq_some_iff, Option.some.injEq, Option.map_eq_some_iff] at h
    obtain ⟨_, ⟨f, hf, rfl⟩, cols', hcols, rfl⟩ := h
    rw [List.flatMap_cons, List.mapM_append] at hbs
    simp only [Option.bind_eq_bind, Option.pure_def, Option.bind_eq_some_iff, Option.some.injEq] at hbs
    obtain ⟨b1, hb1, b2, hb2, rfl⟩ := hbs
    obtain ⟨st1, h1, h2⟩ := groupItem_ok hc sem hst it (hb it (by simp)) hf (pre := pre) (post := b2 ++ post) hb1 (by simpa using has) hpre
    rw [List.map_cons, List.append_cons] at hnd
    obtain ⟨st2, h3, h4⟩ := ih (fun x hx => hb x (by simp [hx])) hcols h2 (pre := pre ++ b1) (post := post) hb2 (by simpa using has) (by simp [hpre])
      (ls := ls ++ [it.aka.getD it.e.text]) (g := fun x => g x ++ [f x]) hnd
    refine ⟨st2, ?_, h4⟩
    simp only [visitItems, h1, Res.ok_bind, bind_ok (List.nodup_append.1 hnd).1, h3]
    simp [List.append_assoc]
end

/-- The names of the tables cannot be mistaken for names of aggregated columns. -/
def Query.GroupNames (q : Query V) : Prop := ∀ r ∈ q.tables, GroupName r.corr

/-- Spelling of identifiers and literals of items and HAVING clause. -/
def Query.Lexical (q : Query V) : Prop :=
  q.item.e.Lexical ∧ (∀ it ∈ q.items, it.e.Lexical) ∧ ∀ g ∈ q.groupBy, ∀ e ∈ g.having, e.Lexical

theorem grouped_run {views : String → Option (Tab V)} (sem : Sem V) (q : Query V) (g : GroupBy V) (hn : NamesOK q.tables) (hgn : q.GroupNames)
    (hv : ∀ r ∈ q.tables, ∀ t, views r.var = some t → TabOK t) (hg : q.groupBy = some g) (hkeys : (g.key :: g.keys).Nodup) (hb : q.NoBang) (hl : q.Lexical)
    (hdist : q.distinct = false) {T : Tab V} (h : Spec.grouped sem views q g = some T) (hT : T.labels.Nodup) : run sem views q = .ok T := by
  simp only [Spec.grouped, Option.bind_eq_bind, Option.bind_eq_some_iff] at h
  obtain ⟨S, hS, S', hS', kpos, hkpos, gs, hgs, h⟩ := h
  split at h
  case isFalse => cases h
  rename_i hord
  simp only [Option.bind_eq_some_iff, Option.some.injEq] at h
  obtain ⟨ks, hks, cols, hcols, rfl⟩ := h
  obtain ⟨f, st, hf, hj, hfrom⟩ := from_ok sem q hn hv hS
  have hrest : st.agg = false ∧ st.columnName = [] ∧ st.functionName = [] ∧ st.groupName = [] ∧ st.counter = 0 ∧ st.counterCg = 0 := by
    obtain ⟨st0, h1, h2⟩ := hfrom.rest
    unfold SameRest at h1
    rw [h2, h1]
    exact ⟨rfl, rfl, rfl, rfl, rfl, rfl⟩
  have hev := evalOK_of_from hfrom
  obtain ⟨hw, hsc, hok⟩ := where_ok hev hn hfrom.scope sem q.where_ hb.2.2.1 hS'
  have hgS : ∀ c ∈ S'.sc, GroupName c.1 := by
    intro c hc
    obtain ⟨r, hr, h⟩ := hok.mem c hc
    rw [h]
    exact hgn r hr
  -- the keys
  let st0 : St V := { st with frame := ⟨S'.sc.map lab, S'.rows⟩, group := true, codegen := false }
  have hnames0 : Names views q.tables st0 := ⟨hfrom.names.view, hfrom.names.has, hfrom.names.pfx, hfrom.names.rev, hfrom.names.aliases⟩
  obtain ⟨cs, hcs1, hcs2, hcs3⟩ := keys_ok hnames0 hn hok (g.key :: g.keys) kpos hkpos
  obtain ⟨st1, hck, hst1, hgr, -⟩ := collectKeys_ok hnames0 (hcs1.imp fun _ _ h => h.1)
  have hcoll : Coll views q.tables S' (g.key :: g.keys) (cs.map lab) [] st1 := by
    refine ⟨?_, ?_, ?_, ?_, ?_, hgr, ?_, ?_, ?_, ?_, ?_⟩ <;> rw [hst1]
    · exact ⟨hfrom.names.view, hfrom.names.has, hfrom.names.pfx, hfrom.names.rev, hfrom.names.aliases⟩
    · simp only [aggCols, List.append_nil, st0, Tab.mk.injEq, true_and]
      conv_lhs => rw [← List.map_id S'.rows]
      exact List.map_congr_left fun row _ => by simp [extRow]
    · exact hrest.1
    · simp [st0, hrest.2.2.2.1]
    · exact hrest.2.1
    · exact hrest.2.2.1
    · exact hrest.2.2.2.2.1
    · exact hrest.2.2.2.2.2
  -- the aggregations
  have hhav : ∀ e ∈ g.having, e.NoBang ∧ e.Lexical ∧ ∃ f, Spec.groupValue sem S'.sc (g.key :: g.keys) e = some f := by
    intro e he
    refine ⟨hb.2.2.2 g hg e he, hl.2.2 g hg e he, ?_⟩
    rw [Option.mem_def] at he
    rw [he] at hgs
    simp only [Spec.having, Option.bind_eq_bind, Option.bind_eq_some_iff] at hgs
    obtain ⟨f, hf, _⟩ := hgs
    exact ⟨f, hf⟩
  have hitems : ∀ it ∈ q.item :: q.items, it.e.NoBang ∧ it.e.Lexical ∧ ∃ f, Spec.groupValue sem S'.sc (g.key :: g.keys) it.e = some f := by
    have hsome : ∀ (its : List (Item V)) cols, (its.mapM fun it => (Spec.groupValue sem S'.sc (g.key :: g.keys) it.e).map fun v => (it.aka.getD it.e.text, v)) = some cols →
        ∀ it ∈ its, ∃ f, Spec.groupValue sem S'.sc (g.key :: g.keys) it.e = some f := by
      intro its
      induction its with
      | nil => intro _ _ it hit; cases hit
      | cons i its ih =>
        intro cols h it hit
        rw [List.mapM_cons] at h
        simp only [Option.bind_eq_bind, Option.pure_def, Option.bind_eq_some_iff, Option.some.injEq, Option.map_eq_some_iff] at h
        obtain ⟨_, ⟨f, hf, -⟩, cols', hcols, -⟩ := h
        rcases List.mem_cons.1 hit with rfl | hit
        · exact ⟨f, hf⟩
        · exact ih cols' hcols it hit
    intro it hit
    refine ⟨?_, ?_, hsome _ _ hcols it hit⟩
    · rcases List.mem_cons.1 hit with rfl | hit
      · exact hb.1
      · exact hb.2.1 it hit
    · rcases List.mem_cons.1 hit with rfl | hit
      · exact hl.1
      · exact hl.2.1 it hit
  obtain ⟨b1, st2, hb1, hh1, hcoll2⟩ := collectHaving_ok hn hok hgS sem g.having hhav hcoll
  obtain ⟨b2, st3, hb2, hh2, hcoll3⟩ := collectItems_ok hn hok hgS sem (q.item :: q.items) hitems hcoll2
  rw [List.nil_append] at hcoll2 hcoll3
  -- grouping
  have hidn : List.Forall₂ (fun i c => i.frame = some c.1 ∧ c.2 = i.col) (g.key :: g.keys) cs := hcs1.imp fun _ _ h => ⟨h.2.2.1, h.2.2.2.1⟩
  have hmem : ∀ c ∈ cs, c ∈ S'.sc ∧ c.2 ≠ "*" := by
    intro c hc
    have key : ∀ {l : List Ident} {m : List (String × String)}, List.Forall₂ (fun i c => visitIdent st0 i = .ok (lab c) ∧ i.text = lab c ∧ i.frame = some c.1 ∧ c.2 = i.col ∧ c ∈ S'.sc ∧ c.2 ≠ "*") l m →
        ∀ c ∈ m, c ∈ S'.sc ∧ c.2 ≠ "*" := by
      intro l m hlm
      induction hlm with
      | nil => intro c hc; cases hc
      | cons h _ ih =>
        intro c hc
        rcases List.mem_cons.1 hc with rfl | hc
        · exact ⟨h.2.2.2.2.1, h.2.2.2.2.2⟩
        · exact ih c hc
    exact key hcs1 c hc
  have hcsn : cs.Nodup := by
    have key : ∀ {l : List Ident} {m : List (String × String)}, List.Forall₂ (fun i c => i.frame = some c.1 ∧ c.2 = i.col) l m → l.Nodup → m.Nodup := by
      intro l m hlm
      induction hlm with
      | nil => intro _; exact List.nodup_nil
      | @cons i c l m h1 h2 ih =>
        intro hnd
        refine List.nodup_cons.2 ⟨?_, ih (List.nodup_cons.1 hnd).2⟩
        intro hc
        apply (List.nodup_cons.1 hnd).1
        clear ih hnd
        induction h2 with
        | nil => cases hc
        | @cons j d l m h3 h4 ih2 =>
          rcases List.mem_cons.1 hc with rfl | hc
          · have : i = j := by
              cases i; cases j
              simp only [Ident.mk.injEq]
              exact ⟨h1.1.trans h3.1.symm, h1.2.symm.trans h3.2⟩
            simp [this]
          · exact List.mem_cons_of_mem _ (ih2 hc)
    exact key hidn hkeys
  have hgroup := group_ok hn hok hgS sem (b1 ++ b2) hmem hcsn hcs2
  have hlab : (cs.map lab ++ outLabels (b1 ++ b2)).Nodup := by
    refine List.nodup_append.2 ⟨nodup_lab (fun c hc => hok.noDots hn c (hmem c hc).1) hcsn, outLabels_nodup _, ?_⟩
    rintro l hl _ hl' rfl
    obtain ⟨c, hc, rfl⟩ := List.mem_map.1 hl
    obtain ⟨a, _, h⟩ := List.mem_map.1 hl'
    exact lab_ne_aggLabel (hgS c (hmem c hc).1) a h.symm
  have hctx : GroupCtx q.tables S' (g.key :: g.keys) cs kpos (b1 ++ b2) :=
    ⟨hn, hok, hlab, fun c hc => (hmem c hc).1, hcs2.length_eq, hidn, hcs3⟩
  have hfet : Fet views q.tables sem (g.key :: g.keys) cs kpos (b1 ++ b2) (groupsOf sem.lt kpos S'.rows) 0
      { st3 with codegen := true, frame := ⟨cs.map lab ++ outLabels (b1 ++ b2), (groupsOf sem.lt kpos S'.rows).map (outRow sem kpos (b1 ++ b2))⟩ } :=
    ⟨⟨hcoll3.names.view, hcoll3.names.has, hcoll3.names.pfx, hcoll3.names.rev, hcoll3.names.aliases⟩, rfl, hcoll3.group, rfl, hcoll3.agg, hcoll3.grouped, hcoll3.counterCg⟩
  obtain ⟨st4, hh3, hfet4⟩ := fetchHaving_ok hctx sem hfet g.having (fun e he => ⟨(hhav e he).1, (hhav e he).2.1⟩) hgs (post := b2) hb1 rfl
  obtain ⟨st5, ho, hfet5⟩ := groupOrder_ok hctx sem hfet4 q.orderBy hord hks
  rw [List.mapM_cons] at hcols
  simp only [Option.bind_eq_bind, Option.pure_def, Option.bind_eq_some_iff, Option.some.injEq, Option.map_eq_some_iff] at hcols
  obtain ⟨_, ⟨f0, hf0, rfl⟩, cols, hcols, rfl⟩ := hcols
  rw [List.flatMap_cons, List.mapM_append] at hb2
  simp only [Option.bind_eq_bind, Option.pure_def, Option.bind_eq_some_iff, Option.some.injEq] at hb2
  obtain ⟨c1, hc1, c2, hc2, rfl⟩ := hb2
  obtain ⟨st6, hi, hfet6⟩ := groupItem_ok hctx sem hfet5 q.item ⟨hb.1, hl.1⟩ hf0 (pre := b1) (post := c2) hc1 (by simp) rfl
  obtain ⟨st7, his, hg7⟩ := groupItems_ok hctx sem q.items (fun it hit => ⟨hb.2.1 it hit, hl.2.1 it hit⟩) hcols hfet6 (pre := b1 ++ c1) (post := []) hc2 (by simp) (by simp)
    (ls := [q.item.aka.getD q.item.e.text]) (g := fun x => [f0 x]) (by simpa using hT)
  have hvg : visitGroupBy sem { st with frame := ⟨S'.sc.map lab, S'.rows⟩ } (q.item :: q.items) (some g) = .ok st4 := by
    simp only [visitGroupBy]
    rw [show collectKeys _ (g.key :: g.keys) = Except.ok st1 from hck, Res.ok_bind, hh1, Res.ok_bind, hh2, Res.ok_bind]
    rw [show st3.frame.group sem st3.groupName (st3.columnName.zip st3.functionName) = _ from by
      rw [hcoll3.frame, hcoll3.groupName, hcoll3.columnName, hcoll3.functionName, hgroup], Res.ok_bind, hh3]
  unfold run
  simp only [hf, hj, hw, hg, hvg, ho, hi, his, Res.ok_bind, hdist, visitDistinct, if_true]
  simp

end Verif.Sql
