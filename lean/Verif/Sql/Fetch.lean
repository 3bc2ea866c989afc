/-
  GROUP BY: the grouped frame, HAVING, ORDER BY and the items.
-/
import Verif.Sql.Grouped

namespace Verif.Sql
open Verif Verif.Rel Verif.Ir
variable {V : Type} [Inhabited V] [DecidableEq V]

/-! ### Grouping -/

theorem cell_ext {S : Scope V} {rs : List Ref} (hS : ScopeOK rs S) (as : List (AggC V)) {row : List V} (hrow : row ∈ S.rows) {k : Nat} (hk : k < S.sc.length) :
    cell k (extRow as row) = cell k row := by
  have := hS.rows row hrow
  simp only [cell, extRow, List.getD_eq_getElem?_getD]
  rw [List.getElem?_append_left (by omega)]

/-- Groups of extended rows. -/
theorem groupsOf_map (lt : V → V → Bool) (ks : List Nat) (rows : List (List V)) (g : List V → List V) (h : ∀ row ∈ rows, ∀ k ∈ ks, cell k (g row) = cell k row) :
    groupsOf lt ks (rows.map g) = (groupsOf lt ks rows).map (·.map g) := by
  have hk : ∀ row ∈ rows, (ks.map fun k => cell k (g row)) = ks.map fun k => cell k row := fun row hrow => List.map_congr_left fun k hk => h row hrow k hk
  unfold groupsOf
  simp only [List.map_map]
  have h1 : rows.map ((fun row : List V => ks.map fun k => cell k row) ∘ g) = rows.map fun row => ks.map fun k => cell k row :=
    List.map_congr_left fun row hrow => hk row hrow
  rw [h1]
  apply List.map_congr_left
  intro k _
  simp only [Function.comp_def, List.filter_map]
  congr 1
  apply List.filter_congr
  intro row hrow
  simp only [hk row hrow]

theorem groupsOf_sub {lt : V → V → Bool} {ks : List Nat} {rows : List (List V)} {g : List (List V)} (h : g ∈ groupsOf lt ks rows) : ∀ row ∈ g, row ∈ rows := by
  unfold groupsOf at h
  obtain ⟨k, _, rfl⟩ := List.mem_map.1 h
  exact fun row hrow => (List.mem_filter.1 hrow).1

/-- Key columns and columns of aggregates of a group. -/
def outRow (sem : Sem V) (kpos : List Nat) (as : List (AggC V)) (g : List (List V)) : List V :=
  (kpos.map fun k => cell k (g.headD [])) ++ as.map fun a => sem.aggOf a.fn (g.map a.v)

/-- Labels of the columns of aggregates. -/
def outLabels (as : List (AggC V)) : List String := ((aggCols 0 as).zip (as.map (·.fn))).map aggLabel

theorem zip_aggCols_length (n : Nat) (as : List (AggC V)) : ((aggCols n as).zip (as.map (·.fn))).map (·.1) = aggCols n as := by
  rw [List.map_fst_zip]
  rw [length_aggCols, List.length_map]

theorem outLabels_nodup (as : List (AggC V)) : (outLabels as).Nodup := by
  unfold outLabels
  have h1 : (((aggCols 0 as).zip (as.map (·.fn)))).Pairwise fun a b => a.1 ≠ b.1 := by
    have := nodup_aggCols 0 as
    rw [← zip_aggCols_length 0 as] at this
    exact (List.pairwise_map.1 this)
  exact List.pairwise_map.2 (h1.imp fun hab heq => hab (aggLabel_inj heq))

theorem colPart_lab {c : String × String} (hc : '.' ∉ c.1.toList) : colPart (lab c) = c.2 := by
  unfold colPart
  rw [lab_toList, List.dropWhile_append_of_pos]
  · simp
  · intro a ha
    simpa using fun h : a = '.' => hc (h ▸ ha)

/-- The keys as columns of the scope. -/
theorem keys_ok {views : String → Option (Tab V)} {rs : List Ref} {S : Scope V} {st : St V} (hst : Names views rs st) (hn : NamesOK rs) (hS : ScopeOK rs S) :
    ∀ (keys : List Ident) (kpos : List Nat), keys.mapM (Spec.pos S.sc) = some kpos →
    ∃ cs : List (String × String), List.Forall₂ (fun i c => visitIdent st i = .ok (lab c) ∧ i.text = lab c ∧ i.frame = some c.1 ∧ c.2 = i.col ∧ c ∈ S.sc ∧ c.2 ≠ "*") keys cs ∧
      List.Forall₂ (fun c k => (S.sc.map lab).idxOf? (lab c) = some k ∧ k < S.sc.length) cs kpos ∧
      List.Forall₂ (fun i k => Spec.pos S.sc i = some k) keys kpos := by
  intro keys
  induction keys with
  | nil => intro kpos h; cases h; exact ⟨[], .nil, .nil, .nil⟩
  | cons i keys ih =>
    intro kpos h
    rw [List.mapM_cons] at h
    simp only [Option.bind_eq_bind, Option.pure_def, Option.bind_eq_some_iff, Option.some.injEq] at h
    obtain ⟨k, hk, ks, hks, rfl⟩ := h
    obtain ⟨cs, h1, h2, h3⟩ := ih ks hks
    obtain ⟨c, hc, h4, h5, h6, h7, h8, h9, h10, h11, h12⟩ := pos_ident hst hn hS (fun _ h => h) hk
    exact ⟨c :: cs, .cons ⟨h4, h8, h7, h5, hc, h6⟩ h1, .cons ⟨h11, h12⟩ h2, .cons hk h3⟩

theorem collectKeys_ok {views : String → Option (Tab V)} {rs : List Ref} : ∀ {keys : List Ident} {cs : List (String × String)} {st : St V} (_ : Names views rs st),
    List.Forall₂ (fun i c => visitIdent st i = .ok (lab c)) keys cs →
    ∃ st' : St V, collectKeys st keys = .ok st' ∧ st' = { st with groupName := st.groupName ++ cs.map lab, grouped := st'.grouped } ∧
      (∀ i ∈ keys, i.text ∈ st'.grouped) ∧ ∀ t ∈ st.grouped, t ∈ st'.grouped := by
  intro keys
  induction keys with
  | nil => intro cs st _ h; cases h; exact ⟨st, rfl, by simp, by simp, fun _ h => h⟩
  | cons i keys ih =>
    intro cs st hst h
    cases h with
    | @cons _ c _ cs h1 h2 =>
      obtain ⟨st', h3, h4, h5, h6⟩ := ih (cs := cs) (st := { st with groupName := st.groupName ++ [lab c], grouped := i.text :: st.grouped })
        ⟨hst.view, hst.has, hst.pfx, hst.rev, hst.aliases⟩ (h2.imp fun _ _ h => h)
      refine ⟨st', by simp only [collectKeys, h1, Res.ok_bind, h3], ?_, ?_, ?_⟩
      · rw [h4]; simp
      · intro j hj
        rcases List.mem_cons.1 hj with rfl | hj
        · exact h6 _ (by simp)
        · exact h5 j hj
      · exact fun t ht => h6 t (by simp [ht])

theorem mapM_forall₂ {α β γ : Type} {f : β → Res γ} {R : β → γ → Prop} {l : List β} {m : List γ} (h : List.Forall₂ R l m) (hf : ∀ b c, R b c → f b = .ok c) :
    l.mapM f = .ok m := by
  induction h with
  | nil => rfl
  | cons h1 _ ih => rw [List.mapM_cons, hf _ _ h1, Res.ok_bind, ih]; rfl

theorem idxOf?_aggCols (pre : List String) {n : Nat} (as : List (AggC V)) (h : ∀ l ∈ pre, ∀ k t, n ≤ k → l ≠ groupLabel k t) :
    List.Forall₂ (fun l k => (pre ++ aggCols n as).idxOf? l = some k) (aggCols n as) ((List.range as.length).map (· + pre.length)) := by
  induction as generalizing n pre with
  | nil => exact .nil
  | cons a as ih =>
    rw [List.length_cons, List.range_succ_eq_map, List.map_cons]
    refine .cons ?_ ?_
    · have h1 : groupLabel n a.text ∉ pre := fun hm => h _ hm n a.text (by omega) rfl
      rw [aggCols]
      clear ih h
      induction pre with
      | nil => rw [List.nil_append, List.idxOf?_cons]; simp
      | cons p pre ih =>
        have hp : p ≠ groupLabel n a.text := fun hh => h1 (by simp [hh])
        rw [List.cons_append, List.idxOf?_cons]
        simp [hp, ih fun hh => h1 (by simp [hh])]
    · have := ih (pre := pre ++ [groupLabel n a.text]) (n := n + 1) (by
        intro l hl k t hk
        rcases List.mem_append.1 hl with hl | hl
        · exact h l hl k t (by omega)
        · rw [List.mem_singleton.1 hl]
          intro he
          have := groupLabel_inj he
          omega)
      simp only [aggCols, List.append_assoc, List.cons_append, List.nil_append, List.length_append, List.length_cons, List.length_nil, List.map_map] at this ⊢
      have h2 : (List.range as.length).map ((fun x => x + pre.length) ∘ Nat.succ) = (List.range as.length).map fun x => x + (pre.length + (0 + 1)) := by
        apply List.map_congr_left
        intro x _
        simp only [Function.comp]
        omega
      rw [h2]
      exact this

/-- **GROUP BY.** -/
theorem group_ok {rs : List Ref} {S : Scope V} (hn : NamesOK rs) (hS : ScopeOK rs S) (hg : ∀ c ∈ S.sc, GroupName c.1) (sem : Sem V) (as : List (AggC V))
    {cs : List (String × String)} {kpos : List Nat} (hcs : ∀ c ∈ cs, c ∈ S.sc ∧ c.2 ≠ "*") (hnd : cs.Nodup)
    (hk : List.Forall₂ (fun c k => (S.sc.map lab).idxOf? (lab c) = some k ∧ k < S.sc.length) cs kpos) :
    Tab.group sem ⟨S.sc.map lab ++ aggCols 0 as, S.rows.map (extRow as)⟩ (cs.map lab) ((aggCols 0 as).zip (as.map (·.fn))) =
      .ok ⟨cs.map lab ++ outLabels as, (groupsOf sem.lt kpos S.rows).map (outRow sem kpos as)⟩ := by
  have hd := hS.noDots hn
  have heff : effKeys (S.sc.map lab ++ aggCols 0 as) (aggCols 0 as) (cs.map lab) = cs.map lab := by
    unfold effKeys
    have : ((cs.map lab).flatMap fun k => (starOf (S.sc.map lab ++ aggCols 0 as) (aggCols 0 as) k).getD []) = [] := by
      rw [List.flatMap_eq_nil_iff]
      intro l hl
      obtain ⟨c, hc, rfl⟩ := List.mem_map.1 hl
      have h1 : lab c ≠ "*" := by
        intro h
        have h := congrArg String.toList h
        rw [lab_toList] at h
        have := congrArg (fun l => decide ('.' ∈ l)) h
        simp at this
      have h2 : colPart (lab c) ≠ "*" := by
        rw [colPart_lab (hd c (hcs c hc).1)]
        exact (hcs c hc).2
      simp [starOf, h1, h2]
    simp [this]
  have hkidx : (cs.map lab).mapM (Tab.idx ⟨S.sc.map lab ++ aggCols 0 as, S.rows.map (extRow as)⟩) = .ok kpos := by
    refine mapM_forall₂ (α := Nat) (R := fun l k => (S.sc.map lab).idxOf? l = some k) ?_ ?_
    · rw [List.forall₂_map_left_iff]
      exact hk.imp fun _ _ h => h.1
    · intro l k h
      simp only [Tab.idx, idxOf?_append h]
  have haidx : (((aggCols 0 as).zip (as.map (·.fn))).mapM fun a => do
      let i ← Tab.idx ⟨S.sc.map lab ++ aggCols 0 as, S.rows.map (extRow as)⟩ a.1
      (.ok (i, a.2) : Res (Nat × GFn))) = .ok (((List.range as.length).map (· + S.sc.length)).zip (as.map (·.fn))) := by
    have h1 := idxOf?_aggCols (S.sc.map lab) (n := 0) as (by
      intro l hl k t _
      obtain ⟨c, hc, rfl⟩ := List.mem_map.1 hl
      exact lab_ne_groupLabel (hg c hc) k t)
    rw [List.length_map] at h1
    generalize (List.range as.length).map (· + S.sc.length) = idxs at h1
    generalize hL : S.sc.map lab ++ aggCols 0 as = L at h1 ⊢
    clear hL hkidx heff
    generalize aggCols 0 as = ls at h1
    generalize as.map (·.fn) = fs
    induction h1 generalizing fs with
    | nil => rfl
    | cons h _ ih =>
      cases fs with
      | nil => rfl
      | cons f fs =>
        rw [List.zip_cons_cons, List.mapM_cons, ih fs]
        simp only [Tab.idx, h]
        rfl
  have hfst : (((aggCols 0 as).zip (as.map (·.fn))).map (·.1)) = aggCols 0 as := zip_aggCols_length 0 as
  unfold Tab.group
  simp only [hfst, heff, hkidx, haidx, Res.ok_bind]
  have hnd2 : (cs.map lab ++ outLabels as).Nodup := by
    refine List.nodup_append.2 ⟨nodup_lab (fun c hc => hd c (hcs c hc).1) hnd, outLabels_nodup as, ?_⟩
    rintro l hl _ hl' rfl
    obtain ⟨c, hc, rfl⟩ := List.mem_map.1 hl
    obtain ⟨a, _, h⟩ := List.mem_map.1 hl'
    exact lab_ne_aggLabel (hg c (hcs c hc).1) a h.symm
  have hnd3 : (cs.map lab ++ ((aggCols 0 as).zip (as.map (·.fn))).map aggLabel).Nodup := hnd2
  simp only [Tab.checked, hnd3, if_true]
  congr 2
  have hkpos : ∀ k ∈ kpos, k < S.sc.length := by
    intro k hk'
    obtain ⟨c, _, h⟩ : ∃ c ∈ cs, ((S.sc.map lab).idxOf? (lab c) = some k ∧ k < S.sc.length) := by
      clear hcs hnd heff hkidx hnd2 hnd3
      induction hk with
      | nil => cases hk'
      | cons h _ ih =>
        rcases List.mem_cons.1 hk' with rfl | hk'
        · exact ⟨_, by simp, h⟩
        · obtain ⟨c, hc, h⟩ := ih hk'
          exact ⟨c, by simp [hc], h⟩
    exact h.2
  rw [groupsOf_map _ _ _ _ fun row hrow k hk => cell_ext hS as hrow (hkpos k hk), List.map_map]
  apply List.map_congr_left
  intro g hgm
  simp only [Function.comp, outRow]
  congr 1
  · apply List.map_congr_left
    intro k hk'
    cases g with
    | nil => rfl
    | cons r g =>
      exact cell_ext hS as (groupsOf_sub hgm r (by simp)) (hkpos k hk')
  · have h1 : ∀ (bs pre : List (AggC V)), pre ++ bs = as →
        ((((List.range bs.length).map (· + (S.sc.length + pre.length))).zip (bs.map (·.fn))).map fun a => sem.aggOf a.2 ((g.map (extRow as)).map (cell a.1))) =
          bs.map fun a => sem.aggOf a.fn (g.map a.v) := by
      intro bs
      induction bs with
      | nil => intro pre _; rfl
      | cons b bs ih =>
        intro pre hpre
        rw [List.length_cons, List.range_succ_eq_map, List.map_cons, List.map_cons, List.zip_cons_cons, List.map_cons, List.map_cons]
        congr 1
        · congr 1
          rw [List.map_map]
          apply List.map_congr_left
          intro row hrow
          have hl := hS.rows row (groupsOf_sub hgm row hrow)
          simp only [Function.comp, cell, extRow, List.getD_eq_getElem?_getD]
          rw [List.getElem?_append_right (by omega), ← hpre]
          simp [hl]
        · have := ih (pre ++ [b]) (by simpa using hpre)
          rw [← this]
          congr 2
          rw [List.map_map]
          apply List.map_congr_left
          intro x _
          simp only [Function.comp, List.length_append, List.length_cons, List.length_nil]
          omega
    simpa using h1 as [] rfl

/-! ### After grouping -/

/-- The state after grouping: the groups `gs`, and `n` aggregations have been fetched. -/
structure Fet (views : String → Option (Tab V)) (rs : List Ref) (sem : Sem V) (keys : List Ident) (cs : List (String × String)) (kpos : List Nat) (as : List (AggC V))
    (gs : List (List (List V))) (n : Nat) (st : St V) : Prop where
  names : Names views rs st
  frame : st.frame = ⟨cs.map lab ++ outLabels as, gs.map (outRow sem kpos as)⟩
  group : st.group = true
  codegen : st.codegen = true
  agg : st.agg = false
  grouped : ∀ i ∈ keys, i.text ∈ st.grouped
  counterCg : st.counterCg = n

/-- A key as a column of the grouped frame. -/
theorem key_col {cs : List (String × String)} {kpos : List Nat} {keys : List Ident} {sc : List (String × String)} (hd : ∀ c ∈ cs, '.' ∉ c.1.toList)
    (hi : List.Forall₂ (fun i c => i.frame = some c.1 ∧ c.2 = i.col) keys cs) (hp : List.Forall₂ (fun i k => Spec.pos sc i = some k) keys kpos) {i : Ident} (h : i ∈ keys)
    {c : String × String} (hc : i.frame = some c.1 ∧ c.2 = i.col) (hdc : '.' ∉ c.1.toList) {k : Nat} (hk : Spec.pos sc i = some k) :
    ∃ j, (cs.map lab).idxOf? (lab c) = some j ∧ kpos[j]? = some k := by
  induction hi generalizing kpos with
  | nil => cases h
  | @cons i' c' keys cs h1 h2 ih =>
    cases hp with
    | @cons _ k' _ kpos h3 h4 =>
      by_cases heq : i' = i
      · subst heq
        have hcc : c' = c := by
          refine Prod.ext ?_ (h1.2.trans hc.2.symm)
          have := h1.1.symm.trans hc.1
          exact Option.some.inj this
        subst hcc
        have hkk : k' = k := by rw [h3] at hk; exact Option.some.inj hk
        subst hkk
        exact ⟨0, by rw [List.map_cons, List.idxOf?_cons]; simp, rfl⟩
      · have hm : i ∈ keys := by
          rcases List.mem_cons.1 h with h | h
          · exact absurd h.symm heq
          · exact h
        obtain ⟨j, h5, h6⟩ := ih (fun c hc => hd c (by simp [hc])) h4 hm
        have hne : lab c' ≠ lab c := by
          intro hl
          have := lab_inj (hd c' (by simp)) hdc hl
          apply heq
          cases i'; cases i
          simp only [Ident.mk.injEq] at *
          subst this
          exact ⟨h1.1.trans hc.1.symm, h1.2.symm.trans hc.2⟩
        refine ⟨j + 1, ?_, by simpa using h6⟩
        rw [List.map_cons, List.idxOf?_cons]
        simp [hne, h5]

theorem cell_outRow_key (sem : Sem V) {kpos : List Nat} (as : List (AggC V)) {j k : Nat} (h : kpos[j]? = some k) (g : List (List V)) :
    cell j (outRow sem kpos as g) = cell k (g.headD []) := by
  obtain ⟨hj, hx⟩ := List.getElem?_eq_some_iff.1 h
  simp only [cell, outRow, List.getD_eq_getElem?_getD]
  rw [List.getElem?_append_left (by simpa using hj)]
  simp [List.getElem?_map, h]

theorem outLabels_get (pre post : List (AggC V)) (a : AggC V) : (outLabels (pre ++ a :: post))[pre.length]? = some (aggLabel (groupLabel pre.length a.text, a.fn)) := by
  unfold outLabels
  rw [aggCols_append, List.map_append, List.zip_append (by simp [length_aggCols])]
  have hl : ((aggCols 0 pre).zip (pre.map (·.fn))).length = pre.length := by simp [length_aggCols]
  rw [List.map_append, List.getElem?_append_right (by simp [length_aggCols])]
  simp [length_aggCols, aggCols]

theorem idxOf?_of_getElem? {l : List String} (hn : l.Nodup) {i : Nat} {a : String} (h : l[i]? = some a) : l.idxOf? a = some i := by
  obtain ⟨hi, rfl⟩ := List.getElem?_eq_some_iff.1 h
  exact idxOf?_getElem hn hi

/-- What is fixed during the evaluation after grouping. -/
structure GroupCtx (rs : List Ref) (S : Scope V) (keys : List Ident) (cs : List (String × String)) (kpos : List Nat) (as : List (AggC V)) : Prop where
  names : NamesOK rs
  scope : ScopeOK rs S
  labels : (cs.map lab ++ outLabels as).Nodup
  mem : ∀ c ∈ cs, c ∈ S.sc
  length : cs.length = kpos.length
  idents : List.Forall₂ (fun i c => i.frame = some c.1 ∧ c.2 = i.col) keys cs
  pos : List.Forall₂ (fun i k => Spec.pos S.sc i = some k) keys kpos

theorem GroupCtx.key {views : String → Option (Tab V)} {rs : List Ref} {S : Scope V} {keys : List Ident} {cs : List (String × String)} {kpos : List Nat} {as : List (AggC V)}
    (hc : GroupCtx rs S keys cs kpos as) {sem : Sem V} {gs : List (List (List V))} {n : Nat} {st : St V} (hst : Fet views rs sem keys cs kpos as gs n st) {i : Ident}
    (hi : i ∈ keys) {k : Nat} (hk : Spec.pos S.sc i = some k) :
    ∃ c j, visitIdent st i = .ok (lab c) ∧ i.text = lab c ∧ '.' ∉ c.1.toList ∧ c.1 ≠ "" ∧ c.2 ≠ "*" ∧ c.2 = i.col ∧ st.frame.labels.idxOf? (lab c) = some j ∧ kpos[j]? = some k := by
  obtain ⟨c, hcm, h1, h2, h3, h4, h5, h6, h7, h8, h9⟩ := pos_ident hst.names hc.names hc.scope (fun _ h => h) hk
  obtain ⟨j, h10, h11⟩ := key_col (fun d hd => hc.scope.noDots hc.names d (hc.mem d hd)) hc.idents hc.pos hi ⟨h4, h2⟩ h6 hk
  exact ⟨c, j, h1, h5, h6, h7, h3, h2, by rw [hst.frame]; exact idxOf?_append h10, h11⟩

/-- **Expressions after grouping.** -/
theorem fetch_ok {views : String → Option (Tab V)} {rs : List Ref} {S : Scope V} {keys : List Ident} {cs : List (String × String)} {kpos : List Nat} {as : List (AggC V)}
    (hc : GroupCtx rs S keys cs kpos as) (sem : Sem V) {gs : List (List (List V))} :
    ∀ (e : SExpr V) {f}, e.NoBang → e.Lexical → Spec.groupValue sem S.sc keys e = some f → ∀ {n : Nat} {st : St V}, Fet views rs sem keys cs kpos as gs n st →
    ∀ {pre bs post : List (AggC V)}, e.aggs.mapM (resolve sem S.sc) = some bs → as = pre ++ bs ++ post → pre.length = n →
    ∃ v st', visit sem e st = .ok (some v, st') ∧ Fet views rs sem keys cs kpos as gs (n + bs.length) st' ∧ Repr gs e.isCol v f := by
  have hlen : ∀ {n : Nat} {st : St V}, Fet views rs sem keys cs kpos as gs n st → st.frame.rows.length = gs.length := by
    intro n st hst
    rw [hst.frame]
    simp
  intro e
  induction e with
  | lit v t =>
    intro f _ _ h n st hst pre bs post hbs _ _
    cases hbs
    cases h
    exact ⟨.sca v, st, by simp [visit, hst.codegen], hst, ⟨v, rfl, rfl⟩⟩
  | star => intro f _ _ h; cases h
  | ident i =>
    intro f _ _ h n st hst pre bs post hbs _ _
    cases hbs
    simp only [Spec.groupValue] at h
    split at h
    · rename_i hi
      obtain ⟨k, hk, rfl⟩ := Option.map_eq_some_iff.1 h
      obtain ⟨c, j, h1, h2, h3, h4, h5, h6, h7, h8⟩ := hc.key hst hi hk
      have h10 : ¬ i.text.length < 2 := by
        rw [h2, ← String.length_toList, lab_toList]
        have h11 : c.1.toList ≠ [] := fun h => h4 (String.toList_injective h)
        have h12 := List.length_pos_iff.2 h11
        simp only [List.length_append, List.length_cons]
        omega
      have h11 : identAllowed st i.text = true := by simp [identAllowed, hst.grouped i hi]
      have h12 : extractMat st.frame (lab c) = .ok (gs.map fun g => cell k (g.headD [])) := by
        rw [extractMat_ok (t := st.frame) (l := lab c) (k := j) (by rw [wild_lab h3]; simpa using h5) h7, hst.frame]
        simp only [List.map_map]
        congr 1
        exact List.map_congr_left fun g _ => cell_outRow_key sem as h8 g
      have h13 : i.col ≠ "*" := h6 ▸ h5
      refine ⟨.mat (gs.map fun g : List (List V) => cell k (g.headD [])), st, ?_, hst, rfl⟩
      simp only [visit, visitIdentExpr, h11, hst.codegen, Bool.true_eq_false, if_false, if_neg h10, if_neg h13, h1, h12, Res.ok_bind]
    · cases h
  | paren e ih =>
    intro f hb hl h n st hst pre bs post hbs has hpre
    obtain ⟨v, st', h1, h2, h3⟩ := ih hb hl h hst hbs has hpre
    exact ⟨v, st', by simp [visit, h1, Res.ok_bind, h2.codegen], h2, h3⟩
  | agg g e ih =>
    intro f hb hl h n st hst pre bs post hbs has hpre
    simp only [Spec.groupValue, Option.bind_eq_bind, Option.bind_eq_some_iff, Option.some.injEq] at h
    obtain ⟨f1, hf1, v, hv, rfl⟩ := h
    have hbs' : bs = [⟨f1, e.text, v⟩] := by
      simp [SExpr.aggs, resolve, hf1, hv] at hbs
      exact hbs.symm
    subst hbs'
    have hlast := (text_last sem S.sc e hl hv).2
    have hge : getGroupEnum g = .ok f1 := by simp [getGroupEnum, hf1]
    have has' : as = pre ++ ⟨f1, e.text, v⟩ :: post := by simpa using has
    have hidx : st.frame.labels.idxOf? (aggLabel (groupLabel st.counterCg e.text, f1)) = some (cs.length + n) := by
      rw [hst.frame]
      apply idxOf?_of_getElem? hc.labels
      rw [List.getElem?_append_right (by simp)]
      simp only [List.length_map, Nat.add_sub_cancel_left, hst.counterCg]
      rw [has', ← hpre]
      exact outLabels_get pre post _
    have hext : extractMat st.frame (aggLabel (groupLabel st.counterCg e.text, f1)) = .ok (gs.map fun g => sem.aggOf f1 (g.map v)) := by
      rw [extractMat_ok (wild_aggLabel _) hidx, hst.frame]
      simp only [List.map_map]
      congr 1
      apply List.map_congr_left
      intro g _
      simp only [Function.comp, cell, outRow, List.getD_eq_getElem?_getD, hc.length]
      rw [List.getElem?_append_right (by simp)]
      simp only [List.length_map, Nat.add_sub_cancel_left]
      rw [has', ← hpre]
      simp
    refine ⟨.mat (gs.map fun g : List (List V) => sem.aggOf f1 (g.map v)), { st with counter := st.counter + 1, ground := setInsert e.text st.ground, counterCg := st.counterCg + 1 }, ?_, ?_, rfl⟩
    · simp only [visit]
      rw [if_neg hlast, if_neg (by simp [hst.group]), if_neg (by simp [hst.agg]), if_neg (by simp [hst.codegen])]
      simp only [fetchAgg, hge, Res.ok_bind, hext]
    · exact ⟨⟨hst.names.view, hst.names.has, hst.names.pfx, hst.names.rev, hst.names.aliases⟩, hst.frame, hst.group, hst.codegen, hst.agg, hst.grouped,
        by simp [hst.counterCg]⟩
  | bin s l r ihl ihr =>
    intro f hb hl h n st hst pre bs post hbs has hpre
    simp only [Spec.groupValue, Option.bind_eq_bind, Option.bind_eq_some_iff, Option.some.injEq] at h
    obtain ⟨f1, hf1, f2, hf2, rfl⟩ := h
    obtain ⟨b1, hb1⟩ := resolve_some sem S.sc keys l hf1
    obtain ⟨b2, hb2⟩ := resolve_some sem S.sc keys r hf2
    have : bs = b1 ++ b2 := by
      have := mapM_append_some hb1 hb2
      rw [show l.aggs ++ r.aggs = (SExpr.bin s l r).aggs from rfl, hbs] at this
      exact Option.some.inj this
    subst this
    obtain ⟨v, st1, h1, h2, r1⟩ := ihl hb.2.1 hl.1 hf1 hst (pre := pre) (post := b2 ++ post) hb1 (by simpa using has) hpre
    obtain ⟨w, st2, h3, h4, r2⟩ := ihr hb.2.2 hl.2 hf2 h2 (pre := pre ++ b1) (post := post) hb2 (by simpa using has) (by simp [hpre])
    obtain ⟨u, h5, h6⟩ := ew_repr sem s.op r1 r2
    exact ⟨u, st2, by simp [visit, h1, h3, Res.ok_bind, binCode, h4.codegen, orError, symOp_ok hb.1, h5], by simpa [Nat.add_assoc] using h4, h6⟩
  | between k k' x l r ihx ihl ihr =>
    intro f hb hl h n st hst pre bs post hbs has hpre
    simp only [Spec.groupValue, Option.bind_eq_bind, Option.bind_eq_some_iff, Option.some.injEq] at h
    obtain ⟨f0, hf0, f1, hf1, f2, hf2, rfl⟩ := h
    obtain ⟨b0, hb0⟩ := resolve_some sem S.sc keys x hf0
    obtain ⟨b1, hb1⟩ := resolve_some sem S.sc keys l hf1
    obtain ⟨b2, hb2⟩ := resolve_some sem S.sc keys r hf2
    have : bs = b0 ++ (b1 ++ b2) := by
      have := mapM_append_some hb0 (mapM_append_some hb1 hb2)
      rw [show x.aggs ++ (l.aggs ++ r.aggs) = (SExpr.between k k' x l r).aggs from rfl, hbs] at this
      exact Option.some.inj this
    subst this
    obtain ⟨o, st0, h7, h8, r0⟩ := ihx hb.1 hl.1 hf0 hst (pre := pre) (post := b1 ++ b2 ++ post) hb0 (by simpa using has) hpre
    obtain ⟨v, st1, h1, h2, r1⟩ := ihl hb.2.1 hl.2.1 hf1 h8 (pre := pre ++ b0) (post := b2 ++ post) hb1 (by simpa using has) (by simp [hpre])
    obtain ⟨w, st2, h3, h4, r2⟩ := ihr hb.2.2 hl.2.2 hf2 h2 (pre := pre ++ b0 ++ b1) (post := post) hb2 (by simpa using has) (by simp [hpre]; omega)
    obtain ⟨u, h5, h6⟩ := between_repr sem r0 r1 r2
    exact ⟨u, st2, by simp [visit, h7, h1, h3, Res.ok_bind, betweenOpt, h4.codegen, orError, h5], by simpa [Nat.add_assoc] using h4, h6⟩
  | and k l r ihl ihr =>
    intro f hb hl h n st hst pre bs post hbs has hpre
    simp only [Spec.groupValue, Option.bind_eq_bind, Option.bind_eq_some_iff, Option.some.injEq] at h
    obtain ⟨f1, hf1, f2, hf2, rfl⟩ := h
    obtain ⟨b1, hb1⟩ := resolve_some sem S.sc keys l hf1
    obtain ⟨b2, hb2⟩ := resolve_some sem S.sc keys r hf2
    have : bs = b1 ++ b2 := by
      have := mapM_append_some hb1 hb2
      rw [show l.aggs ++ r.aggs = (SExpr.and k l r).aggs from rfl, hbs] at this
      exact Option.some.inj this
    subst this
    obtain ⟨v, st1, h1, h2, r1⟩ := ihl hb.1 hl.1 hf1 hst (pre := pre) (post := b2 ++ post) hb1 (by simpa using has) hpre
    obtain ⟨w, st2, h3, h4, r2⟩ := ihr hb.2 hl.2 hf2 h2 (pre := pre ++ b1) (post := post) hb2 (by simpa using has) (by simp [hpre])
    obtain ⟨u, h5, h6⟩ := bool_repr sem .and (hlen h4) r1 r2
    exact ⟨u, st2, by simp [visit, h1, h3, Res.ok_bind, binCode, h4.codegen, orError, h5], by simpa [Nat.add_assoc] using h4, h6⟩
  | or k l r ihl ihr =>
    intro f hb hl h n st hst pre bs post hbs has hpre
    simp only [Spec.groupValue, Option.bind_eq_bind, Option.bind_eq_some_iff, Option.some.injEq] at h
    obtain ⟨f1, hf1, f2, hf2, rfl⟩ := h
    obtain ⟨b1, hb1⟩ := resolve_some sem S.sc keys l hf1
    obtain ⟨b2, hb2⟩ := resolve_some sem S.sc keys r hf2
    have : bs = b1 ++ b2 := by
      have := mapM_append_some hb1 hb2
      rw [show l.aggs ++ r.aggs = (SExpr.or k l r).aggs from rfl, hbs] at this
      exact Option.some.inj this
    subst this
    obtain ⟨v, st1, h1, h2, r1⟩ := ihl hb.1 hl.1 hf1 hst (pre := pre) (post := b2 ++ post) hb1 (by simpa using has) hpre
    obtain ⟨w, st2, h3, h4, r2⟩ := ihr hb.2 hl.2 hf2 h2 (pre := pre ++ b1) (post := post) hb2 (by simpa using has) (by simp [hpre])
    obtain ⟨u, h5, h6⟩ := bool_repr sem .or (hlen h4) r1 r2
    exact ⟨u, st2, by simp [visit, h1, h3, Res.ok_bind, binCode, h4.codegen, orError, h5], by simpa [Nat.add_assoc] using h4, h6⟩

end Verif.Sql
