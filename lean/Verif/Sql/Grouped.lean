/-
  GROUP BY: collecting the aggregated expressions, grouping, and fetching the results.
-/
import Verif.Sql.Distinct

namespace Verif.Sql
open Verif Verif.Rel Verif.Ir
variable {V : Type}

/-! ### Labels -/

theorem groupLabel_toList (k : Nat) (t : String) : (groupLabel k t).toList = "group_".toList ++ (Nat.toDigits 10 k ++ '_' :: t.toList) := by
  simp [groupLabel, Nat.toString_eq_ofList_toDigits, String.toList_append]

theorem groupLabel_inj {k k' : Nat} {t t' : String} (h : groupLabel k t = groupLabel k' t') : k = k' := by
  have h := congrArg String.toList h
  rw [groupLabel_toList, groupLabel_toList] at h
  have h := List.append_cancel_left h
  have h1 := (split_first Nat.underscore_not_in_toDigits Nat.underscore_not_in_toDigits h).1
  have := congrArg (fun l => Nat.ofDigitChars 10 l 0) h1
  simpa [Nat.ofDigitChars_ten_toDigits] using this

theorem aggLabel_toList (a : String × GFn) : (aggLabel a).toList = a.2.name.toList ++ '(' :: (a.1.toList ++ [')']) := by
  simp [aggLabel, String.toList_append]

theorem aggLabel_inj {a b : String × GFn} (h : aggLabel a = aggLabel b) : a.1 = b.1 := by
  have h := congrArg String.toList h
  rw [aggLabel_toList, aggLabel_toList] at h
  have hp : ∀ f : GFn, '(' ∉ f.name.toList := by intro f; cases f <;> decide
  have h1 := (split_first (hp _) (hp _) h).2
  exact String.toList_injective (List.append_cancel_right h1)

/-- A name cannot be mistaken for the name of an aggregated column. -/
def GroupName (s : String) : Prop := ¬ "group_".toList <+: s.toList ∧ '(' ∉ s.toList

theorem prefix_before {d : Char} {p a b : List Char} (hd : d ∉ p) (h : p <+: a ++ d :: b) : p <+: a := by
  rcases List.prefix_or_prefix_of_prefix h (List.prefix_append a (d :: b)) with h1 | h1
  · exact h1
  · obtain ⟨q, rfl⟩ := h1
    obtain ⟨r, hr⟩ := h
    rw [List.append_assoc] at hr
    have hr := List.append_cancel_left hr
    cases q with
    | nil => simp
    | cons e q =>
      simp only [List.cons_append, List.cons.injEq] at hr
      exact absurd (by simp [hr.1]) hd

theorem lab_toList (c : String × String) : (lab c).toList = c.1.toList ++ '.' :: c.2.toList := by simp [lab]

theorem lab_ne_groupLabel {c : String × String} (h : GroupName c.1) (k : Nat) (t : String) : lab c ≠ groupLabel k t := by
  intro he
  have he := congrArg String.toList he
  rw [groupLabel_toList, lab_toList] at he
  exact h.1 (prefix_before (by decide) ⟨_, he.symm⟩)

theorem lab_ne_aggLabel {c : String × String} (h : GroupName c.1) (a : String × GFn) : lab c ≠ aggLabel a := by
  intro he
  have he := congrArg String.toList he
  rw [aggLabel_toList, lab_toList] at he
  have h1 : a.2.name.toList ++ ['('] <+: c.1.toList ++ '.' :: c.2.toList := ⟨a.1.toList ++ [')'], by rw [he]; simp⟩
  have h2 := prefix_before (by cases a.2 <;> decide) h1
  exact h.2 (h2.subset (by simp))

theorem wild_aggLabel (a : String × GFn) : wild (aggLabel a) = false := by
  unfold wild afterDot
  rw [aggLabel_toList]
  have key : ∀ l : List Char, ((l ++ [')']).dropWhile fun x => decide (x ≠ '.')).drop 1 ≠ ['*'] := by
    intro l h
    have h1 : ['*'] <:+ l ++ [')'] := by
      rw [← h]
      exact (List.drop_suffix _ _).trans (List.dropWhile_suffix _)
    have h2 := h1.getLast (by simp)
    simp at h2
  have h3 : a.2.name.toList ++ '(' :: (a.1.toList ++ [')']) = (a.2.name.toList ++ '(' :: a.1.toList) ++ [')'] := by simp
  rw [h3]
  split
  · simpa using key (a.2.name.toList ++ '(' :: a.1.toList)
  · cases a.2 <;> simp [GFn.name]

/-! ### Aggregated expressions -/

/-- The spelling of identifiers and literals: an identifier does not end with `*`, a literal has at least one character and does not end with `*`. -/
def SExpr.Lexical : SExpr V → Prop
  | .lit _ t => t.toList ≠ [] ∧ t.toList.getLast? ≠ some '*'
  | .star => True
  | .ident i => i.col ≠ "*" → i.col.toList.getLast? ≠ some '*'
  | .paren e | .agg _ e => e.Lexical
  | .bin _ l r => l.Lexical ∧ r.Lexical
  | .between _ _ x l r => x.Lexical ∧ l.Lexical ∧ r.Lexical
  | .and _ l r | .or _ l r => l.Lexical ∧ r.Lexical

/-- The aggregations of an expression, from left to right. -/
def SExpr.aggs : SExpr V → List (String × SExpr V)
  | .lit _ _ | .star | .ident _ => []
  | .paren e => e.aggs
  | .agg f e => [(f, e)]
  | .bin _ l r => l.aggs ++ r.aggs
  | .between _ _ x l r => x.aggs ++ (l.aggs ++ r.aggs)
  | .and _ l r | .or _ l r => l.aggs ++ r.aggs

/-- An aggregation: function, text and value of the aggregated expression. -/
structure AggC (V : Type) where
  fn : GFn
  text : String
  v : List V → V

/-- Names of the aggregated columns. -/
def aggCols : Nat → List (AggC V) → List String
  | _, [] => []
  | n, a :: as => groupLabel n a.text :: aggCols (n + 1) as

theorem aggCols_append (n : Nat) (as bs : List (AggC V)) : aggCols n (as ++ bs) = aggCols n as ++ aggCols (n + as.length) bs := by
  induction as generalizing n with
  | nil => simp [aggCols]
  | cons a as ih => simp only [List.cons_append, aggCols, ih, List.length_cons]; congr 3; omega

theorem length_aggCols (n : Nat) (as : List (AggC V)) : (aggCols n as).length = as.length := by
  induction as generalizing n with
  | nil => rfl
  | cons a as ih => simp [aggCols, ih]

theorem mem_aggCols {n : Nat} {as : List (AggC V)} {l : String} (h : l ∈ aggCols n as) : ∃ k t, l = groupLabel k t ∧ n ≤ k := by
  induction as generalizing n with
  | nil => cases h
  | cons a as ih =>
    rcases List.mem_cons.1 h with h | h
    · exact ⟨n, a.text, h, by omega⟩
    · obtain ⟨k, t, h1, h2⟩ := ih h
      exact ⟨k, t, h1, by omega⟩

theorem nodup_aggCols (n : Nat) (as : List (AggC V)) : (aggCols n as).Nodup := by
  induction as generalizing n with
  | nil => exact List.nodup_nil
  | cons a as ih =>
    refine List.nodup_cons.2 ⟨?_, ih (n + 1)⟩
    intro h
    obtain ⟨k, t, h1, h2⟩ := mem_aggCols h
    have := groupLabel_inj h1
    omega

theorem nodup_ext {sc : List (String × String)} (hd : NoDots sc) (hg : ∀ c ∈ sc, GroupName c.1) (hn : sc.Nodup) (as : List (AggC V)) :
    (sc.map lab ++ aggCols 0 as).Nodup := by
  refine List.nodup_append.2 ⟨nodup_lab hd hn, nodup_aggCols 0 as, ?_⟩
  rintro l hl _ hl' rfl
  obtain ⟨c, hc, rfl⟩ := List.mem_map.1 hl
  obtain ⟨k, t, h, -⟩ := mem_aggCols hl'
  exact lab_ne_groupLabel (hg c hc) k t h

section
variable [Inhabited V] [DecidableEq V]

/-- The meaning of an aggregation. -/
def resolve (sem : Sem V) (sc : List (String × String)) (a : String × SExpr V) : Option (AggC V) := do
  let f ← Spec.fn a.1
  let v ← Spec.value sem sc a.2
  some ⟨f, a.2.text, v⟩

theorem mapM_append_some {α β : Type} {f : α → Option β} {l l' : List α} {r r' : List β} (h : l.mapM f = some r) (h' : l'.mapM f = some r') :
    (l ++ l').mapM f = some (r ++ r') := by
  rw [List.mapM_append, h, h']
  rfl

theorem resolve_some (sem : Sem V) (sc : List (String × String)) (keys : List Ident) : ∀ (e : SExpr V) {f}, Spec.groupValue sem sc keys e = some f →
    ∃ as, e.aggs.mapM (resolve sem sc) = some as := by
  intro e
  induction e with
  | lit v t => intro f _; exact ⟨[], rfl⟩
  | star => intro f _; exact ⟨[], rfl⟩
  | ident i => intro f _; exact ⟨[], rfl⟩
  | paren e ih => intro f h; exact ih h
  | agg g e ih =>
    intro f h
    simp only [Spec.groupValue, Option.bind_eq_bind, Option.bind_eq_some_iff, Option.some.injEq] at h
    obtain ⟨f1, hf1, v, hv, rfl⟩ := h
    exact ⟨[⟨f1, e.text, v⟩], by simp [SExpr.aggs, resolve, hf1, hv]⟩
  | bin s l r ihl ihr =>
    intro f h
    simp only [Spec.groupValue, Option.bind_eq_bind, Option.bind_eq_some_iff, Option.some.injEq] at h
    obtain ⟨f1, hf1, f2, hf2, rfl⟩ := h
    obtain ⟨a, ha⟩ := ihl hf1
    obtain ⟨b, hb⟩ := ihr hf2
    exact ⟨_, mapM_append_some ha hb⟩
  | between k k' x l r ihx ihl ihr =>
    intro f h
    simp only [Spec.groupValue, Option.bind_eq_bind, Option.bind_eq_some_iff, Option.some.injEq] at h
    obtain ⟨f0, hf0, f1, hf1, f2, hf2, rfl⟩ := h
    obtain ⟨c, hc⟩ := ihx hf0
    obtain ⟨a, ha⟩ := ihl hf1
    obtain ⟨b, hb⟩ := ihr hf2
    exact ⟨_, mapM_append_some hc (mapM_append_some ha hb)⟩
  | and k l r ihl ihr =>
    intro f h
    simp only [Spec.groupValue, Option.bind_eq_bind, Option.bind_eq_some_iff, Option.some.injEq] at h
    obtain ⟨f1, hf1, f2, hf2, rfl⟩ := h
    obtain ⟨a, ha⟩ := ihl hf1
    obtain ⟨b, hb⟩ := ihr hf2
    exact ⟨_, mapM_append_some ha hb⟩
  | or k l r ihl ihr =>
    intro f h
    simp only [Spec.groupValue, Option.bind_eq_bind, Option.bind_eq_some_iff, Option.some.injEq] at h
    obtain ⟨f1, hf1, f2, hf2, rfl⟩ := h
    obtain ⟨a, ha⟩ := ihl hf1
    obtain ⟨b, hb⟩ := ihr hf2
    exact ⟨_, mapM_append_some ha hb⟩

/-- Text of an expression that has a value. -/
theorem text_last (sem : Sem V) (sc : List (String × String)) : ∀ (e : SExpr V) {f}, e.Lexical → Spec.value sem sc e = some f →
    e.text.toList ≠ [] ∧ e.text.toList.getLast? ≠ some '*' := by
  have happ : ∀ a b : List Char, b ≠ [] ∧ b.getLast? ≠ some '*' → a ++ b ≠ [] ∧ (a ++ b).getLast? ≠ some '*' := by
    intro a b h
    refine ⟨by simp [h.1], ?_⟩
    rw [List.getLast?_append]
    cases hb : b.getLast? with
    | none => exact absurd (List.getLast?_eq_none_iff.1 hb) h.1
    | some c => simpa [hb] using h.2
  intro e
  induction e with
  | lit v t => intro f hl _; exact hl
  | star => intro f _ h; cases h
  | ident i =>
    intro f hl h
    simp only [Spec.value, Option.map_eq_some_iff] at h
    obtain ⟨k, hk, rfl⟩ := h
    obtain ⟨g, hg, hc, -⟩ := pos_some hk
    have h1 : (SExpr.ident i : SExpr V).text.toList = (g.toList ++ ['.']) ++ i.col.toList := by simp [SExpr.text, Ident.text, hg]
    rw [h1]
    by_cases he : i.col.toList = []
    · rw [he]; simp
    · exact happ _ _ ⟨he, hl hc⟩
  | paren e ih =>
    intro f hl h
    have h1 : (SExpr.paren e).text.toList = ('(' :: e.text.toList) ++ [')'] := by simp [SExpr.text]
    rw [h1]
    exact happ _ _ (by simp)
  | agg g e ih => intro f _ h; cases h
  | bin s l r ihl ihr =>
    intro f hl h
    simp only [Spec.value, Option.bind_eq_bind, Option.bind_eq_some_iff, Option.some.injEq] at h
    obtain ⟨f1, hf1, f2, hf2, rfl⟩ := h
    have h1 : (SExpr.bin s l r).text.toList = (l.text.toList ++ s.text.toList) ++ r.text.toList := by simp [SExpr.text]
    rw [h1]
    exact happ _ _ (ihr hl.2 hf2)
  | between k k' x l r ihx ihl ihr =>
    intro f hl h
    simp only [Spec.value, Option.bind_eq_bind, Option.bind_eq_some_iff, Option.some.injEq] at h
    obtain ⟨f0, hf0, f1, hf1, f2, hf2, rfl⟩ := h
    have h1 : (SExpr.between k k' x l r).text.toList = (x.text.toList ++ k.toList ++ l.text.toList ++ k'.toList) ++ r.text.toList := by simp [SExpr.text]
    rw [h1]
    exact happ _ _ (ihr hl.2.2 hf2)
  | and k l r ihl ihr =>
    intro f hl h
    simp only [Spec.value, Option.bind_eq_bind, Option.bind_eq_some_iff, Option.some.injEq] at h
    obtain ⟨f1, hf1, f2, hf2, rfl⟩ := h
    have h1 : (SExpr.and k l r).text.toList = (l.text.toList ++ k.toList) ++ r.text.toList := by simp [SExpr.text]
    rw [h1]
    exact happ _ _ (ihr hl.2 hf2)
  | or k l r ihl ihr =>
    intro f hl h
    simp only [Spec.value, Option.bind_eq_bind, Option.bind_eq_some_iff, Option.some.injEq] at h
    obtain ⟨f1, hf1, f2, hf2, rfl⟩ := h
    have h1 : (SExpr.or k l r).text.toList = (l.text.toList ++ k.toList) ++ r.text.toList := by simp [SExpr.text]
    rw [h1]
    exact happ _ _ (ihr hl.2 hf2)

/-! ### Collecting -/

/-- The extended row. -/
def extRow (as : List (AggC V)) (row : List V) : List V := row ++ as.map fun a => a.v row

/-- The state while the aggregations are collected; `keys` are the keys of the groups. -/
structure Coll (views : String → Option (Tab V)) (rs : List Ref) (S : Scope V) (keys : List Ident) (knames : List String) (as : List (AggC V)) (st : St V) : Prop where
  names : Names views rs st
  frame : st.frame = ⟨S.sc.map lab ++ aggCols 0 as, S.rows.map (extRow as)⟩
  group : st.group = true
  codegen : st.codegen = false
  agg : st.agg = false
  grouped : ∀ i ∈ keys, i.text ∈ st.grouped
  groupName : st.groupName = knames
  columnName : st.columnName = aggCols 0 as
  functionName : st.functionName = as.map (·.fn)
  counter : st.counter = as.length
  counterCg : st.counterCg = 0

theorem collect_ok {views : String → Option (Tab V)} {rs : List Ref} {S : Scope V} {keys : List Ident} {knames : List String} (hn : NamesOK rs)
    (hS : ScopeOK rs S) (hg : ∀ c ∈ S.sc, GroupName c.1) (sem : Sem V) :
    ∀ (e : SExpr V) {f}, e.NoBang → e.Lexical → Spec.groupValue sem S.sc keys e = some f → ∀ {as : List (AggC V)} {st : St V}, Coll views rs S keys knames as st →
    ∀ {bs}, e.aggs.mapM (resolve sem S.sc) = some bs →
    ∃ st', visit sem e st = .ok (none, st') ∧ Coll views rs S keys knames (as ++ bs) st' := by
  intro e
  induction e with
  | lit v t =>
    intro f _ _ _ as st hst bs hbs
    cases hbs
    exact ⟨st, by simp [visit, hst.codegen], by simpa using hst⟩
  | star => intro f _ _ h; cases h
  | ident i =>
    intro f _ _ h as st hst bs hbs
    cases hbs
    simp only [Spec.groupValue] at h
    split at h
    · rename_i hi
      have : identAllowed st i.text = true := by simp [identAllowed, hst.grouped i hi]
      exact ⟨st, by simp [visit, visitIdentExpr, this, hst.codegen, Res.ok_bind], by simpa using hst⟩
    · cases h
  | paren e ih =>
    intro f hb hl h as st hst bs hbs
    obtain ⟨st', h1, h2⟩ := ih hb hl h hst hbs
    exact ⟨st', by simp [visit, h1, Res.ok_bind, h2.codegen], h2⟩
  | agg g e ih =>
    intro f hb hl h as st hst bs hbs
    simp only [Spec.groupValue, Option.bind_eq_bind, Option.bind_eq_some_iff, Option.some.injEq] at h
    obtain ⟨f1, hf1, v, hv, rfl⟩ := h
    have hbs' : bs = [⟨f1, e.text, v⟩] := by
      simp [SExpr.aggs, resolve, hf1, hv] at hbs
      exact hbs.symm
    subst hbs'
    have hlast := (text_last sem S.sc e hl hv).2
    have hge : getGroupEnum g = .ok f1 := by simp [getGroupEnum, hf1]
    let st1 : St V := { st with counter := st.counter + 1, ground := setInsert e.text st.ground, columnName := st.columnName ++ [groupLabel st.counter e.text],
                                functionName := st.functionName ++ [f1], agg := true, codegen := true }
    have hev : EvalOK views rs S (aggCols 0 as) (extRow as) st1 := by
      refine ⟨⟨hst.names.view, hst.names.has, hst.names.pfx, hst.names.rev, hst.names.aliases⟩, hst.frame, ?_, rfl, .inr rfl⟩
      intro row hrow k hk
      have := hS.rows row hrow
      simp only [cell, extRow, List.getD_eq_getElem?_getD]
      rw [List.getElem?_append_left (by omega)]
    obtain ⟨w, h1, h2⟩ := value_ok hev hn hS sem e v hb hv
    have h3 : castCol st.frame w = .ok (S.rows.map v) := castCol_repr (by rw [hst.frame]; simp) h2
    have hlab : (S.sc.map lab ++ aggCols 0 as ++ [groupLabel st.counter e.text]) = S.sc.map lab ++ aggCols 0 (as ++ [⟨f1, e.text, v⟩]) := by
      rw [aggCols_append, hst.counter]
      simp [aggCols]
    have h4 : addColumn st.frame (S.rows.map v) (groupLabel st.counter e.text) =
        .ok ⟨S.sc.map lab ++ aggCols 0 (as ++ [⟨f1, e.text, v⟩]), S.rows.map (extRow (as ++ [⟨f1, e.text, v⟩]))⟩ := by
      unfold addColumn Tab.ofCol
      rw [hst.frame, List.map_map]
      have hnd : (S.sc.map lab ++ aggCols 0 as ++ [groupLabel st.counter e.text]).Nodup := by
        rw [hlab]
        exact nodup_ext (hS.noDots hn) hg hS.nodup _
      rw [show ((fun v => [v]) ∘ v) = fun row => [v row] from rfl, bind_ok hnd, hlab]
      simp [extRow, Function.comp_def]
    refine ⟨{ st1 with agg := false, codegen := false, frame := ⟨S.sc.map lab ++ aggCols 0 (as ++ [⟨f1, e.text, v⟩]), S.rows.map (extRow (as ++ [⟨f1, e.text, v⟩]))⟩ }, ?_, ?_⟩
    · simp only [visit]
      rw [if_neg hlast, if_neg (by simp [hst.group]), if_neg (by simp [hst.agg]), if_pos hst.codegen, hge, Res.ok_bind]
      rw [show visit sem e _ = Except.ok (some w, st1) from h1, Res.ok_bind]
      simp only [collectAgg, orError, Res.ok_bind]
      rw [show castCol _ w = Except.ok (S.rows.map v) from h3, Res.ok_bind]
      rw [show addColumn _ _ _ = Except.ok _ from h4, Res.ok_bind]
    · refine ⟨⟨hst.names.view, hst.names.has, hst.names.pfx, hst.names.rev, hst.names.aliases⟩, rfl, hst.group, rfl, rfl, hst.grouped, hst.groupName, ?_, ?_, ?_, hst.counterCg⟩
      · show st.columnName ++ [groupLabel st.counter e.text] = _
        rw [hst.columnName, aggCols_append, hst.counter]
        simp [aggCols]
      · show st.functionName ++ [f1] = _
        rw [hst.functionName]
        simp
      · show st.counter + 1 = _
        rw [hst.counter]
        simp
  | bin s l r ihl ihr =>
    intro f hb hl h as st hst bs hbs
    simp only [Spec.groupValue, Option.bind_eq_bind, Option.bind_eq_some_iff, Option.some.injEq] at h
    obtain ⟨f1, hf1, f2, hf2, rfl⟩ := h
    obtain ⟨b1, hb1⟩ := resolve_some sem S.sc keys l hf1
    obtain ⟨b2, hb2⟩ := resolve_some sem S.sc keys r hf2
    have : bs = b1 ++ b2 := by
      have := mapM_append_some hb1 hb2
      rw [show l.aggs ++ r.aggs = (SExpr.bin s l r).aggs from rfl, hbs] at this
      exact Option.some.inj this
    subst this
    obtain ⟨st1, h1, h2⟩ := ihl hb.2.1 hl.1 hf1 hst hb1
    obtain ⟨st2, h3, h4⟩ := ihr hb.2.2 hl.2 hf2 h2 hb2
    exact ⟨st2, by simp [visit, h1, h3, Res.ok_bind, binCode, h4.codegen], by simpa using h4⟩
  | between k k' x l r ihx ihl ihr =>
    intro f hb hl h as st hst bs hbs
    simp only [Spec.groupValue, Option.bind_eq_bind, Option.bind_eq_some_iff, Option.some.injEq] at h
    obtain ⟨f0, hf0, f1, hf1, f2, hf2, rfl⟩ := h
    obtain ⟨b0, hb0⟩ := resolve_some sem S.sc keys x hf0
    obtain ⟨b1, hb1⟩ := resolve_some sem S.sc keys l hf1
    obtain ⟨b2, hb2⟩ := resolve_some sem S.sc keys r hf2
    have : bs = b0 ++ (b1 ++ b2) := by
      have := mapM_append_some hb0 (mapM_append_some hb1 hb2)
      rw [show x.aggs ++ (l.aggs ++ r.aggs) = (SExpr.between k k' x l r).aggs from rfl, hbs] at this
      exact Option.some.inj this
    subst this
    obtain ⟨st0, h7, h8⟩ := ihx hb.1 hl.1 hf0 hst hb0
    obtain ⟨st1, h1, h2⟩ := ihl hb.2.1 hl.2.1 hf1 h8 hb1
    obtain ⟨st2, h3, h4⟩ := ihr hb.2.2 hl.2.2 hf2 h2 hb2
    exact ⟨st2, by simp [visit, h7, h1, h3, Res.ok_bind, betweenOpt, h4.codegen], by simpa using h4⟩
  | and k l r ihl ihr =>
    intro f hb hl h as st hst bs hbs
    simp only [Spec.groupValue, Option.bind_eq_bind, Option.bind_eq_some_iff, Option.some.injEq] at h
    obtain ⟨f1, hf1, f2, hf2, rfl⟩ := h
    obtain ⟨b1, hb1⟩ := resolve_some sem S.sc keys l hf1
    obtain ⟨b2, hb2⟩ := resolve_some sem S.sc keys r hf2
    have : bs = b1 ++ b2 := by
      have := mapM_append_some hb1 hb2
      rw [show l.aggs ++ r.aggs = (SExpr.and k l r).aggs from rfl, hbs] at this
      exact Option.some.inj this
    subst this
    obtain ⟨st1, h1, h2⟩ := ihl hb.1 hl.1 hf1 hst hb1
    obtain ⟨st2, h3, h4⟩ := ihr hb.2 hl.2 hf2 h2 hb2
    exact ⟨st2, by simp [visit, h1, h3, Res.ok_bind, binCode, h4.codegen], by simpa using h4⟩
  | or k l r ihl ihr =>
    intro f hb hl h as st hst bs hbs
    simp only [Spec.groupValue, Option.bind_eq_bind, Option.bind_eq_some_iff, Option.some.injEq] at h
    obtain ⟨f1, hf1, f2, hf2, rfl⟩ := h
    obtain ⟨b1, hb1⟩ := resolve_some sem S.sc keys l hf1
    obtain ⟨b2, hb2⟩ := resolve_some sem S.sc keys r hf2
    have : bs = b1 ++ b2 := by
      have := mapM_append_some hb1 hb2
      rw [show l.aggs ++ r.aggs = (SExpr.or k l r).aggs from rfl, hbs] at this
      exact Option.some.inj this
    subst this
    obtain ⟨st1, h1, h2⟩ := ihl hb.1 hl.1 hf1 hst hb1
    obtain ⟨st2, h3, h4⟩ := ihr hb.2 hl.2 hf2 h2 hb2
    exact ⟨st2, by simp [visit, h1, h3, Res.ok_bind, binCode, h4.codegen], by simpa using h4⟩

end
end Verif.Sql
