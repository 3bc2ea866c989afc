/-
  Names: labels of columns, and the FROM clause.
-/
import Verif.Sql.Model
import Verif.Basic.Post

namespace Verif.Sql
open Verif Verif.Rel Verif.Ir
variable {V : Type}

/-- The label of a column in the scope of a query. -/
def lab (c : String × String) : String := c.1 ++ "." ++ c.2

theorem setPrefix_eq (p l : String) : Labels.setPrefix p l = lab (p, unq l) := by
  unfold Labels.setPrefix lab unq
  by_cases h : '.' ∈ l.toList
  · rw [if_pos h, if_pos h]
    apply String.toList_injective
    simp only [String.toList_append, String.toList_ofList, List.append_assoc]
    congr 1
    generalize l.toList = cs at h ⊢
    induction cs with
    | nil => cases h
    | cons c cs ih =>
      by_cases hc : c = '.'
      · subst hc; rfl
      · have : '.' ∈ cs := by
          rcases List.mem_cons.1 h with h | h
          · exact absurd h.symm hc
          · exact h
        simpa [List.dropWhile_cons, hc] using ih this
  · rw [if_neg h, if_neg h]

theorem split_first {d : Char} : ∀ {a b x y : List Char}, d ∉ a → d ∉ b → a ++ d :: x = b ++ d :: y → a = b ∧ x = y
  | [], [], _, _, _, _, h => ⟨rfl, by simpa using h⟩
  | [], c :: b, _, _, _, hb, h => by
    simp only [List.nil_append, List.cons_append, List.cons.injEq] at h
    exact absurd (by simp [h.1]) hb
  | c :: a, [], _, _, ha, _, h => by
    simp only [List.nil_append, List.cons_append, List.cons.injEq] at h
    exact absurd (by simp [h.1]) ha
  | c :: a, e :: b, x, y, ha, hb, h => by
    simp only [List.cons_append, List.cons.injEq] at h
    have := split_first (a := a) (b := b) (fun hh => ha (by simp [hh])) (fun hh => hb (by simp [hh])) h.2
    exact ⟨by rw [h.1, this.1], this.2⟩

theorem lab_inj {c d : String × String} (hc : '.' ∉ c.1.toList) (hd : '.' ∉ d.1.toList) (h : lab c = lab d) : c = d := by
  have h' := congrArg String.toList h
  simp only [lab, String.toList_append, List.append_assoc] at h'
  obtain ⟨h1, h2⟩ := split_first hc hd h'
  exact Prod.ext (String.toList_injective h1) (String.toList_injective h2)

/-- All correlation names of a scope are names. -/
def NoDots (sc : List (String × String)) : Prop := ∀ c ∈ sc, '.' ∉ c.1.toList

theorem nodup_lab {sc : List (String × String)} (h : NoDots sc) (hn : sc.Nodup) : (sc.map lab).Nodup := by
  rw [List.nodup_map_iff_inj_on hn]
  exact fun a ha b hb hab => lab_inj (h a ha) (h b hb) hab

theorem idxOf?_lab {sc : List (String × String)} (h : NoDots sc) {c : String × String} (hc : '.' ∉ c.1.toList) :
    (sc.map lab).idxOf? (lab c) = sc.idxOf? c := by
  induction sc with
  | nil => rfl
  | cons d sc ih =>
    rw [List.map_cons, List.idxOf?_cons, List.idxOf?_cons, ih fun x hx => h x (by simp [hx])]
    by_cases hd : d = c
    · simp [hd]
    · have : lab d ≠ lab c := fun hh => hd (lab_inj (h d (by simp)) hc hh)
      simp [hd, this]

theorem mem_of_idxOf? {α : Type} [BEq α] [LawfulBEq α] {l : List α} {a : α} {i : Nat} (h : l.idxOf? a = some i) : l[i]? = some a := by
  induction l generalizing i with
  | nil => simp at h
  | cons b l ih =>
    rw [List.idxOf?_cons] at h
    by_cases hb : b = a
    · simp only [hb, beq_self_eq_true, if_true, Option.some.injEq] at h
      simp [← h, hb]
    · simp only [beq_iff_eq, hb, if_false, Option.map_eq_some_iff] at h
      obtain ⟨j, hj, rfl⟩ := h
      simpa using ih hj

theorem idxOf?_append {α : Type} [BEq α] [LawfulBEq α] {l l' : List α} {a : α} {i : Nat} (h : l.idxOf? a = some i) : (l ++ l').idxOf? a = some i := by
  induction l generalizing i with
  | nil => simp at h
  | cons b l ih =>
    rw [List.cons_append, List.idxOf?_cons] at *
    by_cases hb : b = a
    · simpa [hb] using h
    · simp only [beq_iff_eq, hb, if_false, Option.map_eq_some_iff] at h ⊢
      obtain ⟨j, hj, rfl⟩ := h
      exact ⟨j, ih hj, rfl⟩

/-- What `pos` finds. -/
theorem pos_some {sc : List (String × String)} {i : Ident} {k : Nat} (h : Spec.pos sc i = some k) :
    ∃ f, i.frame = some f ∧ i.col ≠ "*" ∧ sc.idxOf? (f, i.col) = some k ∧ (f, i.col) ∈ sc ∧ k < sc.length := by
  unfold Spec.pos at h
  cases hf : i.frame with
  | none => rw [hf] at h; cases h
  | some f =>
    rw [hf] at h
    simp only at h
    by_cases hc : i.col = "*"
    · simp [hc] at h
    · rw [if_neg hc] at h
      have := mem_of_idxOf? h
      obtain ⟨hk, hx⟩ := List.getElem?_eq_some_iff.1 this
      exact ⟨f, rfl, hc, h, hx ▸ List.getElem_mem hk, hk⟩

theorem afterDot_lab {c : String × String} (hc : '.' ∉ c.1.toList) : afterDot (lab c) = c.2.toList := by
  have h1 : (lab c).toList = c.1.toList ++ '.' :: c.2.toList := by simp [lab]
  unfold afterDot
  rw [h1, if_pos (by simp), List.dropWhile_append_of_pos]
  · simp
  · intro a ha
    simpa using fun h : a = '.' => hc (h ▸ ha)

theorem beforeDot_lab {c : String × String} (hc : '.' ∉ c.1.toList) : beforeDot (lab c) = c.1.toList := by
  have h1 : (lab c).toList = c.1.toList ++ '.' :: c.2.toList := by simp [lab]
  unfold beforeDot
  rw [h1, List.takeWhile_append_of_pos]
  · simp
  · intro a ha
    simpa using fun h : a = '.' => hc (h ▸ ha)

theorem wild_lab {c : String × String} (hc : '.' ∉ c.1.toList) : wild (lab c) = decide (c.2 = "*") := by
  unfold wild
  rw [afterDot_lab hc]
  by_cases h : c.2 = "*"
  · simp [h]
  · have : c.2.toList ≠ ['*'] := fun hh => h (String.toList_injective hh)
    simp [h, this]

/-! ### References to tables -/

/-- The tables `rs` of the FROM clause, in order, are named in such a way that all references are clear to `SQLVisitor`. -/
structure NamesOK (rs : List Ref) : Prop where
  /-- Names are names: not empty, without dots. -/
  names : ∀ r ∈ rs, r.corr ≠ "" ∧ '.' ∉ r.corr.toList
  /-- No two tables with the same name; no name of a table that has been given an alias before (C240); no alias that is the name of a
  table used later (C240). -/
  ok : rs.Pairwise fun r s => r.corr ≠ s.corr ∧ (r.aka.isSome → r.var ≠ s.corr) ∧ r.aka ≠ some s.var

/-- The state of the visitor when the references `rs` have been visited. -/
structure Names (views : String → Option (Tab V)) (rs : List Ref) (st : St V) : Prop where
  view : st.view = views
  has : ∀ r ∈ rs, hasMLIR st r.corr = true ∧ st.framePrefix r.corr = some r.corr
  pfx : ∀ n, (st.framePrefix n).isSome → ∃ r ∈ rs, n = r.corr ∨ (r.aka.isSome ∧ n = r.var)
  rev : ∀ n, (st.reverse n).isSome → ∃ r ∈ rs, n = r.corr
  aliases : ∀ n t, st.aliases n = some t → views n = some t ∨ ∃ r ∈ rs, r.aka = some n

/-- The state after the references; the rest of the state is unchanged. -/
def SameRest (st st' : St V) : Prop :=
  st' = { st with aliases := st'.aliases, framePrefix := st'.framePrefix, reverse := st'.reverse }

theorem SameRest.trans {a b c : St V} (h : SameRest a b) (h' : SameRest b c) : SameRest a c := by
  unfold SameRest at *
  rw [h', h]

theorem hasMLIR_upd {st : St V} {n m : String} {t : Tab V} (h : hasMLIR st n = true) :
    hasMLIR { st with aliases := upd st.aliases m t } n = true := by
  simp only [hasMLIR, upd, Bool.or_eq_true] at *
  rcases h with h | h
  · exact .inl h
  · right
    split
    · rfl
    · exact h

theorem visitRef_ok {views : String → Option (Tab V)} {rs : List Ref} {st : St V} (hst : Names views rs st) {r : Ref}
    (hr : ∀ s ∈ rs, s.corr ≠ r.corr ∧ (s.aka.isSome → s.var ≠ r.corr) ∧ s.aka ≠ some r.var) {t : Tab V} (ht : views r.var = some t)
    (hd : '.' ∉ r.corr.toList) (hn : (t.labels.map unq).Nodup) :
    ∃ st', visitRef st r = .ok (⟨t.labels.map fun l => lab (r.corr, unq l), t.rows⟩, st') ∧ Names views (rs ++ [r]) st' ∧ SameRest st st' := by
  have hf : fetchMLIR st r.var = .ok t := by
    unfold fetchMLIR
    cases ha : st.aliases r.var with
    | some t' =>
      rcases hst.aliases _ _ ha with h | ⟨s, hs, h⟩
      · rw [ht] at h; cases h; rfl
      · exact absurd h (hr s hs).2.2
    | none => rw [hst.view, ht]
  have hp : st.framePrefix r.corr = none := by
    cases h : st.framePrefix r.corr with
    | none => rfl
    | some p =>
      obtain ⟨s, hs, h' | ⟨h1, h2⟩⟩ := hst.pfx r.corr (by simp [h])
      · exact absurd h'.symm (hr s hs).1
      · exact absurd h2.symm ((hr s hs).2.1 h1)
  have hv : st.reverse r.corr = none := by
    cases h : st.reverse r.corr with
    | none => rfl
    | some p =>
      obtain ⟨s, hs, h'⟩ := hst.rev r.corr (by simp [h])
      exact absurd h'.symm (hr s hs).1
  have hl : t.setPrefix r.corr = .ok ⟨t.labels.map fun l => lab (r.corr, unq l), t.rows⟩ := by
    unfold Tab.setPrefix Tab.checked
    have h1 : t.labels.map (Labels.setPrefix r.corr) = t.labels.map fun l => lab (r.corr, unq l) :=
      List.map_congr_left fun l _ => setPrefix_eq _ _
    rw [h1, if_pos]
    have := nodup_lab (sc := t.labels.map fun l => (r.corr, unq l)) (by
        intro c hc
        obtain ⟨l, _, rfl⟩ := List.mem_map.1 hc
        exact hd) (by
        have h2 : (t.labels.map fun l => (r.corr, unq l)) = (t.labels.map unq).map fun c => (r.corr, c) := by rw [List.map_map]; rfl
        rw [h2]
        exact hn.map fun a b h => by simpa using h)
    simpa [List.map_map, Function.comp_def] using this
  unfold visitRef
  rw [hf, Res.ok_bind]
  cases ha : r.aka with
  | none =>
    have hc : r.corr = r.var := by simp [Ref.corr, ha]
    rw [hc] at hp hv hl hd
    simp only [refAlias, ha, Res.ok_bind, setFramePrefix, hp, hv, Option.isSome_none, Option.isNone_none, Bool.false_eq_true, if_false, false_and, hl]
    rw [hc]
    refine ⟨_, rfl, ⟨hst.view, ?_, ?_, ?_, ?_⟩, rfl⟩
    · intro s hs
      rcases List.mem_append.1 hs with hs | hs
      · refine ⟨hasMLIR_upd (hst.has s hs).1, ?_⟩
        have : s.corr ≠ r.var := hc ▸ (hr s hs).1
        simpa [upd, this] using (hst.has s hs).2
      · obtain rfl := List.mem_singleton.1 hs
        rw [hc]
        exact ⟨by simp [hasMLIR, upd], by simp [upd]⟩
    · intro n hn
      by_cases hnr : n = r.var
      · exact ⟨r, by simp, .inl (hc ▸ hnr)⟩
      · simp only [upd, hnr, if_false] at hn
        obtain ⟨s, hs, h⟩ := hst.pfx n hn
        exact ⟨s, by simp [hs], h⟩
    · intro n hn
      by_cases hnr : n = r.var
      · exact ⟨r, by simp, hc ▸ hnr⟩
      · simp only [upd, hnr, if_false] at hn
        obtain ⟨s, hs, h⟩ := hst.rev n hn
        exact ⟨s, by simp [hs], h⟩
    · intro n t' hn
      by_cases hnr : n = r.var
      · simp only [upd, hnr, if_true, Option.some.injEq] at hn
        exact .inl (by rw [hnr, ht, hn])
      · simp only [upd, hnr, if_false] at hn
        rcases hst.aliases n t' hn with h | ⟨s, hs, h⟩
        · exact .inl h
        · exact .inr ⟨s, by simp [hs], h⟩
  | some a =>
    have hc : r.corr = a := by simp [Ref.corr, ha]
    rw [hc] at hp hv hl hd
    simp only [refAlias, ha, Res.ok_bind, setFramePrefix, hp, hv, Option.isSome_none, Option.isSome_some, Option.isNone_some, Bool.false_eq_true, if_false, false_and, hl]
    rw [hc]
    have hal : ∀ n t', upd (upd st.aliases r.var t) a t n = some t' → views n = some t' ∨ ∃ s ∈ rs ++ [r], s.aka = some n := by
      intro n t' hn
      by_cases hna : n = a
      · exact .inr ⟨r, by simp, by rw [hna, ha]⟩
      · simp only [upd, hna, if_false] at hn
        by_cases hnr : n = r.var
        · simp only [hnr, if_true, Option.some.injEq] at hn
          exact .inl (by rw [hnr, ht, hn])
        · simp only [hnr, if_false] at hn
          rcases hst.aliases n t' hn with h | ⟨s, hs, h⟩
          · exact .inl h
          · exact .inr ⟨s, by simp [hs], h⟩
    have hrev : ∀ n, (upd st.reverse a a n).isSome → ∃ s ∈ rs ++ [r], n = s.corr := by
      intro n hn
      by_cases hna : n = a
      · exact ⟨r, by simp, hc ▸ hna⟩
      · simp only [upd, hna, if_false] at hn
        obtain ⟨s, hs, h⟩ := hst.rev n hn
        exact ⟨s, by simp [hs], h⟩
    have hhas : ∀ s ∈ rs ++ [r], ((st.view s.corr).isSome || (upd (upd st.aliases r.var t) a t s.corr).isSome) = true ∧ upd st.framePrefix a a s.corr = some s.corr := by
      intro s hs
      rcases List.mem_append.1 hs with hs | hs
      · have hne : s.corr ≠ a := hc ▸ (hr s hs).1
        refine ⟨hasMLIR_upd (st := { st with aliases := upd st.aliases r.var t }) (hasMLIR_upd (hst.has s hs).1), ?_⟩
        simpa [upd, hne] using (hst.has s hs).2
      · obtain rfl := List.mem_singleton.1 hs
        rw [hc]
        exact ⟨by simp [upd], by simp [upd]⟩
    have hpfx : ∀ n, (upd st.framePrefix a a n).isSome → ∃ s ∈ rs ++ [r], n = s.corr ∨ (s.aka.isSome ∧ n = s.var) := by
      intro n hn
      by_cases hna : n = a
      · exact ⟨r, by simp, .inl (hc ▸ hna)⟩
      · simp only [upd, hna, if_false] at hn
        obtain ⟨s, hs, h⟩ := hst.pfx n hn
        exact ⟨s, by simp [hs], h⟩
    by_cases hpv : (upd st.framePrefix a a r.var).isSome
    · simp only [hpv, if_true, Res.ok_bind]
      exact ⟨_, rfl, ⟨hst.view, hhas, hpfx, hrev, hal⟩, rfl⟩
    · have h1 : ¬ ((upd st.reverse a a a).isSome = true ∧ true = false) := by simp
      simp only [hpv, Bool.false_eq_true, if_false, if_true, if_neg h1]
      refine ⟨_, rfl, ⟨hst.view, ?_, ?_, hrev, hal⟩, rfl⟩
      · intro s hs
        refine ⟨(hhas s hs).1, ?_⟩
        have : s.corr ≠ r.var := by
          intro h
          apply hpv
          rw [← h, (hhas s hs).2]
          rfl
        simpa [upd, this] using (hhas s hs).2
      · intro n hn
        by_cases hnr : n = r.var
        · exact ⟨r, by simp, .inr ⟨by simp [ha], hnr⟩⟩
        · have h : (upd st.framePrefix a a n).isSome := by simpa [upd, hnr] using hn
          exact hpfx n h

/-- A new visitor. -/
theorem names_init (views : String → Option (Tab V)) : Names views [] { St.init views with codegen := true } :=
  ⟨rfl, by simp, by simp [St.init], by simp [St.init], by simp [St.init]⟩

/-- `f.c` is translated to its label. -/
theorem visitIdent_ok {views : String → Option (Tab V)} {rs : List Ref} {st : St V} (hst : Names views rs st) {i : Ident} {r : Ref} (hr : r ∈ rs)
    (hi : i.frame = some r.corr) : visitIdent st i = .ok (lab (r.corr, i.col)) := by
  unfold visitIdent
  rw [hi]
  simp only [(hst.has r hr).1, (hst.has r hr).2, if_true]
  rfl

end Verif.Sql
