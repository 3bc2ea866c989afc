/-
  Expressions and queries without grouping.
-/
import Verif.Sql.From

namespace Verif.Sql
open Verif Verif.Rel Verif.Ir
variable {V : Type}

/-- No comparison is spelled `!=` (C241). -/
def SExpr.NoBang : SExpr V → Prop
  | .lit _ _ | .star | .ident _ => True
  | .paren e | .agg _ e => e.NoBang
  | .bin s l r => s ≠ .bang ∧ l.NoBang ∧ r.NoBang
  | .between _ _ x l r => x.NoBang ∧ l.NoBang ∧ r.NoBang
  | .and _ l r | .or _ l r => l.NoBang ∧ r.NoBang

/-- The value of the expression is a matrix, not a scalar. -/
def SExpr.isCol : SExpr V → Bool
  | .lit _ _ => false
  | .star | .ident _ | .agg _ _ | .and _ _ _ | .or _ _ _ => true
  | .paren e => e.isCol
  | .bin _ l r => l.isCol || r.isCol
  | .between _ _ x l r => x.isCol || l.isCol || r.isCol

/-- A value represents the function `f` on the list `xs`. -/
def Repr {α : Type} (xs : List α) (m : Bool) (v : Val V) (f : α → V) : Prop :=
  if m then v = .mat (xs.map f) else ∃ c, v = .sca c ∧ f = fun _ => c

section
variable [Inhabited V] [DecidableEq V]

theorem ew_repr {α : Type} {xs : List α} {m n : Bool} {v w : Val V} {f g : α → V} (sem : Sem V) (op : BinOp) (hv : Repr xs m v f) (hw : Repr xs n w g) :
    ∃ u, ew sem op v w = .ok u ∧ Repr xs (m || n) u fun x => sem.bin op (f x) (g x) := by
  cases m <;> cases n <;> simp only [Repr, Bool.false_eq_true, if_false, if_true] at hv hw
  · obtain ⟨c, rfl, rfl⟩ := hv
    obtain ⟨d, rfl, rfl⟩ := hw
    exact ⟨_, rfl, ⟨_, rfl, rfl⟩⟩
  · obtain ⟨c, rfl, rfl⟩ := hv
    subst hw
    exact ⟨_, rfl, by simp [Repr, Function.comp_def]⟩
  · obtain ⟨d, rfl, rfl⟩ := hw
    subst hv
    exact ⟨_, rfl, by simp [Repr, Function.comp_def]⟩
  · subst hv hw
    refine ⟨.mat (xs.map fun x => sem.bin op (f x) (g x)), ?_, rfl⟩
    simp [ew, List.zipWith_map, List.zipWith_self]

theorem castCol_repr {α : Type} {xs : List α} {m : Bool} {v : Val V} {f : α → V} {t : Tab V} (ht : t.rows.length = xs.length) (hv : Repr xs m v f) :
    castCol t v = .ok (xs.map f) := by
  cases m <;> simp only [Repr, Bool.false_eq_true, if_false, if_true] at hv
  · obtain ⟨c, rfl, rfl⟩ := hv
    simp [castCol, ht, List.map_const']
  · subst hv
    rfl

theorem bool_repr {α : Type} {xs : List α} {m n : Bool} {v w : Val V} {f g : α → V} (sem : Sem V) (op : BinOp) {t : Tab V} (ht : t.rows.length = xs.length)
    (hv : Repr xs m v f) (hw : Repr xs n w g) :
    ∃ u, boolCode sem op t v w = .ok u ∧ Repr xs true u fun x => sem.bin op (f x) (g x) := by
  unfold boolCode
  rw [castCol_repr ht hv, castCol_repr ht hw, Res.ok_bind, Res.ok_bind]
  exact ew_repr sem op (m := true) (n := true) rfl rfl

theorem between_repr {α : Type} {xs : List α} {m n o : Bool} {u v w : Val V} {e f g : α → V} (sem : Sem V) (hu : Repr xs m u e) (hv : Repr xs n v f)
    (hw : Repr xs o w g) :
    ∃ z, betweenCode sem u v w = .ok z ∧ Repr xs (m || n || o) z fun row => sem.bin .or (sem.bin .and (sem.bin .ge (e row) (f row)) (sem.bin .le (e row) (g row)))
      (sem.bin .and (sem.bin .ge (e row) (g row)) (sem.bin .le (e row) (f row))) := by
  obtain ⟨a1, h1, r1⟩ := ew_repr sem .ge hu hv
  obtain ⟨a2, h2, r2⟩ := ew_repr sem .le hu hw
  obtain ⟨a, h3, r3⟩ := ew_repr sem .and r1 r2
  obtain ⟨b1, h4, r4⟩ := ew_repr sem .ge hu hw
  obtain ⟨b2, h5, r5⟩ := ew_repr sem .le hu hv
  obtain ⟨b, h6, r6⟩ := ew_repr sem .and r4 r5
  obtain ⟨z, h7, r7⟩ := ew_repr sem .or r3 r6
  refine ⟨z, ?_, ?_⟩
  · simp only [betweenCode, h1, h2, h3, h4, h5, h6, h7, Res.ok_bind]
  · have : (m || n || o) = (m || n || (m || o) || (m || o || (m || n))) := by cases m <;> cases n <;> cases o <;> rfl
    rw [this]
    exact r7

theorem symOp_ok {s : BSym} (h : s ≠ .bang) : symOp s = .ok s.op := by cases s <;> first | rfl | exact absurd rfl h

/-- Extraction of a column that is not `f.*`. -/
theorem extractMat_ok {t : Tab V} {l : String} {k : Nat} (hw : wild l = false) (h : t.labels.idxOf? l = some k) :
    extractMat t l = .ok (t.rows.map (cell k)) := by
  unfold extractMat Tab.extract Tab.idx
  rw [hw, h]
  simp [Tab.sub, Res.ok_bind, Function.comp_def, cell]

/-- The frame of the visitor holds the rows of the scope, possibly with more columns at the end. -/
structure EvalOK (views : String → Option (Tab V)) (rs : List Ref) (S : Scope V) (ls : List String) (ext : List V → List V) (st : St V) : Prop where
  names : Names views rs st
  frame : st.frame = ⟨S.sc.map lab ++ ls, S.rows.map ext⟩
  ext : ∀ row ∈ S.rows, ∀ k < S.sc.length, cell k (ext row) = cell k row
  codegen : st.codegen = true
  allowed : st.group = false ∨ st.agg = true

/-- **Expressions.** -/
theorem value_ok {views : String → Option (Tab V)} {rs : List Ref} {S : Scope V} {ls : List String} {ext : List V → List V} {st : St V}
    (hst : EvalOK views rs S ls ext st) (hn : NamesOK rs) (hS : ScopeOK rs S) (sem : Sem V) :
    ∀ (e : SExpr V) (f : List V → V), e.NoBang → Spec.value sem S.sc e = some f → ∃ v, visit sem e st = .ok (some v, st) ∧ Repr S.rows e.isCol v f := by
  have hlen : st.frame.rows.length = S.rows.length := by rw [hst.frame]; simp
  intro e
  induction e with
  | lit v t =>
    intro f _ h
    cases h
    exact ⟨.sca v, by simp [visit, hst.codegen], ⟨v, rfl, rfl⟩⟩
  | star => intro f _ h; cases h
  | ident i =>
    intro f _ h
    simp only [Spec.value, Option.map_eq_some_iff] at h
    obtain ⟨k, hk, rfl⟩ := h
    obtain ⟨c, hc, h1, h2, h3, h4, h5, h6, h7, h8, h9⟩ := pos_ident hst.names hn hS (fun _ h => h) hk
    have h10 : ¬ i.text.length < 2 := by
      rw [h5, ← String.length_toList]
      have h11 : c.1.toList ≠ [] := fun h => h7 (String.toList_injective h)
      have h12 := List.length_pos_iff.2 h11
      have : (lab c).toList = c.1.toList ++ '.' :: c.2.toList := by simp [lab]
      rw [this]
      simp only [List.length_append, List.length_cons]
      omega
    have h11 : identAllowed st i.text = true := by
      rcases hst.allowed with h | h <;> simp [identAllowed, h]
    have h12 : extractMat st.frame (lab c) = .ok (S.rows.map (cell k)) := by
      rw [extractMat_ok (t := st.frame) (l := lab c) (k := k) (by rw [wild_lab h6]; simpa using h3)
        (by rw [hst.frame]; exact idxOf?_append h8), hst.frame]
      simp only [List.map_map]
      congr 1
      exact List.map_congr_left fun row hrow => hst.ext row hrow k h9
    have h13 : i.col ≠ "*" := h2 ▸ h3
    refine ⟨.mat (S.rows.map (cell k)), ?_, rfl⟩
    simp only [visit, visitIdentExpr, h11, hst.codegen, Bool.true_eq_false, if_false, if_neg h10, if_neg h13, h1, h12, Res.ok_bind]
  | paren e ih =>
    intro f hb h
    obtain ⟨v, h1, h2⟩ := ih f hb h
    exact ⟨v, by simp [visit, h1, Res.ok_bind, hst.codegen], h2⟩
  | agg g e ih => intro f _ h; cases h
  | bin s l r ihl ihr =>
    intro f hb h
    simp only [Spec.value, Option.bind_eq_bind, Option.bind_eq_some_iff, Option.some.injEq] at h
    obtain ⟨f1, hf1, f2, hf2, rfl⟩ := h
    obtain ⟨v, h1, h2⟩ := ihl f1 hb.2.1 hf1
    obtain ⟨w, h3, h4⟩ := ihr f2 hb.2.2 hf2
    obtain ⟨u, h5, h6⟩ := ew_repr sem s.op h2 h4
    exact ⟨u, by simp [visit, h1, h3, Res.ok_bind, hst.codegen, binCode, orError, symOp_ok hb.1, h5], h6⟩
  | between k k' x l r ihx ihl ihr =>
    intro f hb h
    simp only [Spec.value, Option.bind_eq_bind, Option.bind_eq_some_iff, Option.some.injEq] at h
    obtain ⟨f0, hf0, f1, hf1, f2, hf2, rfl⟩ := h
    obtain ⟨o, h7, h8⟩ := ihx f0 hb.1 hf0
    obtain ⟨v, h1, h2⟩ := ihl f1 hb.2.1 hf1
    obtain ⟨w, h3, h4⟩ := ihr f2 hb.2.2 hf2
    obtain ⟨u, h5, h6⟩ := between_repr sem h8 h2 h4
    exact ⟨u, by simp [visit, h7, h1, h3, Res.ok_bind, hst.codegen, betweenOpt, orError, h5], h6⟩
  | and k l r ihl ihr =>
    intro f hb h
    simp only [Spec.value, Option.bind_eq_bind, Option.bind_eq_some_iff, Option.some.injEq] at h
    obtain ⟨f1, hf1, f2, hf2, rfl⟩ := h
    obtain ⟨v, h1, h2⟩ := ihl f1 hb.1 hf1
    obtain ⟨w, h3, h4⟩ := ihr f2 hb.2 hf2
    obtain ⟨u, h5, h6⟩ := bool_repr sem .and hlen h2 h4
    exact ⟨u, by simp [visit, h1, h3, Res.ok_bind, hst.codegen, binCode, orError, h5], h6⟩
  | or k l r ihl ihr =>
    intro f hb h
    simp only [Spec.value, Option.bind_eq_bind, Option.bind_eq_some_iff, Option.some.injEq] at h
    obtain ⟨f1, hf1, f2, hf2, rfl⟩ := h
    obtain ⟨v, h1, h2⟩ := ihl f1 hb.1 hf1
    obtain ⟨w, h3, h4⟩ := ihr f2 hb.2 hf2
    obtain ⟨u, h5, h6⟩ := bool_repr sem .or hlen h2 h4
    exact ⟨u, by simp [visit, h1, h3, Res.ok_bind, hst.codegen, binCode, orError, h5], h6⟩

/-! ### Clauses -/

theorem filterRow_ok (sem : Sem V) (t : Tab V) {α : Type} {xs : List α} {g : α → List V} (ht : t.rows = xs.map g) (f : α → V) :
    t.filterRow sem (xs.map f) = .ok { t with rows := (xs.filter fun x => sem.truthy (f x)).map g } := by
  unfold Tab.filterRow
  rw [if_neg (by simp [ht]), ht]
  congr 2
  induction xs generalizing t with
  | nil => rfl
  | cons x xs ih =>
    simp only [List.map_cons, List.zip_cons_cons, List.filter_cons]
    have := ih (t := ⟨t.labels, xs.map g⟩) rfl
    by_cases h : sem.truthy (f x) = true
    · simp only [h, if_true, List.map_cons, this]
    · simp only [h, if_false, this, Bool.false_eq_true]

theorem sortBy_map {α β : Type} (g : α → β) (p : α → α → Bool) (q : β → β → Bool) (h : ∀ a b, q (g a) (g b) = p a b) (xs : List α) :
    sortBy q (xs.map g) = (sortBy p xs).map g := by
  have hi : ∀ (a : α) (l : List α), insertBy q (g a) (l.map g) = (insertBy p a l).map g := by
    intro a l
    induction l with
    | nil => rfl
    | cons b l ih =>
      simp only [List.map_cons, insertBy, h, ih]
      split <;> rfl
  induction xs with
  | nil => rfl
  | cons a l ih => rw [List.map_cons, sortBy, sortBy, ih, hi]

theorem insertBy_mem {α : Type} (p : α → α → Bool) (a x : α) (l : List α) : x ∈ insertBy p a l ↔ x = a ∨ x ∈ l := by
  induction l with
  | nil => simp [insertBy]
  | cons b l ih =>
    simp only [insertBy]
    split
    · simp only [List.mem_cons, ih]; tauto
    · simp only [List.mem_cons]

theorem sortBy_mem {α : Type} (p : α → α → Bool) (x : α) (l : List α) : x ∈ sortBy p l ↔ x ∈ l := by
  induction l with
  | nil => rfl
  | cons a l ih => rw [sortBy, insertBy_mem, ih, List.mem_cons]

theorem sortBy_none {α : Type} (l : List α) : sortBy (fun _ _ => false) l = l := by
  induction l with
  | nil => rfl
  | cons a l ih =>
    rw [sortBy, ih]
    cases l <;> rfl

/-- WHERE -/
theorem where_ok {views : String → Option (Tab V)} {rs : List Ref} {S T : Scope V} {st : St V} (hst : EvalOK views rs S [] id st) (hn : NamesOK rs)
    (hS : ScopeOK rs S) (sem : Sem V) (w : Option (SExpr V)) (hb : ∀ e ∈ w, e.NoBang) (h : Spec.filter sem S w = some T) :
    visitWhere sem st w = .ok { st with frame := ⟨T.sc.map lab, T.rows⟩ } ∧ T.sc = S.sc ∧ ScopeOK rs T := by
  have hf : st.frame = ⟨S.sc.map lab, S.rows⟩ := by simpa using hst.frame
  cases w with
  | none =>
    cases h
    exact ⟨by rw [visitWhere, ← hf], rfl, hS⟩
  | some e =>
    simp only [Spec.filter, Option.bind_eq_bind, Option.bind_eq_some_iff, Option.some.injEq] at h
    obtain ⟨f, hf', rfl⟩ := h
    obtain ⟨v, h1, h2⟩ := value_ok hst hn hS sem e f (hb e rfl) hf'
    refine ⟨?_, rfl, ⟨hS.mem, hS.nodup, fun row hrow => hS.rows row (List.mem_filter.1 hrow).1⟩⟩
    simp only [visitWhere, h1, Res.ok_bind, filterBy, orError, castCol_repr (t := st.frame) (by rw [hf]) h2]
    rw [filterRow_ok sem st.frame (xs := S.rows) (g := id) (by rw [hf]; simp) f, Res.ok_bind]
    simp [hf]

/-- ORDER BY -/
theorem orderIdxs_ok {views : String → Option (Tab V)} {rs : List Ref} {S : Scope V} {st : St V} (hst : EvalOK views rs S [] id st) (hn : NamesOK rs)
    (hS : ScopeOK rs S) : ∀ (ks : List (Ident × Bool)) (is : List (Nat × Bool)), Spec.orderCols S.sc ks = some is → orderIdxs st ks = .ok is := by
  have hf : st.frame = ⟨S.sc.map lab, S.rows⟩ := by simpa using hst.frame
  intro ks
  induction ks with
  | nil => intro is h; cases h; rfl
  | cons k ks ih =>
    intro is h
    unfold Spec.orderCols at h
    rw [List.mapM_cons] at h
    simp only [Option.bind_eq_bind, Option.pure_def, Option.bind_eq_some_iff, Option.some.injEq, Option.map_eq_some_iff] at h
    obtain ⟨_, ⟨i, hi, rfl⟩, is', hx, rfl⟩ := h
    obtain ⟨c, hc, h1, h2, h3, h4, h5, h6, h7, h8, h9⟩ := pos_ident hst.names hn hS (fun _ h => h) hi
    simp only [orderIdxs, h1, Res.ok_bind, Tab.idx, hf, h8, ih is' hx]

theorem order_ok {views : String → Option (Tab V)} {rs : List Ref} {S : Scope V} {st : St V} (hst : EvalOK views rs S [] id st) (hn : NamesOK rs)
    (hS : ScopeOK rs S) (sem : Sem V) (ks : List (Ident × Bool)) (is : List (Nat × Bool)) (h : Spec.orderCols S.sc ks = some is) :
    visitOrderBy sem st ks = .ok { st with frame := ⟨S.sc.map lab, sortBy (rowBefore sem.lt is) S.rows⟩ } := by
  have hf : st.frame = ⟨S.sc.map lab, S.rows⟩ := by simpa using hst.frame
  cases ks with
  | nil =>
    cases h
    have : rowBefore sem.lt ([] : List (Nat × Bool)) = fun _ _ : List V => false := by funext a b; rfl
    rw [visitOrderBy, List.reverse_nil, this, sortBy_none, ← hf]
  | cons k ks =>
    simp only [visitOrderBy, orderIdxs_ok hst hn hS _ _ h, Res.ok_bind, Tab.order, hf]

/-! ### SELECT -/

/-- The frame of `f.*`. -/
theorem extract_star {S : Scope V} (hd : NoDots S.sc) {f : String} (hf : '.' ∉ f.toList) :
    Tab.extract ⟨S.sc.map lab, S.rows⟩ (lab (f, "*")) = .ok ⟨(S.sc.filter fun c => c.1 = f).map lab,
      S.rows.map fun row => ((List.range S.sc.length).filter fun i => (S.sc.map (·.1))[i]? = some f).map fun i => cell i row⟩ := by
  unfold Tab.extract
  rw [wild_lab hf]
  simp only [decide_true, if_true, Tab.sub, List.length_map]
  have h1 : ((List.range S.sc.length).filter fun i => decide (beforeDot ((S.sc.map lab).getD i "") = beforeDot (lab (f, "*")))) =
      (List.range S.sc.length).filter fun i => decide ((S.sc.map (·.1))[i]? = some f) := by
    apply List.filter_congr
    intro i hi
    have hi := List.mem_range.1 hi
    rw [beforeDot_lab hf]
    have h2 : (S.sc.map lab).getD i "" = lab S.sc[i] := by simp [List.getD_eq_getElem?_getD, List.getElem?_map, List.getElem?_eq_getElem hi]
    rw [h2, beforeDot_lab (hd _ (List.getElem_mem hi))]
    have h3 : (S.sc.map (·.1))[i]? = some S.sc[i].1 := by simp [List.getElem?_map, List.getElem?_eq_getElem hi]
    rw [h3]
    have : S.sc[i].1.toList = f.toList ↔ S.sc[i].1 = f := ⟨fun h => String.toList_injective h, fun h => by rw [h]⟩
    simp [this]
  rw [h1]
  congr 2
  have h4 : ∀ (l : List (String × String)) (p : String → Bool), ((List.range l.length).filter fun i => decide (((l.map (·.1))[i]?.map p) = some true)).map
      (fun i => (l.map lab).getD i "") = (l.filter fun c => p c.1).map lab := by
    intro l p
    induction l with
    | nil => rfl
    | cons c l ih =>
      rw [List.length_cons, List.range_succ_eq_map, List.filter_cons]
      simp only [List.map_cons, List.getElem?_cons_zero, Option.map_some, Option.some.injEq, List.filter_map, List.map_map, Function.comp_def,
        List.getElem?_cons_succ, List.getD_cons_succ, List.filter_cons]
      by_cases hp : p c.1 = true
      · simp only [hp, decide_true, if_true, List.map_cons, List.getD_cons_zero]
        rw [← ih]
        simp [List.map_map, Function.comp_def]
      · simp only [hp, decide_false, if_false, Bool.false_eq_true]
        rw [← ih]
        simp [List.map_map, Function.comp_def]
  rw [← h4 S.sc fun x => decide (x = f)]
  congr 1
  apply List.filter_congr
  intro i hi
  have hi := List.mem_range.1 hi
  simp [List.getElem?_map, List.getElem?_eq_getElem hi]

theorem item_ok {views : String → Option (Tab V)} {rs : List Ref} {S : Scope V} {st : St V} (hst : EvalOK views rs S [] id st) (hn : NamesOK rs)
    (hS : ScopeOK rs S) (hg : st.group = false) (ha : st.agg = false) (sem : Sem V) (it : Item V) (hb : it.e.NoBang) {c : List String × (List V → List V)}
    (h : Spec.item sem S.sc it = some c) : visitItem sem st it = .ok (⟨c.1, S.rows.map c.2⟩, st) := by
  have hf : st.frame = ⟨S.sc.map lab, S.rows⟩ := by simpa using hst.frame
  unfold Spec.item at h
  split at h
  · rename_i he
    cases h
    simp only [visitItem, he, visit, visitStar, hst.codegen, hg, ha, Bool.false_eq_true, Bool.true_eq_false, false_and, and_false, if_false, Res.ok_bind, orError, hf, List.map_id]
    rfl
  · rename_i f he
    split at h
    · rename_i hm
      cases h
      obtain ⟨d, hd, rfl⟩ := List.mem_map.1 hm
      obtain ⟨r, hr, hdr⟩ := hS.mem d hd
      have hdots : '.' ∉ d.1.toList := by rw [hdr]; exact (hn.names r hr).2
      have hid : visitIdent st ⟨some d.1, "*"⟩ = .ok (lab (d.1, "*")) := by
        rw [hdr]; exact visitIdent_ok hst.names hr (i := ⟨some r.corr, "*"⟩) rfl
      have htl : (Ident.mk (some d.1) "*").text.toList = d.1.toList ++ ['.', '*'] := by simp [Ident.text]
      have h10 : ¬ (Ident.mk (some d.1) "*").text.length < 2 := by
        rw [← String.length_toList, htl]
        simp
      have h11 : identAllowed st (Ident.mk (some d.1) "*").text = true := by simp [identAllowed, hg]
      simp only [visitItem, he, visit, visitIdentExpr, h11, hst.codegen, Bool.true_eq_false, if_false, if_neg h10, if_true, hid, Res.ok_bind, hf,
        extract_star (hS.noDots hn) hdots, orError]
      rfl
    · cases h
  · rename_i e h1 h2
    obtain ⟨v, hv, rfl⟩ := Option.map_eq_some_iff.1 h
    obtain ⟨w, h3, h4⟩ := value_ok hst hn hS sem it.e v hb hv
    have h5 : castCol st.frame w = .ok (S.rows.map v) := castCol_repr (by rw [hf]) h4
    simp only [visitItem, h3, Res.ok_bind, orError]
    cases w with
    | frame t =>
      exfalso
      simp only [castCol] at h5
      cases h5
    | sca c => simp only [h5, Res.ok_bind, Tab.ofCol, List.map_map, Function.comp_def]
    | mat vs => simp only [h5, Res.ok_bind, Tab.ofCol, List.map_map, Function.comp_def]

theorem bind_ok {α : Type} {xs : List α} {la lb : List String} {f g : α → List V} (hn : (la ++ lb).Nodup) :
    Tab.bind (⟨la, xs.map f⟩ : Tab V) ⟨lb, xs.map g⟩ = .ok ⟨la ++ lb, xs.map fun x => f x ++ g x⟩ := by
  simp [Tab.bind, Tab.checked, hn, List.zipWith_map, List.zipWith_self]

theorem items_ok {views : String → Option (Tab V)} {rs : List Ref} {S : Scope V} {st : St V} (hst : EvalOK views rs S [] id st) (hn : NamesOK rs)
    (hS : ScopeOK rs S) (hg : st.group = false) (ha : st.agg = false) (sem : Sem V) : ∀ (its : List (Item V)), (∀ it ∈ its, it.e.NoBang) →
    ∀ (cols : List (List String × (List V → List V))), its.mapM (Spec.item sem S.sc) = some cols → ∀ (ls : List String) (g : List V → List V),
    (ls ++ cols.flatMap (·.1)).Nodup →
    visitItems sem st ⟨ls, S.rows.map g⟩ its = .ok (⟨ls ++ cols.flatMap (·.1), S.rows.map fun row => g row ++ cols.flatMap fun c => c.2 row⟩, st) := by
  intro its
  induction its with
  | nil =>
    intro _ cols h ls g _
    cases h
    simp [visitItems]
  | cons it its ih =>
    intro hb cols h ls g hnd
    rw [List.mapM_cons] at h
    simp only [Option.bind_eq_bind, Option.pure_def, Option.bind_eq_some_iff, Option.some.injEq] at h
    obtain ⟨c, hc, cols', hcols, rfl⟩ := h
    rw [List.flatMap_cons, ← List.append_assoc] at hnd
    simp only [visitItems, item_ok hst hn hS hg ha sem it (hb it (by simp)) hc, Res.ok_bind, bind_ok (List.nodup_append.1 hnd).1]
    rw [ih (fun x hx => hb x (by simp [hx])) cols' hcols _ _ hnd]
    simp [List.append_assoc]

end
end Verif.Sql
