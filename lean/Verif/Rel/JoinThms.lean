/-
  Joins of frames (C71–C75).
-/
import Verif.Rel.JoinProps

namespace Verif.Rel
open Verif

/-! ## Specification -/

/-- `res` has one row per pair of rows in `pairs`, in this order: the columns of `lhs` with the values of its row `p.1`, then
    the columns of `rhs` with the values of its row `p.2`. Values are only claimed for columns of the types in `sup`. -/
structure JoinResult (sup : List VTC) (lhs rhs : Frame V) (pairs : List (Nat × Nat)) (res : Frame V) : Prop where
  rows : res.numRows = pairs.length
  schema : res.schema = lhs.schema ++ rhs.schema
  labels : res.labels = lhs.labels ++ rhs.labels
  lookup : res.LabelsOK
  wf : res.WF
  left : ∀ (k : Nat) p, pairs[k]? = some p → ∀ c vt, lhs.schema[c]? = some vt → vt ∈ sup → res.cell c k = lhs.cell c p.1
  right : ∀ (k : Nat) p, pairs[k]? = some p → ∀ c vt, rhs.schema[c]? = some vt → vt ∈ sup →
    res.cell (lhs.schema.length + c) k = rhs.cell c p.2

/-- The pairs of rows with equal keys, ordered by the row of `lhs`, then by the row of `rhs`. -/
def equalPairs [DecidableEq V] (lhs rhs : Frame V) (cl cr : Nat) : List (Nat × Nat) :=
  (List.range lhs.numRows).flatMap fun l =>
    ((List.range rhs.numRows).filter fun r => lhs.cell cl l = rhs.cell cr r).map fun r => (l, r)

/-- All pairs of rows, ordered by the row of `lhs`, then by the row of `rhs`. -/
def allPairs (lhs rhs : Frame V) : List (Nat × Nat) :=
  (List.range lhs.numRows).flatMap fun l => (List.range rhs.numRows).map fun r => (l, r)

/-! ## Proofs -/

theorem idx_ok {f : Frame V} (h : f.LabelsOK) {c : Nat} {l : String} (hc : f.labels[c]? = some l) : f.getColumnIdx l = .ok c :=
  (h l c).2 hc

theorem idx_throws {f : Frame V} (h : f.LabelsOK) {l : String} (hc : l ∉ f.labels) : Res.Throws (f.getColumnIdx l) := by
  unfold Frame.getColumnIdx
  cases hl : lookupLabel f.l2i l with
  | none => exact ⟨_, rfl⟩
  | some i =>
    exfalso
    exact hc (List.mem_of_getElem? ((map_of_labelsOK h l i).1 hl))

theorem type_ok {f : Frame V} {c : Nat} {vt : VTC} (h : f.schema[c]? = some vt) : f.getColumnType c = .ok vt := by
  obtain ⟨col, h1, h2⟩ := schema_get.1 h
  simp [Frame.getColumnType, h1, h2]

theorem getColumn_ok {f : Frame V} {c : Nat} {vt : VTC} (h : f.schema[c]? = some vt) : ∃ col, f.getColumn vt c = .ok col := by
  obtain ⟨col, h1, h2⟩ := schema_get.1 h
  exact ⟨col, by simp [Frame.getColumn, h1, h2]⟩

theorem getColumn_throws {f : Frame V} {c : Nat} {vt vt' : VTC} (h : f.schema[c]? = some vt') (hne : vt' ≠ vt) :
    Res.Throws (f.getColumn vt c) := by
  obtain ⟨col, h1, h2⟩ := schema_get.1 h
  exact ⟨_, by simp only [Frame.getColumn, h1]; rw [if_pos (by rw [h2]; exact hne)]⟩

theorem filled_result {sup : List VTC} {lhs rhs res0 : Frame V} {ps : List (Nat × Nat)} {st : Nat × Frame V} {n : Nat}
    (h : Filled sup lhs rhs res0 ps st) (hn : res0.numRows = n) (hs : res0.schema = lhs.schema ++ rhs.schema)
    (hlab : res0.labels = lhs.labels ++ rhs.labels) (hok : res0.LabelsOK) (hw : res0.WF) (hle : ps.length ≤ n)
    (hps : ∀ q ∈ ps, q.1 < lhs.numRows ∧ q.2 < rhs.numRows) :
    JoinResult sup lhs rhs ps (st.2.shrinkNumRows st.1) where
  rows := h.count
  schema := (Frame.sig_schema h.sig).trans hs
  labels := (Frame.sig_labels h.sig).trans hlab
  lookup := fun l i => Frame.sig_LabelsOK h.sig hok l i
  wf := by
    intro c hc
    have := Frame.sig_WF h.sig hw c hc
    rw [Frame.sig_numRows h.sig] at this
    show st.1 ≤ _
    rw [h.count]; omega
  left := by
    intro k p hk c vt hvt hsup
    have hlt := (List.getElem?_eq_some_iff.1 hk).1
    have hp := hps p (List.mem_of_getElem? hk)
    have hc : c < lhs.cols.length := by
      have := (List.getElem?_eq_some_iff.1 hvt).1; simpa [Frame.schema] using this
    rw [Frame.cell_of_lt hp.1, Frame.cell_of_lt (by show k < st.1; rw [h.count]; exact hlt)]
    show st.2.dat c k = _
    rw [h.cells k p hk c ⟨vt, hsup, by rw [schema_append_left hc, hvt]⟩]
    simp [rowVal, hc]
  right := by
    intro k p hk c vt hvt hsup
    have hlt := (List.getElem?_eq_some_iff.1 hk).1
    have hp := hps p (List.mem_of_getElem? hk)
    rw [show lhs.schema.length = lhs.cols.length by simp [Frame.schema]]
    rw [Frame.cell_of_lt hp.2, Frame.cell_of_lt (by show k < st.1; rw [h.count]; exact hlt)]
    show st.2.dat _ k = _
    rw [h.cells k p hk _ ⟨vt, hsup, by rw [schema_append_right, hvt]⟩]
    simp [rowVal]

theorem range_flatMap_succ (f : Nat → List α) (n : Nat) : (List.range (n + 1)).flatMap f = (List.range n).flatMap f ++ f n := by
  simp [List.range_succ]

theorem filled_nil (sup : List VTC) (lhs rhs res0 : Frame V) : Filled sup lhs rhs res0 [] (0, res0) :=
  ⟨rfl, rfl, by simp, fun _ _ _ => rfl⟩

theorem len_flatMap_le (f : Nat → List α) {i n : Nat} (h : i ≤ n) :
    ((List.range i).flatMap f).length ≤ ((List.range n).flatMap f).length := by
  induction n with
  | zero => have : i = 0 := by omega
            subst this; exact Nat.le_refl _
  | succ n ih =>
    by_cases hi : i = n + 1
    · subst hi; exact Nat.le_refl _
    · have := ih (by omega)
      rw [range_flatMap_succ]; simp only [List.length_append]; omega

theorem allPairs_length (lhs rhs : Frame V) : (allPairs lhs rhs).length = rhs.numRows * lhs.numRows := by
  unfold allPairs
  generalize lhs.numRows = n
  induction n with
  | zero => simp
  | succ n ih => rw [range_flatMap_succ, List.length_append, ih, Nat.mul_succ]; simp

theorem labels_len {lhs rhs : Frame V} : (lhs.labels ++ rhs.labels).length = (lhs.schema ++ rhs.schema).length := by
  simp [Frame.labels, Frame.schema]

theorem cartesian_filled {lhs rhs : Frame V} (junk : Nat → Nat → V) (hl : lhs.WF) (hr : rhs.WF)
    (hn : (lhs.labels ++ rhs.labels).Nodup) :
    ∃ res0 st, cartesian lhs rhs junk = .ok st.2 ∧ st.2.shrinkNumRows st.1 = st.2 ∧
      Filled [.si64, .f64] lhs rhs res0 (allPairs lhs rhs) st ∧ JoinResult [.si64, .f64] lhs rhs (allPairs lhs rhs) st.2 ∧
      ∀ c r, c < (lhs.schema ++ rhs.schema).length → res0.dat c r = some (junk c r) := by
  obtain ⟨res0, h1, h2, h3, h4, h5, h6, h7⟩ := create_ok (n := rhs.numRows * lhs.numRows) junk labels_len hn
  have hlen := allPairs_length lhs rhs
  have key := foldRange_ok (f := fun (st : Nat × Frame V) l => copyRows [.si64, .f64] (lhs.schema ++ rhs.schema) lhs rhs
      ((List.range rhs.numRows).map fun r => (l, r)) st)
    (fun i => Filled [.si64, .f64] lhs rhs res0 ((List.range i).flatMap fun l => (List.range rhs.numRows).map fun r => (l, r)))
    lhs.numRows (0, res0) (filled_nil ..) (by
      intro i hi st hst
      rw [range_flatMap_succ]
      have hle := len_flatMap_le (fun l => (List.range rhs.numRows).map fun r => (l, r)) (show i + 1 ≤ lhs.numRows from hi)
      rw [range_flatMap_succ, List.length_append] at hle
      refine copyRows_ok hl hr h6 h3 _ _ st hst ?_ ?_
      · intro q hq
        obtain ⟨r, hr', rfl⟩ := List.mem_map.1 hq
        exact ⟨hi, List.mem_range.1 hr'⟩
      · rw [h2, ← hlen]; exact hle)
  obtain ⟨st, hst, hF⟩ := key
  have hres := filled_result hF h2 h3 h4 h5 h6 (by have := allPairs_length lhs rhs; unfold allPairs at this; omega) (by
    intro q hq
    obtain ⟨a, ha, hb⟩ := List.mem_flatMap.1 hq
    obtain ⟨r, hr', rfl⟩ := List.mem_map.1 hb
    exact ⟨List.mem_range.1 ha, List.mem_range.1 hr'⟩)
  have hnr : st.2.numRows = st.1 := by
    rw [Frame.sig_numRows hF.sig, h2, hF.count, ← hlen]; rfl
  have hsh : st.2.shrinkNumRows st.1 = st.2 := by
    unfold Frame.shrinkNumRows; rw [← hnr]
  refine ⟨res0, st, ?_, hsh, hF, by rw [hsh] at hres; exact hres, h7⟩
  unfold cartesian
  dsimp only
  rw [h1, Res.ok_bind, hst]
  rfl

/-- **Cartesian product.** For frames whose labels are all distinct, the result has one row for each pair of a row of `lhs`
    and a row of `rhs`, ordered by the row of `lhs`, then by the row of `rhs`, and the values of the columns of the types
    `si64` and `f64` are those of the two rows. If a label occurs twice, it throws. -/
theorem C71_cartesian (lhs rhs : Frame V) (junk : Nat → Nat → V) (hl : lhs.WF) (hr : rhs.WF) :
    ((lhs.labels ++ rhs.labels).Nodup →
      ∃ res, cartesian lhs rhs junk = .ok res ∧ JoinResult [.si64, .f64] lhs rhs (allPairs lhs rhs) res) ∧
    (¬ (lhs.labels ++ rhs.labels).Nodup → Res.Throws (cartesian lhs rhs junk)) := by
  constructor
  · intro hn
    obtain ⟨_, st, h1, -, -, h2, -⟩ := cartesian_filled junk hl hr hn
    exact ⟨_, h1, h2⟩
  · intro hn
    unfold cartesian
    exact Res.throws_bind ((C69_create_labels _ _ (some (lhs.labels ++ rhs.labels)) junk (by rintro _ ⟨⟩; exact labels_len)).2.1 hn)

theorem not_supp {sup schema : List VTC} {c : Nat} {vt : VTC} (h : schema[c]? = some vt) (hn : vt ∉ sup) : ¬ Supp sup schema c := by
  rintro ⟨t, ht, hs⟩
  rw [h] at hs
  cases hs
  exact hn ht

/-! ### Hash table -/

theorem hashFind_push [DecidableEq V] (h : List (V × List Nat)) (k k' : V) (row : Nat) :
    hashFind (hashPush h k row) k' = if k' = k then some ((hashFind h k).getD [] ++ [row]) else hashFind h k' := by
  induction h with
  | nil =>
    unfold hashPush hashFind
    by_cases hk : k' = k
    · simp [hk]
    · simp [hk, Ne.symm hk]
  | cons e h ih =>
    obtain ⟨k0, rows⟩ := e
    unfold hashPush
    by_cases h0 : k0 = k
    · subst h0
      rw [if_pos rfl]
      by_cases hk : k' = k0
      · simp [hashFind, hk]
      · simp [hashFind, hk, Ne.symm hk]
    · rw [if_neg h0]
      by_cases hk0 : k0 = k'
      · subst hk0
        simp [hashFind, h0]
      · have e1 : ∀ t : List (V × List Nat), hashFind ((k0, rows) :: t) k' = hashFind t k' := by
          intro t; simp [hashFind, hk0]
        have e2 : hashFind ((k0, rows) :: h) k = hashFind h k := by simp [hashFind, h0]
        rw [e1, e1, e2, ih]

/-- What the hash table holds for a key. -/
def HashOK [DecidableEq V] (f : Frame V) (c n : Nat) (h : List (V × List Nat)) : Prop :=
  ∀ k, (hashFind h k).getD [] = (List.range n).filter fun r => some k = f.dat c r

theorem buildHash_ok [DecidableEq V] {rhs : Frame V} (hw : rhs.WF) (hok : rhs.LabelsOK) {c : Nat} {vt : VTC} {l : String}
    (hl : rhs.labels[c]? = some l) (ht : rhs.schema[c]? = some vt) :
    Res.Ok (buildHashRhs rhs vt l) (HashOK rhs c rhs.numRows) := by
  unfold buildHashRhs
  rw [idx_ok hok hl, Res.ok_bind]
  obtain ⟨col, hcol⟩ := getColumn_ok ht
  rw [hcol, Res.ok_bind]
  refine foldRange_ok (fun i => HashOK rhs c i) rhs.numRows [] (by intro k; rfl) ?_
  intro i hi h hh
  obtain ⟨v, hv, hg⟩ := getCell_ok hw ht hi
  rw [hg, Res.ok_bind]
  refine ⟨_, rfl, fun k => ?_⟩
  rw [hashFind_push, List.range_succ, List.filter_append]
  by_cases hk : k = v
  · subst hk
    rw [if_pos rfl, Option.getD_some, hh k]
    simp [hv]
  · rw [if_neg hk, hh k]
    simp [hv, hk]

/-- The pairs for one row of `lhs`. -/
theorem filter_dat_eq [DecidableEq V] {lhs rhs : Frame V} {cl cr l : Nat} (hl : l < lhs.numRows) {v : V} (hv : lhs.dat cl l = some v) :
    ((List.range rhs.numRows).filter fun r => decide (lhs.cell cl l = rhs.cell cr r)) =
      (List.range rhs.numRows).filter fun r => some v = rhs.dat cr r := by
  apply List.filter_congr
  intro r hr
  rw [Frame.cell_of_lt hl, Frame.cell_of_lt (List.mem_range.1 hr), hv]

theorem probe_step [DecidableEq V] {lhs rhs : Frame V} {cl cr : Nat} (hl : lhs.WF) {vt : VTC}
    (ht : lhs.schema[cl]? = some vt) {h : List (V × List Nat)} (hh : HashOK rhs cr rhs.numRows h) {l : Nat} (hi : l < lhs.numRows)
    (schema : List VTC) (st : Nat × Frame V) :
    (do
      let k ← lhs.getCell vt cl l
      match hashFind h k with
      | none => .ok st
      | some rows => copyRows innerTypes schema lhs rhs (rows.map fun r => (l, r)) st : Res (Nat × Frame V)) =
    copyRows innerTypes schema lhs rhs
      (((List.range rhs.numRows).filter fun r => lhs.cell cl l = rhs.cell cr r).map fun r => (l, r)) st := by
  obtain ⟨v, hv, hg⟩ := getCell_ok hl ht hi
  rw [hg, Res.ok_bind]
  have := hh v
  rw [filter_dat_eq hi hv, ← this]
  cases hashFind h v with
  | none => rfl
  | some rows => rfl

/-- Conditions under which an inner join is possible: all labels differ, and both key columns exist and have the same type,
    `str` or `si64`. -/
structure InnerOK (lhs rhs : Frame V) (lhsOn rhsOn : String) (cl cr : Nat) (vt : VTC) : Prop where
  nodup : (lhs.labels ++ rhs.labels).Nodup
  left : lhs.labels[cl]? = some lhsOn
  right : rhs.labels[cr]? = some rhsOn
  tleft : lhs.schema[cl]? = some vt
  tright : rhs.schema[cr]? = some vt
  key : vt = .str ∨ vt = .si64

theorem mem_equalPairs [DecidableEq V] {lhs rhs : Frame V} {cl cr : Nat} {q : Nat × Nat} (h : q ∈ equalPairs lhs rhs cl cr) :
    q.1 < lhs.numRows ∧ q.2 < rhs.numRows := by
  obtain ⟨a, ha, hb⟩ := List.mem_flatMap.1 h
  obtain ⟨r, hr', rfl⟩ := List.mem_map.1 hb
  exact ⟨List.mem_range.1 ha, List.mem_range.1 (List.mem_filter.1 hr').1⟩

theorem equalPairs_le [DecidableEq V] (lhs rhs : Frame V) (cl cr : Nat) :
    (equalPairs lhs rhs cl cr).length ≤ rhs.numRows * lhs.numRows := by
  unfold equalPairs
  generalize hn : lhs.numRows = n
  clear hn
  induction n with
  | zero => simp
  | succ n ih =>
    rw [range_flatMap_succ, List.length_append, Nat.mul_succ]
    have : (((List.range rhs.numRows).filter fun r => lhs.cell cl n = rhs.cell cr r).map fun r => (n, r)).length ≤ rhs.numRows := by
      rw [List.length_map]
      refine Nat.le_trans (List.length_filter_le _ _) (by simp)
    omega

theorem inner_filled [DecidableEq V] {lhs rhs : Frame V} {lhsOn rhsOn : String} {hint : Option Nat} (junk : Nat → Nat → V)
    (hl : lhs.WF) (hr : rhs.WF) (hlo : lhs.LabelsOK) (hro : rhs.LabelsOK) {cl cr : Nat} {vt : VTC}
    (hj : InnerOK lhs rhs lhsOn rhsOn cl cr vt) :
    ((∀ n, hint = some n → (equalPairs lhs rhs cl cr).length ≤ n) →
      ∃ res0 st, innerJoin lhs rhs lhsOn rhsOn hint junk = .ok (st.2.shrinkNumRows st.1) ∧
        JoinResult innerTypes lhs rhs (equalPairs lhs rhs cl cr) (st.2.shrinkNumRows st.1) ∧
        Filled innerTypes lhs rhs res0 (equalPairs lhs rhs cl cr) st ∧
        ∀ c r, c < (lhs.schema ++ rhs.schema).length → res0.dat c r = some (junk c r)) ∧
    (∀ n, hint = some n → n < (equalPairs lhs rhs cl cr).length → Res.Throws (innerJoin lhs rhs lhsOn rhsOn hint junk)) := by
  obtain ⟨res0, h1, h2, h3, h4, h5, h6, h70⟩ := create_ok (n := hint.getD (rhs.numRows * lhs.numRows)) junk labels_len hj.nodup
  have hvt : (if vt = .str then VTC.str else .si64) = vt := by rcases hj.key with rfl | rfl <;> rfl
  obtain ⟨h, hh, hH⟩ := buildHash_ok hr hro hj.right hj.tright
  obtain ⟨col, hcol⟩ := getColumn_ok hj.tleft
  have hclt : cl < lhs.cols.length := by
    have := (List.getElem?_eq_some_iff.1 hj.tleft).1; simpa [Frame.schema] using this
  have hS : ∃ c, Supp innerTypes (lhs.schema ++ rhs.schema) c :=
    ⟨cl, vt, by rcases hj.key with rfl | rfl <;> decide, by rw [schema_append_left hclt]; exact hj.tleft⟩
  have hpre : innerJoin lhs rhs lhsOn rhsOn hint junk = (do
      let st ← (List.range lhs.numRows).foldlM (init := (0, res0)) (fun st l => do
        let k ← lhs.getCell vt cl l
        match hashFind h k with
        | none => .ok st
        | some rows => copyRows innerTypes (lhs.schema ++ rhs.schema) lhs rhs (rows.map fun r => (l, r)) st)
      .ok (st.2.shrinkNumRows st.1)) := by
    unfold innerJoin
    rw [idx_ok hlo hj.left, Res.ok_bind, type_ok hj.tleft, Res.ok_bind]
    dsimp only
    rw [h1, Res.ok_bind, hvt, hh, Res.ok_bind]
    unfold probeHashLhs
    rw [idx_ok hlo hj.left, Res.ok_bind, hcol, Res.ok_bind]
    rfl
  have hmem : ∀ i, i < lhs.numRows → ∀ q ∈ ((List.range rhs.numRows).filter fun r => decide (lhs.cell cl i = rhs.cell cr r)).map (fun r => (i, r)),
      q.1 < lhs.numRows ∧ q.2 < rhs.numRows := by
    intro i hi q hq
    obtain ⟨r, hr', rfl⟩ := List.mem_map.1 hq
    exact ⟨hi, List.mem_range.1 (List.mem_filter.1 hr').1⟩
  constructor
  · intro hhint
    have hle : (equalPairs lhs rhs cl cr).length ≤ res0.numRows := by
      rw [h2]
      cases hint with
      | none => exact equalPairs_le ..
      | some n => exact hhint n rfl
    have key := foldRange_ok (f := fun (st : Nat × Frame V) l => (do
        let k ← lhs.getCell vt cl l
        match hashFind h k with
        | none => .ok st
        | some rows => copyRows innerTypes (lhs.schema ++ rhs.schema) lhs rhs (rows.map fun r => (l, r)) st : Res (Nat × Frame V)))
      (fun i => Filled innerTypes lhs rhs res0 ((List.range i).flatMap fun l =>
        ((List.range rhs.numRows).filter fun r => lhs.cell cl l = rhs.cell cr r).map fun r => (l, r)))
      lhs.numRows (0, res0) (filled_nil ..) (by
        intro i hi st hst
        rw [probe_step hl hj.tleft hH hi, range_flatMap_succ]
        refine copyRows_ok hl hr h6 h3 _ _ st hst (hmem i hi) ?_
        have h7 := len_flatMap_le (fun l => ((List.range rhs.numRows).filter fun r => decide (lhs.cell cl l = rhs.cell cr r)).map fun r => (l, r)) (show i + 1 ≤ lhs.numRows from hi)
        rw [range_flatMap_succ, List.length_append] at h7
        exact Nat.le_trans h7 hle)
    obtain ⟨st, hst, hF⟩ := key
    refine ⟨res0, st, ?_, filled_result hF rfl h3 h4 h5 h6 hle fun q hq => mem_equalPairs hq, hF, h70⟩
    rw [hpre, hst]; rfl
  · rintro n rfl hlt
    rw [hpre]
    apply Res.throws_bind
    have gen : ∀ m, m ≤ lhs.numRows →
        let ps := (List.range m).flatMap fun l => ((List.range rhs.numRows).filter fun r => decide (lhs.cell cl l = rhs.cell cr r)).map fun r => (l, r)
        let run := (List.range m).foldlM (init := (0, res0)) (fun (st : Nat × Frame V) l => (do
          let k ← lhs.getCell vt cl l
          match hashFind h k with
          | none => .ok st
          | some rows => copyRows innerTypes (lhs.schema ++ rhs.schema) lhs rhs (rows.map fun r => (l, r)) st : Res (Nat × Frame V)))
        (ps.length ≤ n → Res.Ok run (Filled innerTypes lhs rhs res0 ps)) ∧ (n < ps.length → Res.Throws run) := by
      intro m
      induction m with
      | zero => intro _; exact ⟨fun _ => ⟨_, rfl, filled_nil ..⟩, fun h => by simp at h⟩
      | succ m ih =>
        intro hm
        obtain ⟨ih1, ih2⟩ := ih (by omega)
        dsimp only
        rw [range_flatMap_succ, List.range_succ, List.foldlM_append, List.length_append]
        have hn2 : res0.numRows = n := h2
        constructor
        · intro hle
          refine (ih1 (by omega)).bind fun st hst => ?_
          rw [List.foldlM_cons, probe_step hl hj.tleft hH (by omega)]
          refine (copyRows_ok hl hr h6 h3 _ _ st hst (hmem m (by omega)) (by omega)).bind fun a ha => ⟨a, rfl, ha⟩
        · intro hlt
          by_cases hc : ((List.range m).flatMap fun l => ((List.range rhs.numRows).filter fun r => decide (lhs.cell cl l = rhs.cell cr r)).map fun r => (l, r)).length ≤ n
          · refine Res.throws_bind_of_ok (ih1 hc) fun st hst => ?_
            rw [List.foldlM_cons, probe_step hl hj.tleft hH (by omega)]
            exact Res.throws_bind (copyRows_full hl hr h6 h3 hS _ _ st hst (hmem m (by omega)) (by omega) (by omega))
          · exact Res.throws_bind (ih2 (by omega))
    exact (gen lhs.numRows (Nat.le_refl _)).2 hlt

/-- **Inner join.** If all labels differ and both key columns exist and have the same type, `str` or `si64`, then with no or
    a sufficient row-count hint the result has one row for each pair of rows with equal keys, ordered by the row of `lhs`,
    then by the row of `rhs`, with the values of the columns of types `str`, `si64` and `f64` taken from the two rows. With
    a hint that is too small it throws. -/
theorem C72_inner_join [DecidableEq V] (lhs rhs : Frame V) (lhsOn rhsOn : String) (hint : Option Nat) (junk : Nat → Nat → V)
    (hl : lhs.WF) (hr : rhs.WF) (hlo : lhs.LabelsOK) (hro : rhs.LabelsOK) (cl cr : Nat) (vt : VTC)
    (hj : InnerOK lhs rhs lhsOn rhsOn cl cr vt) :
    ((∀ n, hint = some n → (equalPairs lhs rhs cl cr).length ≤ n) →
      ∃ res, innerJoin lhs rhs lhsOn rhsOn hint junk = .ok res ∧
        JoinResult [.str, .si64, .f64] lhs rhs (equalPairs lhs rhs cl cr) res) ∧
    (∀ n, hint = some n → n < (equalPairs lhs rhs cl cr).length → Res.Throws (innerJoin lhs rhs lhsOn rhsOn hint junk)) := by
  refine ⟨fun h => ?_, (inner_filled junk hl hr hlo hro hj).2⟩
  obtain ⟨_, st, h1, h2, -⟩ := (inner_filled junk hl hr hlo hro hj).1 h
  exact ⟨_, h1, h2⟩

/-- An inner join that is not possible throws: a label occurs twice, a key column does not exist, or the key columns have
    different types or a type other than `str` and `si64`. -/
theorem C72_inner_join_throws [DecidableEq V] (lhs rhs : Frame V) (lhsOn rhsOn : String) (hint : Option Nat)
    (junk : Nat → Nat → V) (hr : rhs.WF) (hlo : lhs.LabelsOK) (hro : rhs.LabelsOK)
    (hj : ¬ ∃ cl cr vt, InnerOK lhs rhs lhsOn rhsOn cl cr vt) : Res.Throws (innerJoin lhs rhs lhsOn rhsOn hint junk) := by
  unfold innerJoin
  by_cases hL : lhsOn ∈ lhs.labels
  · obtain ⟨cl, hcl⟩ := List.mem_iff_getElem?.1 hL
    obtain ⟨tl, htl⟩ : ∃ t, lhs.schema[cl]? = some t := by
      have := (List.getElem?_eq_some_iff.1 hcl).1
      simp only [Frame.labels, List.length_map] at this
      exact ⟨lhs.cols[cl].vt, by simp [Frame.schema, this]⟩
    rw [idx_ok hlo hcl, Res.ok_bind, type_ok htl, Res.ok_bind]
    dsimp only
    by_cases hn : (lhs.labels ++ rhs.labels).Nodup
    · obtain ⟨res0, h1, -⟩ := create_ok (n := hint.getD (rhs.numRows * lhs.numRows)) junk labels_len hn
      rw [h1, Res.ok_bind]
      generalize hvt : (if tl = VTC.str then VTC.str else .si64) = vt
      by_cases hR : rhsOn ∈ rhs.labels
      · obtain ⟨cr, hcr⟩ := List.mem_iff_getElem?.1 hR
        obtain ⟨tr, htr⟩ : ∃ t, rhs.schema[cr]? = some t := by
          have := (List.getElem?_eq_some_iff.1 hcr).1
          simp only [Frame.labels, List.length_map] at this
          exact ⟨rhs.cols[cr].vt, by simp [Frame.schema, this]⟩
        by_cases htv : tr = vt
        · subst htv
          refine Res.throws_bind_of_ok (buildHash_ok hr hro hcr htr) fun h _ => Res.throws_bind ?_
          unfold probeHashLhs
          rw [idx_ok hlo hcl, Res.ok_bind]
          refine Res.throws_bind (getColumn_throws htl ?_)
          intro he
          subst he
          refine hj ⟨cl, cr, tl, ⟨hn, hcl, hcr, htl, htr, ?_⟩⟩
          by_cases ht : tl = .str
          · exact .inl ht
          · rw [if_neg ht] at hvt; exact .inr hvt.symm
        · refine Res.throws_bind ?_
          unfold buildHashRhs
          rw [idx_ok hro hcr, Res.ok_bind]
          exact Res.throws_bind (getColumn_throws htr htv)
      · refine Res.throws_bind ?_
        unfold buildHashRhs
        exact Res.throws_bind (idx_throws hro hR)
    · exact Res.throws_bind ((C69_create_labels _ _ (some (lhs.labels ++ rhs.labels)) junk (by rintro _ ⟨⟩; exact labels_len)).2.1 hn)
  · exact Res.throws_bind (idx_throws hlo hL)

/-- Full property: every column of a Cartesian product has the values of the input rows. The code violates this for columns
    of other types than `si64` and `f64`: the result column keeps the uninitialized contents of its new array. -/
theorem C74_cartesian_other_types_partial (lhs rhs : Frame V) (junk : Nat → Nat → V) (hl : lhs.WF) (hr : rhs.WF)
    (hn : (lhs.labels ++ rhs.labels).Nodup) (c : Nat) (vt : VTC) (hc : (lhs.schema ++ rhs.schema)[c]? = some vt)
    (hvt : vt ≠ .si64 ∧ vt ≠ .f64) :
    ∃ res, cartesian lhs rhs junk = .ok res ∧ ∀ k, k < res.numRows → res.cell c k = some (junk c k) := by
  obtain ⟨res0, st, h1, h0, h2, -, h3⟩ := cartesian_filled junk hl hr hn
  refine ⟨_, h1, fun k hk => ?_⟩
  rw [Frame.cell_of_lt hk, h2.rest c k (not_supp hc (by simp [hvt.1, hvt.2])), h3 c k (List.getElem?_eq_some_iff.1 hc).1]

/-- Full property: every column of an inner join has the values of the input rows. The code violates this for columns of other
    types than `str`, `si64` and `f64`: the result column keeps the uninitialized contents of its new array. -/
theorem C74_inner_join_other_types_partial [DecidableEq V] (lhs rhs : Frame V) (lhsOn rhsOn : String) (junk : Nat → Nat → V)
    (hl : lhs.WF) (hr : rhs.WF) (hlo : lhs.LabelsOK) (hro : rhs.LabelsOK) (cl cr : Nat) (kt : VTC)
    (hj : InnerOK lhs rhs lhsOn rhsOn cl cr kt) (c : Nat) (vt : VTC) (hc : (lhs.schema ++ rhs.schema)[c]? = some vt)
    (hvt : vt ≠ .str ∧ vt ≠ .si64 ∧ vt ≠ .f64) :
    ∃ res, innerJoin lhs rhs lhsOn rhsOn none junk = .ok res ∧ ∀ k, k < res.numRows → res.cell c k = some (junk c k) := by
  obtain ⟨res0, st, h1, h0, h2, h3⟩ := (inner_filled (hint := none) junk hl hr hlo hro hj).1 (by simp)
  refine ⟨_, h1, fun k hk => ?_⟩
  rw [Frame.cell_of_lt hk]
  show st.2.dat c k = _
  rw [h2.rest c k (not_supp hc (by simp [innerTypes, hvt.1, hvt.2.1, hvt.2.2])), h3 c k (List.getElem?_eq_some_iff.1 hc).1]

end Verif.Rel
