/-
  Semi join and group join of frames (C76–C78).
-/
import Verif.Rel.ThetaThms

namespace Verif.Rel
open Verif

/-! ## Specification -/

/-- The rows of `lhs` whose key occurs in `rhs`, in order. -/
def semiRows [DecidableEq V] (lhs rhs : Frame V) (cl cr : Nat) : List Nat :=
  (List.range lhs.numRows).filter fun l => (List.range rhs.numRows).any fun r => lhs.cell cl l = rhs.cell cr r

/-- Result of a semi join: the keys and the numbers of the rows in the list. -/
structure SemiResult (lhs : Frame V) (cl : Nat) (lhsOn : String) (rows : List Nat) (res : Frame V) (tid : Nat × Buf Nat) : Prop where
  numRows : res.numRows = rows.length
  schema : res.schema = [.si64]
  labels : res.labels = [lhsOn]
  lookup : res.LabelsOK
  wf : res.WF
  keys : ∀ (k : Nat) l, rows[k]? = some l → res.cell 0 k = lhs.cell cl l
  tids : tid.1 = rows.length ∧ tid.1 ≤ tid.2.size ∧ ∀ (k : Nat) l, rows[k]? = some l → tid.2.data k = l

/-- The first row of `lhs` for each key that occurs in `rhs`. -/
def firstRows [DecidableEq V] (lhs rhs : Frame V) (cl cr : Nat) : List Nat :=
  (semiRows lhs rhs cl cr).filter fun l => (List.range l).all fun l' => lhs.cell cl l' ≠ lhs.cell cl l

/-- The sum of column `ca` over the rows of `rhs` with the key of row `l` of `lhs`, in row order. -/
def joinSum [DecidableEq V] (ops : Ops V) (vt : VTC) (lhs rhs : Frame V) (cl cr ca l : Nat) : V :=
  (((List.range rhs.numRows).filter fun r => lhs.cell cl l = rhs.cell cr r).filterMap fun r => rhs.cell ca r).foldl (ops.add vt) (ops.zero vt)

/-! ## Proofs -/

theorem dat_of_col {f : Frame V} {c : Nat} {col : FCol V} (h : f.cols[c]? = some col) (r : Nat) : f.dat c r = some (col.data.data r) := by
  simp [Frame.dat, h]

theorem cell_of_col {f : Frame V} {c : Nat} {col : FCol V} (h : f.cols[c]? = some col) {r : Nat} (hr : r < f.numRows) :
    f.cell c r = some (col.data.data r) := by rw [Frame.cell_of_lt hr, dat_of_col h]

theorem getCell_col {f : Frame V} (hf : f.WF) {c r : Nat} {col : FCol V} (h : f.cols[c]? = some col) (hr : r < f.numRows) :
    f.getCell col.vt c r = .ok (col.data.data r) := by
  obtain ⟨v, hv, hg⟩ := getCell_ok hf (schema_get.2 ⟨col, h, rfl⟩) hr
  rw [dat_of_col h] at hv
  cases hv
  exact hg

theorem create_ok_none {n : Nat} {schema : List VTC} (junk : Nat → Nat → V) :
    ∃ f, Frame.create n schema none junk = .ok f ∧ f.numRows = n ∧ f.schema = schema ∧ f.WF := by
  obtain ⟨f, h1, h2, h3, h4, h5, h6, -⟩ := create_ok (n := n) (schema := schema) (ls := (List.range schema.length).map defaultLabel) junk
    (by simp) (List.Nodup.map (fun a b h => defaultLabel_inj h) List.nodup_range)
  exact ⟨f, h1, h2, h3, h6⟩

theorem foldList_ok {σ α : Type _} {f : σ → α → Res σ} (Inv : List α → σ → Prop) (l : List α) (s : σ) (h0 : Inv [] s)
    (hs : ∀ pre a post, l = pre ++ a :: post → ∀ s, Inv pre s → Res.Ok (f s a) (Inv (pre ++ [a]))) :
    Res.Ok (l.foldlM f s) (Inv l) := by
  suffices ∀ (post pre : List α) (s : σ), l = pre ++ post → Inv pre s → Res.Ok (post.foldlM f s) (Inv l) from this l [] s rfl h0
  intro post
  induction post with
  | nil => intro pre s hl h; simp at hl; subst hl; exact ⟨s, rfl, h⟩
  | cons a post ih =>
    intro pre s hl h
    rw [List.foldlM_cons]
    exact (hs pre a post hl s h).bind fun b hb => ih (pre ++ [a]) b (by simpa using hl) hb

/-- State of the probe phase of the semi join. -/
structure SemiInv (lhs : Frame V) (cl : Nat) (f0 : Frame V) (sz : Nat) (rows : List Nat) (st : Nat × Frame V × Buf Nat) : Prop where
  count : st.1 = rows.length
  sig : st.2.1.sig = f0.sig
  size : st.2.2.size = sz
  keys : ∀ (k : Nat) l, rows[k]? = some l → st.2.1.dat 0 k = lhs.dat cl l
  tids : ∀ (k : Nat) l, rows[k]? = some l → st.2.2.data k = l

/-- One row of the probe phase. -/
def semiStep [DecidableEq V] (lhs : Frame V) (cl : Nat) (hs : List V) (tn : Nat) (st : Nat × Frame V × Buf Nat) (i : Nat) :
    Res (Nat × Frame V × Buf Nat) := do
  let v ← lhs.getCell .si64 cl i
  if v ∈ hs then do
    let r ← st.2.1.setCell .si64 0 st.1 v
    if tn ≤ st.1 then .error (.throw "rowIdx is out of bounds")
    else do
      let t ← st.2.2.write st.1 i
      .ok (st.1 + 1, r, t)
  else .ok st

theorem semi_hs [DecidableEq V] {rhs : Frame V} (hr : rhs.WF) {cr : Nat} (ht : rhs.schema[cr]? = some .si64) :
    Res.Ok ((List.range rhs.numRows).foldlM (init := []) fun (hs : List V) i => do
      let v ← rhs.getCell .si64 cr i
      .ok (v :: hs)) fun hs => ∀ v, v ∈ hs ↔ ∃ r, r < rhs.numRows ∧ rhs.dat cr r = some v := by
  refine foldRange_ok (fun i hs => ∀ v, v ∈ hs ↔ ∃ r, r < i ∧ rhs.dat cr r = some v) _ _ (by simp) ?_
  intro i hi hs h
  obtain ⟨v, hv, hg⟩ := getCell_ok hr ht hi
  rw [hg]
  refine ⟨_, rfl, fun w => ?_⟩
  rw [List.mem_cons, h]
  constructor
  · rintro (rfl | ⟨r, hr, hw⟩)
    · exact ⟨i, by omega, hv⟩
    · exact ⟨r, by omega, hw⟩
  · rintro ⟨r, hr, hw⟩
    by_cases hri : r = i
    · subst hri; rw [hv] at hw; cases hw; exact .inl rfl
    · exact .inr ⟨r, by omega, hw⟩

/-- The rows among the first `n` of `lhs` whose key is in the hash set. -/
def semiPre [DecidableEq V] (lhs rhs : Frame V) (cl cr n : Nat) : List Nat :=
  (List.range n).filter fun l => (List.range rhs.numRows).any fun r => lhs.cell cl l = rhs.cell cr r

theorem semi_fold [DecidableEq V] {lhs rhs f0 : Frame V} (hl : lhs.WF) (hf : f0.WF) (hfs : f0.schema = [.si64]) {cl cr : Nat}
    (htl : lhs.schema[cl]? = some .si64) {hs : List V} (hhs : ∀ v, v ∈ hs ↔ ∃ r, r < rhs.numRows ∧ rhs.dat cr r = some v)
    {tid : Nat × Buf Nat} (htid : tid.1 ≤ tid.2.size) (htn : tid.1 = f0.numRows) (n : Nat) (hn : n ≤ lhs.numRows) :
    ((semiPre lhs rhs cl cr n).length ≤ f0.numRows →
      Res.Ok ((List.range n).foldlM (semiStep lhs cl hs tid.1) (0, f0, tid.2)) (SemiInv lhs cl f0 tid.2.size (semiPre lhs rhs cl cr n))) ∧
    (f0.numRows < (semiPre lhs rhs cl cr n).length →
      Res.Throws ((List.range n).foldlM (semiStep lhs cl hs tid.1) (0, f0, tid.2))) := by
  induction n with
  | zero => exact ⟨fun _ => ⟨_, rfl, rfl, rfl, rfl, by simp [semiPre], by simp [semiPre]⟩, fun h => by simp [semiPre] at h⟩
  | succ n ih =>
    obtain ⟨ih1, ih2⟩ := ih (by omega)
    obtain ⟨v, hv, hg⟩ := getCell_ok hl htl (show n < lhs.numRows by omega)
    have hmem : v ∈ hs ↔ ((List.range rhs.numRows).any fun r => decide (lhs.cell cl n = rhs.cell cr r)) = true := by
      rw [hhs, List.any_eq_true]
      constructor
      · rintro ⟨r, hr, hw⟩
        exact ⟨r, List.mem_range.2 hr, by rw [Frame.cell_of_lt (by omega), Frame.cell_of_lt hr, hv, hw]; simp⟩
      · rintro ⟨r, hr, hw⟩
        have hr := List.mem_range.1 hr
        rw [decide_eq_true_eq, Frame.cell_of_lt (by omega), Frame.cell_of_lt hr, hv] at hw
        exact ⟨r, hr, hw.symm⟩
    have hpre : semiPre lhs rhs cl cr (n + 1) = semiPre lhs rhs cl cr n ++ if v ∈ hs then [n] else [] := by
      unfold semiPre
      rw [List.range_succ, List.filter_append]
      congr 1
      by_cases hm : v ∈ hs
      · rw [if_pos hm]; simp [hmem.1 hm]
      · rw [if_neg hm, List.filter_cons_of_neg (by rw [← hmem]; exact hm)]; rfl
    have hs0 : ∀ st : Nat × Frame V × Buf Nat, st.2.1.sig = f0.sig → st.2.1.schema[0]? = some .si64 := by
      intro st h; rw [Frame.sig_schema h, hfs]; rfl
    rw [List.range_succ, List.foldlM_append, hpre]
    by_cases hm : v ∈ hs
    · rw [if_pos hm, List.length_append]
      constructor
      · intro hle
        simp only [List.length_singleton] at hle
        refine (ih1 (by omega)).bind fun st hst => ?_
        rw [List.foldlM_cons]
        have key : Res.Ok (semiStep lhs cl hs tid.1 st n) (SemiInv lhs cl f0 tid.2.size (semiPre lhs rhs cl cr n ++ [n])) := by
          unfold semiStep
          rw [hg, Res.ok_bind, if_pos hm]
          refine (setCell_ok (Frame.sig_WF hst.sig hf) (hs0 st hst.sig) (by rw [Frame.sig_numRows hst.sig, hst.count]; omega) v).bind fun g hgs => ?_
          rw [if_neg (by rw [htn, hst.count]; omega), Buf.write_eq (by rw [hst.size, hst.count]; omega), Res.ok_bind]
          have hlast : ∀ (k : Nat) l, (semiPre lhs rhs cl cr n ++ [n])[k]? = some l →
              (k < (semiPre lhs rhs cl cr n).length ∧ (semiPre lhs rhs cl cr n)[k]? = some l) ∨ (k = (semiPre lhs rhs cl cr n).length ∧ l = n) := by
            intro k l hk
            by_cases hkl : k < (semiPre lhs rhs cl cr n).length
            · rw [List.getElem?_append_left hkl] at hk; exact .inl ⟨hkl, hk⟩
            · have := (List.getElem?_eq_some_iff.1 hk).1
              simp at this
              have : k = (semiPre lhs rhs cl cr n).length := by omega
              subst this
              simp at hk
              exact .inr ⟨rfl, hk.symm⟩
          refine ⟨_, rfl, by simp [hst.count], hgs.1.trans hst.sig, hst.size, fun k l hk => ?_, fun k l hk => ?_⟩
          · show g.dat 0 k = _
            rw [hgs.2, hst.count]
            rcases hlast k l hk with ⟨h1, h2⟩ | ⟨rfl, rfl⟩
            · rw [if_neg (by omega)]; exact hst.keys k l h2
            · rw [if_pos ⟨rfl, rfl⟩, hv]
          · show (st.2.2.put st.1 n).data k = l
            rw [Buf.put_data, hst.count]
            rcases hlast k l hk with ⟨h1, h2⟩ | ⟨rfl, rfl⟩
            · rw [if_neg (by omega)]; exact hst.tids k l h2
            · rw [if_pos rfl]
        exact key.bind fun a ha => ⟨a, rfl, ha⟩
      · intro hlt
        simp only [List.length_singleton] at hlt
        by_cases hc : (semiPre lhs rhs cl cr n).length ≤ f0.numRows
        · refine Res.throws_bind_of_ok (ih1 hc) fun st hst => ?_
          rw [List.foldlM_cons]
          refine Res.throws_bind ?_
          unfold semiStep
          rw [hg, Res.ok_bind, if_pos hm]
          exact Res.throws_bind (setCell_throws (hs0 st hst.sig) (by rw [Frame.sig_numRows hst.sig, hst.count]; omega) v)
        · exact Res.throws_bind (ih2 (by omega))
    · rw [if_neg hm, List.append_nil]
      have key : ∀ st, semiStep lhs cl hs tid.1 st n = .ok st := by
        intro st
        unfold semiStep
        rw [hg, Res.ok_bind, if_neg hm]
      constructor
      · intro hle
        refine (ih1 hle).bind fun st hst => ?_
        rw [List.foldlM_cons, key]
        exact ⟨st, rfl, hst⟩
      · intro hlt
        exact Res.throws_bind (ih2 hlt)

/-- State between the two calls. -/
structure SemiMid (lhs : Frame V) (cl : Nat) (rows : List Nat) (st : Frame V × (Nat × Buf Nat)) : Prop where
  nrows : st.1.numRows = rows.length
  schema : st.1.schema = [.si64]
  wf : st.1.WF
  keys : ∀ (k : Nat) l, rows[k]? = some l → st.1.dat 0 k = lhs.dat cl l
  tn : st.2.1 = rows.length
  size : st.2.1 ≤ st.2.2.size
  tids : ∀ (k : Nat) l, rows[k]? = some l → st.2.2.data k = l

theorem semiCol_some [DecidableEq V] {lhs rhs f0 : Frame V} (hl : lhs.WF) (hr : rhs.WF) (hf : f0.WF) (hfs : f0.schema = [.si64]) {cl cr : Nat}
    (htl : lhs.schema[cl]? = some .si64) (htr : rhs.schema[cr]? = some .si64) {tid : Nat × Buf Nat} (htid : tid.1 ≤ tid.2.size)
    (htn : tid.1 = f0.numRows) (hint : Option Nat) (junk : Nat → Nat → V) :
    ((semiRows lhs rhs cl cr).length ≤ f0.numRows →
      Res.Ok (semiJoinCol lhs rhs cl cr hint junk (some f0) (some tid)) (SemiMid lhs cl (semiRows lhs rhs cl cr))) ∧
    (f0.numRows < (semiRows lhs rhs cl cr).length → Res.Throws (semiJoinCol lhs rhs cl cr hint junk (some f0) (some tid))) := by
  obtain ⟨hs, hhs, hmem⟩ := semi_hs hr htr
  have key := semi_fold hl hf hfs htl hmem htid htn lhs.numRows (Nat.le_refl _)
  have e : semiJoinCol lhs rhs cl cr hint junk (some f0) (some tid) = (do
      let st ← (List.range lhs.numRows).foldlM (semiStep lhs cl hs tid.1) (0, f0, tid.2)
      if tid.1 < st.1 then .error (.throw "number of rows can only be shrunk")
      else .ok (st.2.1.shrinkNumRows st.1, (st.1, st.2.2))) := by
    unfold semiJoinCol
    rw [hhs]
    rfl
  rw [e]
  refine ⟨fun hle => (key.1 hle).bind fun st hst => ?_, fun hlt => Res.throws_bind (key.2 hlt)⟩
  have hcnt : st.1 = (semiRows lhs rhs cl cr).length := hst.count
  rw [if_neg (by rw [htn, hcnt]; omega)]
  refine ⟨_, rfl, hcnt, (Frame.sig_schema hst.sig).trans hfs, ?_, hst.keys, hcnt, by show st.1 ≤ st.2.2.size; rw [hst.size, hcnt]; omega, hst.tids⟩
  intro c hc
  have := Frame.sig_WF hst.sig hf c hc
  rw [Frame.sig_numRows hst.sig] at this
  show st.1 ≤ _
  omega

/-- **Semi join.** For key columns of type `si64` and no or a sufficient row-count hint, the result has, for exactly the rows
    of `lhs` whose key occurs in `rhs` and in their order, the key (in a column named like the key column of `lhs`) and the
    number of the row. With a hint that is too small, or if a key column does not exist, it throws. -/
theorem C76_semi_join [DecidableEq V] (lhs rhs : Frame V) (lhsOn rhsOn : String) (hint : Option Nat) (junk : Nat → Nat → V)
    (hl : lhs.WF) (hr : rhs.WF) (hlo : lhs.LabelsOK) (hro : rhs.LabelsOK) :
    (∀ cl cr, lhs.labels[cl]? = some lhsOn → rhs.labels[cr]? = some rhsOn → lhs.schema[cl]? = some .si64 → rhs.schema[cr]? = some .si64 →
      ((∀ n, hint = some n → (semiRows lhs rhs cl cr).length ≤ n) →
        ∃ res tid, semiJoin lhs rhs lhsOn rhsOn hint junk = .ok (res, tid) ∧ SemiResult lhs cl lhsOn (semiRows lhs rhs cl cr) res tid) ∧
      (∀ n, hint = some n → n < (semiRows lhs rhs cl cr).length → Res.Throws (semiJoin lhs rhs lhsOn rhsOn hint junk))) ∧
    (lhsOn ∉ lhs.labels ∨ rhsOn ∉ rhs.labels → Res.Throws (semiJoin lhs rhs lhsOn rhsOn hint junk)) := by
  constructor
  · intro cl cr h1 h2 h3 h4
    obtain ⟨f0, g1, g2, g3, g4⟩ := create_ok_none (n := hint.getD lhs.numRows) (schema := [.si64]) junk
    have e1 : semiJoinCol lhs rhs cl cr hint junk none none =
        semiJoinCol lhs rhs cl cr hint junk (some f0) (some (hint.getD lhs.numRows, ⟨hint.getD lhs.numRows, fun _ => 0⟩)) := by
      unfold semiJoinCol
      obtain ⟨hs, hhs, -⟩ := semi_hs hr h4
      rw [hhs, Res.ok_bind, Res.ok_bind]
      dsimp only
      rw [g1]
      rfl
    have e : semiJoin lhs rhs lhsOn rhsOn hint junk = (do
        let st ← semiJoinCol lhs rhs cl cr hint junk (some f0) (some (hint.getD lhs.numRows, ⟨hint.getD lhs.numRows, fun _ => 0⟩))
        let st ← semiJoinCol lhs rhs cl cr hint junk (some st.1) (some st.2)
        let r ← st.1.setLabels [lhsOn]
        .ok (r, st.2)) := by
      unfold semiJoin
      rw [idx_ok hlo h1, Res.ok_bind, type_ok h3, Res.ok_bind, idx_ok hro h2, Res.ok_bind, type_ok h4, Res.ok_bind, if_pos ⟨rfl, rfl⟩, e1]
    have core := semiCol_some hl hr g4 g3 h3 h4 (tid := (hint.getD lhs.numRows, ⟨hint.getD lhs.numRows, fun _ => 0⟩)) (Nat.le_refl _) g2.symm hint junk
    constructor
    · intro hh
      have hle : (semiRows lhs rhs cl cr).length ≤ f0.numRows := by
        rw [g2]
        cases hint with
        | none => exact Nat.le_trans (List.length_filter_le _ _) (by simp)
        | some n => exact hh n rfl
      obtain ⟨st, hst, hm⟩ := core.1 hle
      have core2 := semiCol_some hl hr hm.wf hm.schema h3 h4 hm.size (hm.tn.trans hm.nrows.symm) hint junk
      obtain ⟨st2, hst2, hm2⟩ := core2.1 (by rw [hm.nrows])
      obtain ⟨r, hr1, hr2, hr3, hr4, hr5, hr6⟩ := (C69_set_labels st2.1 [lhsOn] (by
        have := congrArg List.length hm2.schema; simpa [Frame.schema] using this.symm)).1 (by simp)
      refine ⟨r, st2.2, ?_, ⟨by rw [hr4, hm2.nrows], by rw [hr3, hm2.schema], hr2, hr6, ?_, ?_, ⟨hm2.tn, hm2.size, hm2.tids⟩⟩⟩
      · rw [e, hst, Res.ok_bind, hst2, Res.ok_bind, hr1]; rfl
      · unfold Frame.setLabels at hr1
        obtain ⟨m, hm', -⟩ := (initL_iff [lhsOn]).1 (by simp)
        rw [hm'] at hr1
        have hr1 : (Except.ok _ : Res (Frame V)) = .ok r := hr1
        cases hr1
        intro c hc
        obtain ⟨p, hp, rfl⟩ := List.mem_map.1 hc
        exact hm2.wf p.1 (List.of_mem_zip (a := p.1) (b := p.2) hp).1
      · intro k l hk
        have hk' := (List.getElem?_eq_some_iff.1 hk).1
        have hll : l < lhs.numRows := List.mem_range.1 (List.mem_filter.1 (List.mem_of_getElem? hk)).1
        rw [hr5, Frame.cell_of_lt (by rw [hm2.nrows]; exact hk'), Frame.cell_of_lt hll]
        exact hm2.keys k l hk
    · rintro n rfl hlt
      rw [e]
      exact Res.throws_bind (core.2 (by rw [g2]; exact hlt))
  · intro h
    unfold semiJoin
    by_cases hL : lhsOn ∈ lhs.labels
    · obtain ⟨cl, hcl⟩ := List.mem_iff_getElem?.1 hL
      obtain ⟨tl, htl⟩ : ∃ t, lhs.schema[cl]? = some t := by
        have := (List.getElem?_eq_some_iff.1 hcl).1
        simp only [Frame.labels, List.length_map] at this
        exact ⟨lhs.cols[cl].vt, by simp [Frame.schema, this]⟩
      rw [idx_ok hlo hcl, Res.ok_bind, type_ok htl, Res.ok_bind]
      exact Res.throws_bind (idx_throws hro (h.resolve_left (by simpa using hL)))
    · exact Res.throws_bind (idx_throws hlo hL)

/-! ### Group join -/

theorem gjEmplace_map [DecidableEq V] (zero : V) (K : Nat → V) (n : Nat) :
    gjEmplace zero (((List.range n).filter fun l => (List.range l).all fun l' => K l' ≠ K l).map fun l => ⟨K l, l, zero, false⟩) (K n) n =
      ((List.range (n + 1)).filter fun l => (List.range l).all fun l' => K l' ≠ K l).map fun l => ⟨K l, l, zero, false⟩ := by
  unfold gjEmplace
  rw [List.range_succ, List.filter_append, List.map_append]
  -- the key exists in the table iff it occurs before row `n`
  have hex : ∀ m, m ≤ n → ((∃ l, l < m ∧ K l = K n) ↔ ∃ l ∈ (List.range m).filter (fun l => (List.range l).all fun l' => decide (K l' ≠ K l)), K l = K n) := by
    intro m
    induction m with
    | zero => intro _; simp
    | succ m ih =>
      intro hm
      constructor
      · rintro ⟨l, hl, hk⟩
        by_cases hlm : ∃ l, l < m ∧ K l = K n
        · obtain ⟨l', hl', hk'⟩ := (ih (by omega)).1 hlm
          refine ⟨l', ?_, hk'⟩
          rw [List.range_succ, List.filter_append]
          exact List.mem_append_left _ hl'
        · have : l = m := by
            by_cases h : l = m
            · exact h
            · exact absurd ⟨l, by omega, hk⟩ hlm
          subst this
          refine ⟨l, List.mem_filter.2 ⟨List.mem_range.2 (by omega), ?_⟩, hk⟩
          rw [List.all_eq_true]
          intro l' hl'
          rw [decide_eq_true_eq]
          intro h
          exact hlm ⟨l', List.mem_range.1 hl', h.trans hk⟩
      · rintro ⟨l, hl, hk⟩
        exact ⟨l, List.mem_range.1 (List.mem_filter.1 hl).1, hk⟩
  by_cases h : ∃ l, l < n ∧ K l = K n
  · rw [if_pos]
    · have : (List.filter (fun l => (List.range l).all fun l' => decide (K l' ≠ K l)) [n]) = [] := by
        rw [List.filter_cons_of_neg]
        · rfl
        · obtain ⟨l, hl, hk⟩ := h
          intro hall
          rw [List.all_eq_true] at hall
          have := hall l (List.mem_range.2 hl)
          rw [decide_eq_true_eq] at this
          exact this hk
      rw [this]; simp
    · rw [List.any_map, List.any_eq_true]
      obtain ⟨l, hl, hk⟩ := (hex n (Nat.le_refl _)).1 h
      exact ⟨l, hl, by simpa using hk⟩
  · rw [if_neg]
    · have : (List.filter (fun l => (List.range l).all fun l' => decide (K l' ≠ K l)) [n]) = [n] := by
        rw [List.filter_cons_of_pos]
        · rfl
        · rw [List.all_eq_true]
          intro l hl
          rw [decide_eq_true_eq]
          exact fun hk => h ⟨l, List.mem_range.1 hl, hk⟩
      rw [this]; simp
    · rw [List.any_map, List.any_eq_true]
      rintro ⟨l, hl, hk⟩
      exact h ((hex n (Nat.le_refl _)).2 ⟨l, hl, by simpa using hk⟩)

/-- The entry of the hash table for the key of row `l`, after `n` rows of `rhs`. -/
def gjEntry [DecidableEq V] (ops : Ops V) (vt : VTC) (K R A : Nat → V) (n l : Nat) : GJEntry V :=
  ⟨K l, l, (((List.range n).filter fun r => K l = R r).map A).foldl (ops.add vt) (ops.zero vt), (List.range n).any fun r => K l = R r⟩

theorem gjProbe_entry [DecidableEq V] (ops : Ops V) (vt : VTC) (K R A : Nat → V) (n : Nat) (ls : List Nat) :
    gjProbe (ops.add vt) (ls.map (gjEntry ops vt K R A n)) (R n) (A n) = ls.map (gjEntry ops vt K R A (n + 1)) := by
  unfold gjProbe
  rw [List.map_map]
  apply List.map_congr_left
  intro l _
  simp only [Function.comp, gjEntry, List.range_succ, List.filter_append, List.map_append, List.foldl_append, List.any_append]
  by_cases h : K l = R n
  · simp [h]
  · simp [h]

/-- State of the output phase. -/
structure GJInv (f0 : Frame V) (sz : Nat) (es : List (GJEntry V)) (st : Nat × Frame V × Buf Nat) : Prop where
  count : st.1 = (es.filter (·.found)).length
  sig : st.2.1.sig = f0.sig
  size : st.2.2.size = sz
  out : ∀ (k : Nat) e, (es.filter (·.found))[k]? = some e → st.2.1.dat 0 k = some e.key ∧ st.2.1.dat 1 k = some e.sum ∧ st.2.2.data k = e.row

theorem gj_write {f0 : Frame V} (hf : f0.WF) {vt : VTC} (hfs : f0.schema = [.si64, vt]) (es : List (GJEntry V))
    (hn : f0.numRows = (es.filter (·.found)).length) :
    Res.Ok (es.foldlM (init := (0, f0, (⟨f0.numRows, fun _ => 0⟩ : Buf Nat))) fun st e =>
      if e.found then do
        let r ← st.2.1.setCell .si64 0 st.1 e.key
        let r ← r.setCell vt 1 st.1 e.sum
        if f0.numRows ≤ st.1 then .error (.throw "rowIdx is out of bounds")
        else do
          let t ← st.2.2.write st.1 e.row
          .ok (st.1 + 1, r, t)
      else .ok st) (GJInv f0 f0.numRows es) := by
  refine foldList_ok (GJInv f0 f0.numRows) es _ ⟨rfl, rfl, rfl, by simp⟩ ?_
  intro pre e post hes st hst
  by_cases hfd : e.found = true
  · rw [if_pos hfd]
    have hlt : st.1 < f0.numRows := by
      rw [hn, hst.count, hes, List.filter_append, List.length_append, List.filter_cons_of_pos hfd]
      simp
    refine (setCell_ok (Frame.sig_WF hst.sig hf) (by rw [Frame.sig_schema hst.sig, hfs]; rfl) (by rw [Frame.sig_numRows hst.sig]; exact hlt) e.key).bind fun g1 hg1 => ?_
    refine (setCell_ok (Frame.sig_WF (hg1.1.trans hst.sig) hf) (by rw [Frame.sig_schema (hg1.1.trans hst.sig), hfs]; rfl) (by rw [Frame.sig_numRows (hg1.1.trans hst.sig)]; exact hlt) e.sum).bind fun g2 hg2 => ?_
    rw [if_neg (by omega), Buf.write_eq (by rw [hst.size]; exact hlt), Res.ok_bind]
    refine ⟨_, rfl, ?_, hg2.1.trans (hg1.1.trans hst.sig), hst.size, ?_⟩
    · simp [hst.count, hfd]
    · intro k x hk
      rw [List.filter_append, List.filter_cons_of_pos hfd, List.filter_nil] at hk
      show g2.dat 0 k = _ ∧ g2.dat 1 k = _ ∧ (st.2.2.put st.1 e.row).data k = _
      rw [hg2.2, hg2.2, hg1.2, hg1.2, Buf.put_data, hst.count]
      by_cases hkl : k < (pre.filter (·.found)).length
      · rw [List.getElem?_append_left hkl] at hk
        have hne : k ≠ (pre.filter (·.found)).length := by omega
        simp only [hne, and_false, if_false]
        exact hst.out k x hk
      · have := (List.getElem?_eq_some_iff.1 hk).1
        simp at this
        have : k = (pre.filter (·.found)).length := by omega
        subst this
        simp at hk
        subst hk
        simp
  · rw [if_neg hfd]
    refine ⟨st, rfl, ?_⟩
    have : (pre ++ [e]).filter (·.found) = pre.filter (·.found) := by
      rw [List.filter_append, List.filter_cons_of_neg hfd]; simp
    exact ⟨by rw [this]; exact hst.count, hst.sig, hst.size, by rw [this]; exact hst.out⟩

/-- Result of a group join: the rows in the list (in this order) give the key, the sum, and their number. -/
structure GroupJoinResult [DecidableEq V] (ops : Ops V) (vt : VTC) (lhs rhs : Frame V) (cl cr ca : Nat) (labels : List String) (rows : List Nat)
    (res : Frame V) (tid : Nat × Buf Nat) : Prop where
  numRows : res.numRows = rows.length
  schema : res.schema = [.si64, vt]
  labels : res.labels = labels
  lookup : res.LabelsOK
  keys : ∀ (k : Nat) l, rows[k]? = some l → res.cell 0 k = lhs.cell cl l
  sums : ∀ (k : Nat) l, rows[k]? = some l → res.cell 1 k = some (joinSum ops vt lhs rhs cl cr ca l)
  tids : tid.1 = rows.length ∧ tid.1 ≤ tid.2.size ∧ ∀ (k : Nat) l, rows[k]? = some l → tid.2.data k = l

/-- **Group join.** For key columns of type `si64` and an aggregated column of type `f64` or `si64`: the result has one row
    for each key of `lhs` that occurs in `rhs` (in some order), with the key, the sum of the aggregated column over the rows
    of `rhs` with this key (added in row order), and the number of the first row of `lhs` with this key. Its columns are called
    like the key column and `SUM(…)`; if these are the same, it throws. It also throws if a column does not exist. -/
theorem C77_group_join [DecidableEq V] (ops : Ops V) (ord : List (GJEntry V) → List (GJEntry V)) (hord : ∀ l, (ord l).Perm l)
    (lhs rhs : Frame V) (lhsOn rhsOn rhsAgg : String) (junk : Nat → Nat → V)
    (hl : lhs.WF) (hr : rhs.WF) (hlo : lhs.LabelsOK) (hro : rhs.LabelsOK) :
    (∀ cl cr ca vt, lhs.labels[cl]? = some lhsOn → rhs.labels[cr]? = some rhsOn → rhs.labels[ca]? = some rhsAgg →
      lhs.schema[cl]? = some .si64 → rhs.schema[cr]? = some .si64 → rhs.schema[ca]? = some vt → vt = .f64 ∨ vt = .si64 →
      (lhsOn ≠ "SUM(" ++ rhsAgg ++ ")" →
        ∃ res tid rows, groupJoin ops ord lhs rhs lhsOn rhsOn rhsAgg junk = .ok (res, tid) ∧ rows.Perm (firstRows lhs rhs cl cr) ∧
          GroupJoinResult ops vt lhs rhs cl cr ca [lhsOn, "SUM(" ++ rhsAgg ++ ")"] rows res tid) ∧
      (lhsOn = "SUM(" ++ rhsAgg ++ ")" → Res.Throws (groupJoin ops ord lhs rhs lhsOn rhsOn rhsAgg junk))) ∧
    (lhsOn ∉ lhs.labels ∨ rhsOn ∉ rhs.labels ∨ rhsAgg ∉ rhs.labels → Res.Throws (groupJoin ops ord lhs rhs lhsOn rhsOn rhsAgg junk)) := by
  constructor
  · intro cl cr ca vt h1 h2 h3 h4 h5 h6 hvt
    obtain ⟨kc, hk1, hk2⟩ := schema_get.1 h4
    obtain ⟨rc, hr1, hr2⟩ := schema_get.1 h5
    obtain ⟨ac, ha1, ha2⟩ := schema_get.1 h6
    set K := kc.data.data with hK
    set R := rc.data.data with hR
    set A := ac.data.data with hA
    set L0 := (List.range lhs.numRows).filter (fun l => (List.range l).all fun l' => decide (K l' ≠ K l)) with hL0
    -- build
    have b1 : (List.range lhs.numRows).foldlM (init := ([] : List (GJEntry V))) (fun ht i => do
        let k ← lhs.getCell .si64 cl i
        .ok (gjEmplace (ops.zero vt) ht k i)) = .ok (L0.map (gjEntry ops vt K R A 0)) := by
      obtain ⟨ht, hht, hq⟩ := foldRange_ok (f := fun (ht : List (GJEntry V)) i => do
        let k ← lhs.getCell .si64 cl i
        .ok (gjEmplace (ops.zero vt) ht k i))
        (fun n ht => ht = ((List.range n).filter fun l => (List.range l).all fun l' => decide (K l' ≠ K l)).map fun l => ⟨K l, l, ops.zero vt, false⟩)
        lhs.numRows [] rfl (by
          rintro i hi _ rfl
          rw [← hk2, getCell_col hl hk1 hi, Res.ok_bind]
          exact ⟨_, rfl, gjEmplace_map (ops.zero vt) K i⟩)
      rw [hht, hq]
      rfl
    have b2 : (List.range rhs.numRows).foldlM (init := L0.map (gjEntry ops vt K R A 0)) (fun ht i => do
        let k ← rhs.getCell .si64 cr i
        let v ← rhs.getCell vt ca i
        .ok (gjProbe (ops.add vt) ht k v)) = .ok (L0.map (gjEntry ops vt K R A rhs.numRows)) := by
      obtain ⟨ht, hht, hq⟩ := foldRange_ok (f := fun (ht : List (GJEntry V)) i => do
        let k ← rhs.getCell .si64 cr i
        let v ← rhs.getCell vt ca i
        .ok (gjProbe (ops.add vt) ht k v))
        (fun n ht => ht = L0.map (gjEntry ops vt K R A n)) rhs.numRows _ rfl (by
          rintro i hi _ rfl
          have e1 : rhs.getCell .si64 cr i = .ok (R i) := by rw [← hr2]; exact getCell_col hr hr1 hi
          have e2 : rhs.getCell vt ca i = .ok (A i) := by rw [← ha2]; exact getCell_col hr ha1 hi
          rw [e1, Res.ok_bind, e2, Res.ok_bind]
          exact ⟨_, rfl, gjProbe_entry ops vt K R A i L0⟩)
      rw [hht, hq]
    set es := ord (L0.map (gjEntry ops vt K R A rhs.numRows)) with hes
    have hperm : es.Perm (L0.map (gjEntry ops vt K R A rhs.numRows)) := hord _
    obtain ⟨f0, g1, g2, g3, g4⟩ := create_ok_none (n := (es.filter (·.found)).length) (schema := [.si64, vt]) junk
    obtain ⟨st, hst, hI⟩ := gj_write g4 g3 es g2
    have e : groupJoinCol ops vt ord lhs rhs cl cr ca junk = .ok (st.2.1, ((es.filter (·.found)).length, st.2.2)) := by
      unfold groupJoinCol
      rw [b1, Res.ok_bind, b2, Res.ok_bind]
      dsimp only
      rw [← hes, g1, Res.ok_bind]
      rw [g2] at hst
      rw [hst]
      rfl
    have e' : groupJoin ops ord lhs rhs lhsOn rhsOn rhsAgg junk = (do
        let r ← st.2.1.setLabels [lhsOn, "SUM(" ++ rhsAgg ++ ")"]
        .ok (r, ((es.filter (·.found)).length, st.2.2))) := by
      unfold groupJoin
      rw [idx_ok hlo h1, Res.ok_bind, type_ok h4, Res.ok_bind, idx_ok hro h2, Res.ok_bind, type_ok h5, Res.ok_bind,
        idx_ok hro h3, Res.ok_bind, type_ok h6, Res.ok_bind, if_pos ⟨rfl, rfl, hvt⟩, e]
      rfl
    rw [e']
    have hlen2 : st.2.1.cols.length = 2 := by
      have := congrArg List.length ((Frame.sig_schema hI.sig).trans g3)
      simpa [Frame.schema] using this
    have hset := C69_set_labels st.2.1 [lhsOn, "SUM(" ++ rhsAgg ++ ")"] (by rw [hlen2]; rfl)
    constructor
    · intro hne
      obtain ⟨r, r1, r2, r3, r4, r5, r6⟩ := hset.1 (by simp [hne])
      have hrowEq : ∀ x ∈ es, x = gjEntry ops vt K R A rhs.numRows x.row ∧ x.row ∈ L0 := by
        intro x hx
        obtain ⟨l, hl, rfl⟩ := List.mem_map.1 (hperm.mem_iff.1 hx)
        exact ⟨rfl, hl⟩
      have hcellL : ∀ l, l < lhs.numRows → lhs.cell cl l = some (K l) := fun l h => cell_of_col hk1 h
      have hcellR : ∀ r, r < rhs.numRows → rhs.cell cr r = some (R r) := fun l h => cell_of_col hr1 h
      have hcellA : ∀ r, r < rhs.numRows → rhs.cell ca r = some (A r) := fun l h => cell_of_col ha1 h
      have hrow : st.2.1.numRows = (es.filter (·.found)).length := by rw [Frame.sig_numRows hI.sig, g2]
      refine ⟨r, _, (es.filter (·.found)).map (·.row), by rw [r1]; rfl, ?_, ?_⟩
      · have p1 := (hperm.filter (·.found)).map (·.row)
        refine p1.trans ?_
        have : ((L0.map (gjEntry ops vt K R A rhs.numRows)).filter (·.found)).map (·.row) = firstRows lhs rhs cl cr := by
          rw [List.filter_map, List.map_map]
          have : ((fun x => x.row) ∘ gjEntry ops vt K R A rhs.numRows) = id := rfl
          rw [this, List.map_id, hL0, firstRows, semiRows, List.filter_filter, List.filter_filter]
          apply List.filter_congr
          intro l hl
          have hl := List.mem_range.1 hl
          rw [Bool.and_comm]
          have e1 : ((List.range l).all fun l' => decide (K l' ≠ K l)) = ((List.range l).all fun l' => decide (lhs.cell cl l' ≠ lhs.cell cl l)) := by
            apply Bool.eq_iff_iff.2
            simp only [List.all_eq_true, List.mem_range, decide_eq_true_eq]
            refine forall_congr' fun l' => forall_congr' fun hl' => ?_
            rw [hcellL l hl, hcellL l' (by omega)]
            simp
          have e2 : ((fun x : GJEntry V => x.found) ∘ gjEntry ops vt K R A rhs.numRows) l = ((List.range rhs.numRows).any fun r => decide (lhs.cell cl l = rhs.cell cr r)) := by
            show ((List.range rhs.numRows).any fun r => decide (K l = R r)) = _
            apply Bool.eq_iff_iff.2
            simp only [List.any_eq_true, List.mem_range, decide_eq_true_eq]
            refine exists_congr fun r' => and_congr_right fun hr' => ?_
            rw [hcellL l hl, hcellR r' hr']
            simp
          rw [e1, e2]
        rw [this]
      · have hget : ∀ (k : Nat) l, ((es.filter (·.found)).map (·.row))[k]? = some l → k < (es.filter (·.found)).length ∧ l < lhs.numRows ∧
            (es.filter (·.found))[k]? = some (gjEntry ops vt K R A rhs.numRows l) := by
          intro k l hk
          rw [List.getElem?_map] at hk
          obtain ⟨x, hx, rfl⟩ := Option.map_eq_some_iff.1 hk
          have hm := (List.mem_filter.1 (List.mem_of_getElem? hx)).1
          refine ⟨(List.getElem?_eq_some_iff.1 hx).1, List.mem_range.1 (List.mem_filter.1 (hrowEq x hm).2).1, ?_⟩
          rw [hx, ← (hrowEq x hm).1]
        refine ⟨by rw [r4, hrow]; simp, by rw [r3, Frame.sig_schema hI.sig, g3], r2, r6, ?_, ?_, ⟨by simp, ?_, ?_⟩⟩
        · intro k l hk
          obtain ⟨a1, a2, a3⟩ := hget k l hk
          rw [r5, Frame.cell_of_lt (by rw [hrow]; exact a1), (hI.out k _ a3).1, hcellL l a2]
          rfl
        · intro k l hk
          obtain ⟨a1, a2, a3⟩ := hget k l hk
          rw [r5, Frame.cell_of_lt (by rw [hrow]; exact a1), (hI.out k _ a3).2.1]
          congr 1
          unfold joinSum
          show (((List.range rhs.numRows).filter fun r => decide (K l = R r)).map A).foldl _ _ = _
          congr 1
          rw [← List.filterMap_eq_map]
          rw [show ((List.range rhs.numRows).filter fun r => decide (K l = R r)) = (List.range rhs.numRows).filter fun r => decide (lhs.cell cl l = rhs.cell cr r) from
            List.filter_congr fun r hr' => by rw [hcellL l a2, hcellR r (List.mem_range.1 hr')]; simp]
          apply List.filterMap_congr
          intro r hr'
          rw [hcellA r (List.mem_range.1 (List.mem_filter.1 hr').1)]
          rfl
        · show (es.filter (·.found)).length ≤ st.2.2.size
          rw [hI.size, g2]
        · intro k l hk
          obtain ⟨a1, a2, a3⟩ := hget k l hk
          exact (hI.out k _ a3).2.2
    · intro heq
      exact Res.throws_bind (hset.2 (by simp [heq]))
  · intro h
    have hty : ∀ (f : Frame V) (c : Nat) l, f.labels[c]? = some l → ∃ t, f.schema[c]? = some t := by
      intro f c l hc
      have := (List.getElem?_eq_some_iff.1 hc).1
      simp only [Frame.labels, List.length_map] at this
      exact ⟨f.cols[c].vt, by simp [Frame.schema, this]⟩
    unfold groupJoin
    by_cases hL : lhsOn ∈ lhs.labels
    · obtain ⟨cl, hcl⟩ := List.mem_iff_getElem?.1 hL
      obtain ⟨tl, htl⟩ := hty _ _ _ hcl
      rw [idx_ok hlo hcl, Res.ok_bind, type_ok htl, Res.ok_bind]
      by_cases hR : rhsOn ∈ rhs.labels
      · obtain ⟨cr, hcr⟩ := List.mem_iff_getElem?.1 hR
        obtain ⟨tr, htr⟩ := hty _ _ _ hcr
        rw [idx_ok hro hcr, Res.ok_bind, type_ok htr, Res.ok_bind]
        exact Res.throws_bind (idx_throws hro (by tauto))
      · exact Res.throws_bind (idx_throws hro hR)
    · exact Res.throws_bind (idx_throws hlo hL)

/-- Full property: semi join works for key columns of every (same) value type, or throws. The code dereferences a null
    pointer if the key columns are not both `si64`. -/
theorem C78_semi_join_types_partial [DecidableEq V] (lhs rhs : Frame V) (lhsOn rhsOn : String) (hint : Option Nat) (junk : Nat → Nat → V)
    (hlo : lhs.LabelsOK) (hro : rhs.LabelsOK) (cl cr : Nat) (tl tr : VTC) (h1 : lhs.labels[cl]? = some lhsOn)
    (h2 : rhs.labels[cr]? = some rhsOn) (h3 : lhs.schema[cl]? = some tl) (h4 : rhs.schema[cr]? = some tr)
    (h : ¬ (tl = .si64 ∧ tr = .si64)) : Res.IsUB (semiJoin lhs rhs lhsOn rhsOn hint junk) := by
  unfold semiJoin
  rw [idx_ok hlo h1, Res.ok_bind, type_ok h3, Res.ok_bind, idx_ok hro h2, Res.ok_bind, type_ok h4, Res.ok_bind, if_neg h]
  exact ⟨_, rfl⟩

/-- Full property: group join works for key and value columns of every numeric type, or throws. The code dereferences a null
    pointer if the key columns are not both `si64` or the aggregated column is neither `f64` nor `si64`. -/
theorem C78_group_join_types_partial [DecidableEq V] (ops : Ops V) (ord : List (GJEntry V) → List (GJEntry V)) (lhs rhs : Frame V)
    (lhsOn rhsOn rhsAgg : String) (junk : Nat → Nat → V) (hlo : lhs.LabelsOK) (hro : rhs.LabelsOK) (cl cr ca : Nat) (tl tr ta : VTC)
    (h1 : lhs.labels[cl]? = some lhsOn) (h2 : rhs.labels[cr]? = some rhsOn) (h3 : rhs.labels[ca]? = some rhsAgg)
    (h4 : lhs.schema[cl]? = some tl) (h5 : rhs.schema[cr]? = some tr) (h6 : rhs.schema[ca]? = some ta)
    (h : ¬ (tl = .si64 ∧ tr = .si64 ∧ (ta = .f64 ∨ ta = .si64))) :
    Res.IsUB (groupJoin ops ord lhs rhs lhsOn rhsOn rhsAgg junk) := by
  unfold groupJoin
  rw [idx_ok hlo h1, Res.ok_bind, type_ok h4, Res.ok_bind, idx_ok hro h2, Res.ok_bind, type_ok h5, Res.ok_bind,
    idx_ok hro h3, Res.ok_bind, type_ok h6, Res.ok_bind, if_neg h]
  exact ⟨_, rfl⟩

end Verif.Rel
