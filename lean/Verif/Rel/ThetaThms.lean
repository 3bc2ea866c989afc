/-
  Theta join of frames (C73, C75).
-/
import Verif.Rel.JoinThms

namespace Verif.Rel
open Verif

/-! ## Specification -/

/-- The condition "column `cl` of `lhs` `op` column `cr` of `rhs`" holds for the rows `p.1` and `p.2`. If the columns have
    different types, the value of `rhs` is first converted to the type of the column of `lhs`. -/
def CondHolds (cmp : CmpSem V) (lhs rhs : Frame V) (cond : Nat × Nat × CmpOp) (p : Nat × Nat) : Bool :=
  match lhs.schema[cond.1]?, rhs.schema[cond.2.1]?, lhs.cell cond.1 p.1, rhs.cell cond.2.1 p.2 with
  | some a, some b, some x, some y => cmp.same a cond.2.2 x (if b = a then y else cmp.cast b a y)
  | _, _, _, _ => false

/-- The pairs of rows for which all conditions hold, ordered by the row of `lhs`, then by the row of `rhs`. -/
def thetaPairs (cmp : CmpSem V) (lhs rhs : Frame V) (conds : List (Nat × Nat × CmpOp)) : List (Nat × Nat) :=
  (allPairs lhs rhs).filter fun p => conds.all fun c => CondHolds cmp lhs rhs c p

/-- The conditions with labels, and with the positions of the columns. -/
def Resolves (lhs rhs : Frame V) (conds : List (String × String × CmpOp)) (pos : List (Nat × Nat × CmpOp)) : Prop :=
  List.Forall₂ (fun c p => lhs.labels[p.1]? = some c.1 ∧ rhs.labels[p.2.1]? = some c.2.1 ∧ p.2.2 = c.2.2) conds pos

/-- Types other than strings. -/
def thetaTypes : List VTC := [.si8, .si32, .si64, .ui8, .ui32, .ui64, .f32, .f64]

/-! ## Proofs -/

theorem deducible_iff (vt : VTC) : vt.deducible = true ↔ vt ∈ thetaTypes := by cases vt <;> decide

/-- The first entries of the buffer are the list. -/
structure PosOK (sz : Nat) (L : List (Nat × Nat)) (st : Buf (Nat × Nat) × Nat) : Prop where
  size : st.1.size = sz
  count : st.2 = L.length
  data : ∀ (k : Nat) p, L[k]? = some p → st.1.data k = p

theorem addPosPair_ok {sz : Nat} {L : List (Nat × Nat)} {st : Buf (Nat × Nat) × Nat} (h : PosOK sz L st) (hlt : L.length < sz)
    (i j : Nat) : Res.Ok (addPosPair st i j) fun st' => PosOK sz (L ++ [(i, j)]) st' ∧
      ∀ k, k ≠ L.length → st'.1.data k = st.1.data k := by
  unfold addPosPair
  rw [if_neg (by rw [h.size, h.count]; omega), Buf.write_eq (by rw [h.size, h.count]; omega), Res.ok_bind]
  refine ⟨_, rfl, ⟨h.size, by simp [h.count], ?_⟩, ?_⟩
  · intro k p hk
    show (st.1.put st.2 (i, j)).data k = p
    rw [Buf.put_data, h.count]
    by_cases hkl : k < L.length
    · rw [List.getElem?_append_left hkl] at hk
      rw [if_neg (by omega)]
      exact h.data k p hk
    · have := (List.getElem?_eq_some_iff.1 hk).1
      simp at this
      have : k = L.length := by omega
      subst this
      simpa using hk
  · intro k hk
    show (st.1.put st.2 (i, j)).data k = _
    rw [Buf.put_data, h.count, if_neg hk]

/-- The truth value of a condition on two rows. -/
theorem holds_ok {cmp : CmpSem V} {lhs rhs : Frame V} (hl : lhs.WF) (hr : rhs.WF) {e : Equation}
    (he : e.l < lhs.cols.length ∧ e.r < rhs.cols.length) {i j : Nat} (hi : i < lhs.numRows) (hj : j < rhs.numRows) :
    e.holds cmp lhs rhs i j = .ok (CondHolds cmp lhs rhs (e.l, e.r, e.op) (i, j)) := by
  have h1 : lhs.cols[e.l]? = some lhs.cols[e.l] := by simp [he.1]
  have h2 : rhs.cols[e.r]? = some rhs.cols[e.r] := by simp [he.2]
  unfold Equation.holds
  rw [h1, h2]
  dsimp only
  rw [Buf.read_eq (by have := hl _ (List.mem_of_getElem? h1); omega), Res.ok_bind,
    Buf.read_eq (by have := hr _ (List.mem_of_getElem? h2); omega), Res.ok_bind]
  unfold CondHolds
  simp only [Frame.schema, List.getElem?_map, h1, h2, Option.map_some, Frame.cell, hi, hj, if_true, compareValues]
  by_cases ht : (lhs.cols[e.l]).vt = (rhs.cols[e.r]).vt
  · rw [if_pos ht, if_pos ht.symm]
  · rw [if_neg ht, if_neg (Ne.symm ht)]

theorem mem_allPairs {lhs rhs : Frame V} {q : Nat × Nat} : q ∈ allPairs lhs rhs ↔ q.1 < lhs.numRows ∧ q.2 < rhs.numRows := by
  unfold allPairs
  constructor
  · intro hq
    obtain ⟨a, ha, hb⟩ := List.mem_flatMap.1 hq
    obtain ⟨r, hr', rfl⟩ := List.mem_map.1 hb
    exact ⟨List.mem_range.1 ha, List.mem_range.1 hr'⟩
  · rintro ⟨h1, h2⟩
    exact List.mem_flatMap.2 ⟨q.1, List.mem_range.2 h1, List.mem_map.2 ⟨q.2, List.mem_range.2 h2, rfl⟩⟩

theorem flatPairs_length (n m : Nat) : ((List.range n).flatMap fun l => (List.range m).map fun r => (l, r)).length = m * n := by
  induction n with
  | zero => simp
  | succ n ih => rw [range_flatMap_succ, List.length_append, ih, Nat.mul_succ]; simp

theorem compare_first {cmp : CmpSem V} {lhs rhs : Frame V} (hl : lhs.WF) (hr : rhs.WF) {e : Equation}
    (he : e.l < lhs.cols.length ∧ e.r < rhs.cols.length) :
    Res.Ok (compareColumnPair cmp lhs rhs 0 e none) fun o => ∃ st, o = some st ∧
      PosOK (lhs.numRows * rhs.numRows) ((allPairs lhs rhs).filter (CondHolds cmp lhs rhs (e.l, e.r, e.op))) st := by
  unfold compareColumnPair
  dsimp only [Option.getD_none]
  rw [if_pos rfl]
  have outer := foldRange_ok
    (f := fun (st : Buf (Nat × Nat) × Nat) i => (List.range rhs.numRows).foldlM (init := st) fun st j => do
        let t ← e.holds cmp lhs rhs i j
        if t then addPosPair st i j else .ok st)
    (fun i => PosOK (lhs.numRows * rhs.numRows)
      (((List.range i).flatMap fun l => (List.range rhs.numRows).map fun r => (l, r)).filter (CondHolds cmp lhs rhs (e.l, e.r, e.op))))
    lhs.numRows (⟨lhs.numRows * rhs.numRows, fun _ => (0, 0)⟩, 0) ⟨rfl, rfl, by simp⟩ (by
      intro i hi st hst
      have inner := foldRange_ok
        (f := fun (st : Buf (Nat × Nat) × Nat) j => do
          let t ← e.holds cmp lhs rhs i j
          if t then addPosPair st i j else .ok st)
        (fun j => PosOK (lhs.numRows * rhs.numRows)
          (((List.range i).flatMap fun l => (List.range rhs.numRows).map fun r => (l, r)).filter (CondHolds cmp lhs rhs (e.l, e.r, e.op)) ++
            ((List.range j).map fun r => (i, r)).filter (CondHolds cmp lhs rhs (e.l, e.r, e.op))))
        rhs.numRows st (by simpa using hst) (by
          intro j hj st hst
          rw [holds_ok hl hr he hi hj, Res.ok_bind, List.range_succ, List.map_append, List.filter_append]
          by_cases ht : CondHolds cmp lhs rhs (e.l, e.r, e.op) (i, j) = true
          · rw [if_pos ht]
            refine (addPosPair_ok hst ?_ i j).mono fun st' h' => by simpa [ht] using h'.1
            rw [List.length_append]
            have h1 := List.length_filter_le (CondHolds cmp lhs rhs (e.l, e.r, e.op)) ((List.range i).flatMap fun l => (List.range rhs.numRows).map fun r => (l, r))
            have h2 := List.length_filter_le (CondHolds cmp lhs rhs (e.l, e.r, e.op)) ((List.range j).map fun r => (i, r))
            rw [flatPairs_length] at h1
            simp only [List.length_map, List.length_range] at h2
            have h3 : rhs.numRows * i + rhs.numRows ≤ lhs.numRows * rhs.numRows := by
              rw [← Nat.mul_succ, Nat.mul_comm]; exact Nat.mul_le_mul_right _ hi
            omega
          · rw [if_neg ht]
            exact ⟨st, rfl, by simpa [ht] using hst⟩)
      rw [range_flatMap_succ, List.filter_append]
      exact inner)
  obtain ⟨st, h1, h2⟩ := outer
  rw [h1]
  exact ⟨_, rfl, st, rfl, h2⟩

theorem compare_next {cmp : CmpSem V} {lhs rhs : Frame V} (hl : lhs.WF) (hr : rhs.WF) {e : Equation}
    (he : e.l < lhs.cols.length ∧ e.r < rhs.cols.length) {d : Nat} {L : List (Nat × Nat)} {st : Buf (Nat × Nat) × Nat}
    (hst : PosOK (lhs.numRows * rhs.numRows) L st) (hL : ∀ q ∈ L, q.1 < lhs.numRows ∧ q.2 < rhs.numRows)
    (hlen : L.length ≤ lhs.numRows * rhs.numRows) :
    Res.Ok (compareColumnPair cmp lhs rhs (d + 1) e (some st)) fun o => ∃ st', o = some st' ∧
      PosOK (lhs.numRows * rhs.numRows) (L.filter (CondHolds cmp lhs rhs (e.l, e.r, e.op))) st' := by
  unfold compareColumnPair
  dsimp only [Option.getD_some]
  rw [if_neg (by omega)]
  have key := foldRange_ok
    (f := fun (s : Buf (Nat × Nat) × Nat) k => do
      let q ← s.1.read k
      let t ← e.holds cmp lhs rhs q.1 q.2
      if t then addPosPair s q.1 q.2 else .ok s)
    (fun i s => PosOK (lhs.numRows * rhs.numRows) ((L.take i).filter (CondHolds cmp lhs rhs (e.l, e.r, e.op))) s ∧
      ∀ (k : Nat) p, i ≤ k → L[k]? = some p → s.1.data k = p)
    st.2 (st.1, 0) ⟨⟨hst.size, rfl, by simp⟩, fun k p _ hk => hst.data k p hk⟩ (by
      intro i hi s ⟨h1, h2⟩
      rw [hst.count] at hi
      have hgi : L[i]? = some L[i] := by simp [hi]
      rw [Buf.read_eq (by rw [h1.size]; omega), Res.ok_bind, h2 i _ (Nat.le_refl _) hgi]
      have hq := hL L[i] (List.getElem_mem hi)
      rw [holds_ok hl hr he hq.1 hq.2, Res.ok_bind, List.take_add_one, hgi, Option.toList_some, List.filter_append]
      have hlt : ((L.take i).filter (CondHolds cmp lhs rhs (e.l, e.r, e.op))).length ≤ i :=
        Nat.le_trans (List.length_filter_le _ _) (by simp)
      by_cases ht : CondHolds cmp lhs rhs (e.l, e.r, e.op) L[i] = true
      · rw [if_pos ht]
        refine (addPosPair_ok h1 (by omega) _ _).mono fun s' hs' => ⟨by simpa [ht] using hs'.1, fun k p hk hkp => ?_⟩
        rw [hs'.2 k (by omega)]
        exact h2 k p (by omega) hkp
      · rw [if_neg ht]
        exact ⟨s, rfl, by simpa [ht] using h1, fun k p hk hkp => h2 k p (by omega) hkp⟩)
  obtain ⟨s, h1, h2, _⟩ := key
  rw [h1]
  refine ⟨_, rfl, s, rfl, ?_⟩
  rw [hst.count, List.take_length] at h2
  exact h2

/-- The position of a condition is valid, and its columns are no strings. -/
def EqOK (lhs rhs : Frame V) (e : Equation) : Prop :=
  ∃ a b, lhs.cols[e.l]? = some a ∧ rhs.cols[e.r]? = some b ∧ a.vt.deducible = true ∧ b.vt.deducible = true

theorem EqOK.lt {lhs rhs : Frame V} {e : Equation} (h : EqOK lhs rhs e) : e.l < lhs.cols.length ∧ e.r < rhs.cols.length := by
  obtain ⟨a, b, h1, h2, -⟩ := h
  exact ⟨(List.getElem?_eq_some_iff.1 h1).1, (List.getElem?_eq_some_iff.1 h2).1⟩

theorem theta_next {cmp : CmpSem V} {lhs rhs : Frame V} (hl : lhs.WF) (hr : rhs.WF) (es : List Equation) :
    ∀ (d : Nat) (L : List (Nat × Nat)) (st : Buf (Nat × Nat) × Nat), (∀ e ∈ es, EqOK lhs rhs e) →
      PosOK (lhs.numRows * rhs.numRows) L st → (∀ q ∈ L, q.1 < lhs.numRows ∧ q.2 < rhs.numRows) →
      L.length ≤ lhs.numRows * rhs.numRows →
      Res.Ok (thetaPositions cmp lhs rhs (d + 1) es (some st)) fun o => ∃ st', o = some st' ∧
        PosOK (lhs.numRows * rhs.numRows) (L.filter fun p => es.all fun e => CondHolds cmp lhs rhs (e.l, e.r, e.op) p) st' := by
  induction es with
  | nil => intro d L st _ h _ _; exact ⟨_, rfl, st, rfl, by simpa using h⟩
  | cons e es ih =>
    intro d L st he h hL hlen
    obtain ⟨a, b, ha, hb, hda, hdb⟩ := he e (by simp)
    rw [thetaPositions]
    simp only [ha, hb, hda, hdb, Bool.and_self, if_true]
    refine (compare_next hl hr (he e (by simp)).lt h hL hlen).bind ?_
    rintro _ ⟨st', rfl, h'⟩
    have := ih (d + 1) _ st' (fun x hx => he x (by simp [hx])) h' (fun q hq => hL q (List.mem_filter.1 hq).1)
      (Nat.le_trans (List.length_filter_le _ _) hlen)
    refine this.mono ?_
    rintro _ ⟨s, rfl, hs⟩
    refine ⟨s, rfl, ?_⟩
    rw [List.filter_filter] at hs
    refine cast (congrArg (fun l => PosOK _ l s) (List.filter_congr fun q _ => ?_)) hs
    rw [List.all_cons, Bool.and_comm]

theorem theta_positions {cmp : CmpSem V} {lhs rhs : Frame V} (hl : lhs.WF) (hr : rhs.WF) {es : List Equation} (hne : es ≠ [])
    (he : ∀ e ∈ es, EqOK lhs rhs e) :
    Res.Ok (thetaPositions cmp lhs rhs 0 es none) fun o => ∃ st, o = some st ∧ PosOK (lhs.numRows * rhs.numRows)
      ((allPairs lhs rhs).filter fun p => es.all fun e => CondHolds cmp lhs rhs (e.l, e.r, e.op) p) st := by
  cases es with
  | nil => exact absurd rfl hne
  | cons e es =>
    obtain ⟨a, b, ha, hb, hda, hdb⟩ := he e (by simp)
    rw [thetaPositions]
    simp only [ha, hb, hda, hdb, Bool.and_self, if_true]
    refine (compare_first hl hr (he e (by simp)).lt).bind ?_
    rintro _ ⟨st', rfl, h'⟩
    have := theta_next (cmp := cmp) hl hr es 0 _ st' (fun x hx => he x (by simp [hx])) h' (fun q hq => mem_allPairs.1 (List.mem_filter.1 hq).1)
      (Nat.le_trans (List.length_filter_le _ _) (by rw [allPairs_length, Nat.mul_comm]))
    refine this.mono ?_
    rintro _ ⟨s, rfl, hs⟩
    refine ⟨s, rfl, ?_⟩
    rw [List.filter_filter] at hs
    refine cast (congrArg (fun l => PosOK _ l s) (List.filter_congr fun q _ => ?_)) hs
    rw [List.all_cons, Bool.and_comm]

/-! ### Writing the columns -/

theorem mapM_okR {α β : Type _} {f : α → Res β} {R : α → β → Prop} : ∀ (l : List α), (∀ x ∈ l, Res.Ok (f x) (R x)) →
    ∃ ys, l.mapM f = .ok ys ∧ List.Forall₂ R l ys
  | [], _ => ⟨[], rfl, .nil⟩
  | x :: l, h => by
    obtain ⟨y, hy, hR⟩ := h x (by simp)
    obtain ⟨ys, hys, hF⟩ := mapM_okR l fun z hz => h z (by simp [hz])
    exact ⟨y :: ys, by rw [List.mapM_cons, hy, hys]; rfl, .cons hR hF⟩

theorem mapM_throws {α β : Type _} {f : α → Res β} : ∀ (l : List α), (∀ x ∈ l, (∃ y, f x = .ok y) ∨ Res.Throws (f x)) →
    (∃ x ∈ l, Res.Throws (f x)) → Res.Throws (l.mapM f)
  | [], _, h => by simp at h
  | x :: l, h, hx => by
    rw [List.mapM_cons]
    rcases h x (by simp) with ⟨y, hy⟩ | ht
    · rw [hy, Res.ok_bind]
      obtain ⟨z, hz, htz⟩ := hx
      rcases List.mem_cons.1 hz with rfl | hz
      · obtain ⟨m, hm⟩ := htz; rw [hm] at hy; cases hy
      · exact Res.throws_bind (mapM_throws l (fun w hw => h w (by simp [hw])) ⟨z, hz, htz⟩)
    · exact Res.throws_bind ht

theorem forall₂_right {α β : Type _} {P : β → Prop} {l : List α} {ys : List β} (h : List.Forall₂ (fun _ y => P y) l ys) : ∀ y ∈ ys, P y := by
  induction h with
  | nil => simp
  | cons h _ ih => intro y hy; rcases List.mem_cons.1 hy with rfl | hy <;> [exact h; exact ih y hy]

theorem writeColumn_ok {arg out : FCol V} {sel : Nat × Nat → Nat} {pos : Buf (Nat × Nat)} {n : Nat} (hd : arg.vt.deducible = true)
    (hp : n ≤ pos.size) (hs : ∀ i, i < n → sel (pos.data i) < arg.data.size) (ho : n ≤ out.data.size) :
    Res.Ok (writeColumn arg sel pos n out) fun g => g.vt = out.vt ∧ g.label = out.label ∧ g.data.size = out.data.size ∧
      ∀ i, i < n → g.data.data i = arg.data.data (sel (pos.data i)) := by
  unfold writeColumn
  rw [if_pos hd]
  have key := foldRange_ok
    (f := fun (b : Buf V) i => do
      let q ← pos.read i
      let v ← arg.data.read (sel q)
      b.write i v)
    (fun k b => b.size = out.data.size ∧ ∀ i, i < k → b.data i = arg.data.data (sel (pos.data i)))
    n out.data ⟨rfl, by simp⟩ (by
      intro i hi b ⟨h1, h2⟩
      rw [Buf.read_eq (by omega), Res.ok_bind, Buf.read_eq (hs i hi), Res.ok_bind, Buf.write_eq (by omega)]
      refine ⟨_, rfl, h1, fun j hj => ?_⟩
      rw [Buf.put_data]
      by_cases hji : j = i
      · rw [if_pos hji, hji]
      · rw [if_neg hji]; exact h2 j (by omega))
  obtain ⟨b, h1, h2, h3⟩ := key
  rw [h1]
  exact ⟨_, rfl, rfl, rfl, h2, h3⟩

theorem resolves_mapM {lhs rhs : Frame V} (hlo : lhs.LabelsOK) (hro : rhs.LabelsOK) {conds pos} (h : Resolves lhs rhs conds pos) :
    (conds.mapM fun c => do
      let l ← lhs.getColumnIdx c.1
      let r ← rhs.getColumnIdx c.2.1
      .ok (⟨l, r, c.2.2⟩ : Equation)) = .ok (pos.map fun p => ⟨p.1, p.2.1, p.2.2⟩) := by
  induction h with
  | nil => rfl
  | cons hc _ ih =>
    rw [List.mapM_cons, idx_ok hlo hc.1, Res.ok_bind, idx_ok hro hc.2.1, Res.ok_bind, ih, hc.2.2.symm]
    rfl

theorem eqOK_of {lhs rhs : Frame V} {conds pos} (h : Resolves lhs rhs conds pos)
    (hl : ∀ vt ∈ lhs.schema, vt ∈ thetaTypes) (hr : ∀ vt ∈ rhs.schema, vt ∈ thetaTypes) :
    ∀ e ∈ pos.map (fun p => (⟨p.1, p.2.1, p.2.2⟩ : Equation)), EqOK lhs rhs e := by
  induction h with
  | nil => simp
  | @cons c p _ _ hc _ ih =>
    intro e he
    rcases List.mem_cons.1 he with rfl | he
    · have h1 := (List.getElem?_eq_some_iff.1 hc.1).1
      have h2 := (List.getElem?_eq_some_iff.1 hc.2.1).1
      simp only [Frame.labels, List.length_map] at h1 h2
      refine ⟨lhs.cols[p.1], rhs.cols[p.2.1], by simp [h1], by simp [h2], (deducible_iff _).2 (hl _ ?_), (deducible_iff _).2 (hr _ ?_)⟩
      · exact List.mem_map_of_mem (List.getElem_mem h1)
      · exact List.mem_map_of_mem (List.getElem_mem h2)
    · exact ih e he

theorem thetaPairs_mem {cmp : CmpSem V} {lhs rhs : Frame V} {pos q} (h : q ∈ thetaPairs cmp lhs rhs pos) :
    q.1 < lhs.numRows ∧ q.2 < rhs.numRows := mem_allPairs.1 (List.mem_filter.1 h).1

/-- **Theta join.** For one or more conditions on existing columns, frames without string columns whose labels are all
    distinct: the result has one row for each pair of rows for which all conditions hold, ordered by the row of `lhs`, then
    by the row of `rhs`, with the values of the two rows in all columns. If a label occurs twice, a column in a condition does
    not exist, or some column of either frame is a string column, it throws. -/
theorem C73_theta_join (cmp : CmpSem V) (lhs rhs : Frame V) (conds : List (String × String × CmpOp)) (junk : Nat → Nat → V)
    (hl : lhs.WF) (hr : rhs.WF) (hlo : lhs.LabelsOK) (hro : rhs.LabelsOK) (hne : conds ≠ []) :
    (∀ pos, Resolves lhs rhs conds pos → (lhs.labels ++ rhs.labels).Nodup → (∀ vt ∈ lhs.schema ++ rhs.schema, vt ∈ thetaTypes) →
      ∃ res, thetaJoin cmp lhs rhs conds junk = .ok res ∧ JoinResult thetaTypes lhs rhs (thetaPairs cmp lhs rhs pos) res) ∧
    (¬ (lhs.labels ++ rhs.labels).Nodup ∨ (∃ c ∈ conds, c.1 ∉ lhs.labels ∨ c.2.1 ∉ rhs.labels) ∨
      (∃ vt ∈ lhs.schema ++ rhs.schema, vt ∉ thetaTypes) → Res.Throws (thetaJoin cmp lhs rhs conds junk)) := by
  have hcol : ∀ {L : List (Nat × Nat)} {pos : Buf (Nat × Nat)} {n : Nat} {res0 : Frame V}, PosOK (lhs.numRows * rhs.numRows) L (pos, n) →
      (∀ q ∈ L, q.1 < lhs.numRows ∧ q.2 < rhs.numRows) → L.length ≤ lhs.numRows * rhs.numRows → res0.WF → res0.numRows = n →
      ∀ p ∈ ((lhs.cols.map fun c => (c, true)) ++ rhs.cols.map fun c => (c, false)).zip res0.cols,
        (p.1.1.vt.deducible = true → Res.Ok (writeColumn p.1.1 (if p.1.2 then (·.1) else (·.2)) pos n p.2) fun g =>
          g.vt = p.2.vt ∧ g.label = p.2.label ∧ g.data.size = p.2.data.size ∧
          ∀ (k : Nat) q, L[k]? = some q → g.data.data k = p.1.1.data.data (if p.1.2 then q.1 else q.2)) ∧
        (p.1.1.vt.deducible = false → Res.Throws (writeColumn p.1.1 (if p.1.2 then (·.1) else (·.2)) pos n p.2)) := by
    intro L pos n res0 hP hL hlen hw hn p hp
    have hcnt : n = L.length := hP.count
    have hsz : pos.size = lhs.numRows * rhs.numRows := hP.size
    constructor
    · intro hd
      have hlook : ∀ i, i < n → ∃ q, L[i]? = some q ∧ pos.data i = q := by
        intro i hi
        have : L[i]? = some L[i] := by simp [hcnt ▸ hi]
        exact ⟨L[i], this, hP.data i _ this⟩
      refine (writeColumn_ok hd (by rw [hsz, hcnt]; exact hlen) ?_ ?_).mono fun g hg => ⟨hg.1, hg.2.1, hg.2.2.1, fun k q hk => ?_⟩
      · intro i hi
        obtain ⟨q, hq, he⟩ := hlook i hi
        rw [he]
        have hqb := hL q (List.mem_of_getElem? hq)
        have hm := (List.of_mem_zip (a := p.1) (b := p.2) hp).1
        rcases List.mem_append.1 hm with hm | hm
        · obtain ⟨c, hc, he⟩ := List.mem_map.1 hm
          rw [← he]
          have := hl c hc
          show q.1 < c.data.size
          omega
        · obtain ⟨c, hc, he⟩ := List.mem_map.1 hm
          rw [← he]
          have := hr c hc
          show q.2 < c.data.size
          omega
      · have := hw p.2 (List.of_mem_zip (a := p.1) (b := p.2) hp).2
        omega
      · rw [hg.2.2.2 k (by rw [hcnt]; exact (List.getElem?_eq_some_iff.1 hk).1), show pos.data k = q from hP.data k q hk]
        cases p.1.2 <;> rfl
    · intro hd
      exact ⟨_, by rw [writeColumn, if_neg (by rw [hd]; simp)]⟩
  have hlenle : ∀ pos, (thetaPairs cmp lhs rhs pos).length ≤ lhs.numRows * rhs.numRows := fun pos =>
    Nat.le_trans (List.length_filter_le _ _) (by rw [allPairs_length, Nat.mul_comm])
  have hposEq : ∀ pos : List (Nat × Nat × CmpOp), ((allPairs lhs rhs).filter fun p =>
      (pos.map fun p => (⟨p.1, p.2.1, p.2.2⟩ : Equation)).all fun e => CondHolds cmp lhs rhs (e.l, e.r, e.op) p) = thetaPairs cmp lhs rhs pos := by
    intro pos
    unfold thetaPairs
    apply List.filter_congr
    intro q _
    rw [List.all_map]
    rfl
  constructor
  · intro pos hres hn hty
    have hEq := eqOK_of hres (fun vt h => hty vt (by simp [h])) (fun vt h => hty vt (by simp [h]))
    have hpne : (pos.map fun p => (⟨p.1, p.2.1, p.2.2⟩ : Equation)) ≠ [] := by
      cases hres with
      | nil => exact absurd rfl hne
      | cons => simp
    obtain ⟨_, h1, ⟨bp, n⟩, rfl, h2⟩ := theta_positions (cmp := cmp) hl hr hpne hEq
    rw [hposEq] at h2
    obtain ⟨res0, g1, g2, g3, g4, g5, g6, _⟩ := create_ok (n := n) junk labels_len hn
    obtain ⟨cols, h3, h4⟩ := mapM_okR (((lhs.cols.map fun c => (c, true)) ++ rhs.cols.map fun c => (c, false)).zip res0.cols) (fun p hp =>
      (hcol h2 (fun q hq => thetaPairs_mem hq) (hlenle pos) g6 g2 p hp).1 (by
        have hm := (List.of_mem_zip (a := p.1) (b := p.2) hp).1
        refine (deducible_iff _).2 (hty _ ?_)
        rcases List.mem_append.1 hm with hm | hm
        · obtain ⟨c, hc, he⟩ := List.mem_map.1 hm
          rw [← he]
          exact List.mem_append_left _ (List.mem_map_of_mem hc)
        · obtain ⟨c, hc, he⟩ := List.mem_map.1 hm
          rw [← he]
          exact List.mem_append_right _ (List.mem_map_of_mem hc)))
    have hcl : res0.cols.length = lhs.cols.length + rhs.cols.length := by
      have := congrArg List.length g3
      simpa [Frame.schema] using this
    have hzl : (((lhs.cols.map fun c => (c, true)) ++ rhs.cols.map fun c => (c, false)).zip res0.cols).length = res0.cols.length := by
      simp [hcl]
    have hcols : cols.length = res0.cols.length := by rw [← h4.length_eq, hzl]
    have hpt : ∀ c (hc : c < res0.cols.length), ∃ g s, cols[c]? = some g ∧
        ((lhs.cols.map fun c => (c, true)) ++ rhs.cols.map fun c => (c, false))[c]? = some s ∧
        g.vt = (res0.cols[c]).vt ∧ g.label = (res0.cols[c]).label ∧ g.data.size = (res0.cols[c]).data.size ∧
        ∀ (k : Nat) q, (thetaPairs cmp lhs rhs pos)[k]? = some q → g.data.data k = s.1.data.data (if s.2 then q.1 else q.2) := by
      intro c hc
      have := (List.forall₂_iff_get.1 h4).2 c (by rw [hzl]; exact hc) (by rw [hcols]; exact hc)
      simp only [List.get_eq_getElem, List.getElem_zip] at this
      exact ⟨cols[c], _, by simp [hcols, hc], List.getElem?_eq_getElem (by simp; omega), this⟩
    have hsig : (⟨res0.numRows, cols, res0.l2i⟩ : Frame V).sig = res0.sig := by
      simp only [Frame.sig, Prod.mk.injEq, true_and]
      apply List.ext_getElem
      · simp [hcols]
      · intro i a b
        simp only [List.length_map] at a b
        obtain ⟨g, s, e1, _, e2, e3, e4, _⟩ := hpt i b
        have := (List.getElem?_eq_some_iff.1 e1).2
        simp only [List.getElem_map, this, e2, e3, e4]
    refine ⟨⟨res0.numRows, cols, res0.l2i⟩, ?_, ?_⟩
    · unfold thetaJoin
      rw [resolves_mapM hlo hro hres, Res.ok_bind, h1, Res.ok_bind]
      dsimp only
      rw [g1, Res.ok_bind]
      rw [h3]
      rfl
    · refine ⟨g2.trans h2.count, (Frame.sig_schema hsig).trans g3, (Frame.sig_labels hsig).trans g4, Frame.sig_LabelsOK hsig g5, Frame.sig_WF hsig g6, ?_, ?_⟩
      · intro k p hk c vt hvt _
        have hc : c < lhs.cols.length := by
          have := (List.getElem?_eq_some_iff.1 hvt).1; simpa [Frame.schema] using this
        have hb := thetaPairs_mem (List.mem_of_getElem? hk)
        have hkl : k < n := by
          have h9 : n = _ := h2.count
          rw [h9]; exact (List.getElem?_eq_some_iff.1 hk).1
        obtain ⟨g, s, e1, e2, _, _, _, e3⟩ := hpt c (by omega)
        rw [List.getElem?_append_left (by simpa using hc)] at e2
        simp only [List.getElem?_map, List.getElem?_eq_getElem hc, Option.map_some, Option.some.injEq] at e2
        rw [Frame.cell_of_lt hb.1, Frame.cell_of_lt (by show k < res0.numRows; rw [g2]; exact hkl)]
        simp only [Frame.dat, e1, Option.map_some, List.getElem?_eq_getElem hc]
        rw [e3 k p hk, ← e2]
        rfl
      · intro k p hk c vt hvt _
        have hc : c < rhs.cols.length := by
          have := (List.getElem?_eq_some_iff.1 hvt).1; simpa [Frame.schema] using this
        have hb := thetaPairs_mem (List.mem_of_getElem? hk)
        have hkl : k < n := by
          have h9 : n = _ := h2.count
          rw [h9]; exact (List.getElem?_eq_some_iff.1 hk).1
        rw [show lhs.schema.length = lhs.cols.length by simp [Frame.schema]]
        obtain ⟨g, s, e1, e2, _, _, _, e3⟩ := hpt (lhs.cols.length + c) (by omega)
        rw [List.getElem?_append_right (by simp)] at e2
        simp only [List.length_map, Nat.add_sub_cancel_left, List.getElem?_map, List.getElem?_eq_getElem hc, Option.map_some, Option.some.injEq] at e2
        rw [Frame.cell_of_lt hb.2, Frame.cell_of_lt (by show k < res0.numRows; rw [g2]; exact hkl)]
        simp only [Frame.dat, e1, Option.map_some, List.getElem?_eq_getElem hc]
        rw [e3 k p hk, ← e2]
        rfl
  · intro hbad
    have hmapOr : ∀ c ∈ conds, (∃ y, (do
        let l ← lhs.getColumnIdx c.1
        let r ← rhs.getColumnIdx c.2.1
        .ok (⟨l, r, c.2.2⟩ : Equation) : Res Equation) = .ok y ∧ y.l < lhs.cols.length ∧ y.r < rhs.cols.length) ∨
        ((c.1 ∉ lhs.labels ∨ c.2.1 ∉ rhs.labels) ∧ Res.Throws (do
        let l ← lhs.getColumnIdx c.1
        let r ← rhs.getColumnIdx c.2.1
        .ok (⟨l, r, c.2.2⟩ : Equation) : Res Equation)) := by
      intro c _
      by_cases h1 : c.1 ∈ lhs.labels
      · obtain ⟨i, hi⟩ := List.mem_iff_getElem?.1 h1
        rw [idx_ok hlo hi, Res.ok_bind]
        by_cases h2 : c.2.1 ∈ rhs.labels
        · obtain ⟨j, hj⟩ := List.mem_iff_getElem?.1 h2
          rw [idx_ok hro hj, Res.ok_bind]
          have hi' := (List.getElem?_eq_some_iff.1 hi).1
          have hj' := (List.getElem?_eq_some_iff.1 hj).1
          simp only [Frame.labels, List.length_map] at hi' hj'
          exact .inl ⟨_, rfl, hi', hj'⟩
        · exact .inr ⟨.inr h2, Res.throws_bind (idx_throws hro h2)⟩
      · exact .inr ⟨.inl h1, Res.throws_bind (idx_throws hlo h1)⟩
    unfold thetaJoin
    by_cases hmiss : ∃ c ∈ conds, c.1 ∉ lhs.labels ∨ c.2.1 ∉ rhs.labels
    · refine Res.throws_bind (mapM_throws conds (fun c hc => ?_) ?_)
      · rcases hmapOr c hc with ⟨y, h, _⟩ | ⟨_, h⟩
        · exact .inl ⟨y, h⟩
        · exact .inr h
      · obtain ⟨c, hc, hx⟩ := hmiss
        refine ⟨c, hc, ?_⟩
        rcases hmapOr c hc with ⟨y, h, _⟩ | ⟨_, h⟩
        · exfalso
          rcases hx with hx | hx
          · obtain ⟨m, hm⟩ := idx_throws hlo hx
            rw [hm] at h; cases h
          · by_cases h1 : c.1 ∈ lhs.labels
            · obtain ⟨i, hi⟩ := List.mem_iff_getElem?.1 h1
              obtain ⟨m, hm⟩ := idx_throws hro hx
              rw [idx_ok hlo hi, Res.ok_bind, hm] at h; cases h
            · obtain ⟨m, hm⟩ := idx_throws hlo h1
              rw [hm] at h; cases h
        · exact h
    · have hbad : ¬ (lhs.labels ++ rhs.labels).Nodup ∨ (∃ vt ∈ lhs.schema ++ rhs.schema, vt ∉ thetaTypes) := hbad.imp_right fun h => h.resolve_left hmiss
      obtain ⟨eqs, heqs, hF⟩ := mapM_okR (f := fun c => (do
        let l ← lhs.getColumnIdx c.1
        let r ← rhs.getColumnIdx c.2.1
        .ok (⟨l, r, c.2.2⟩ : Equation) : Res Equation)) (R := fun _ (y : Equation) => y.l < lhs.cols.length ∧ y.r < rhs.cols.length) conds (by
          intro c hc
          rcases hmapOr c hc with ⟨y, h, h'⟩ | ⟨h, _⟩
          · exact ⟨y, h, h'⟩
          · exact absurd ⟨c, hc, h⟩ hmiss)
      rw [heqs, Res.ok_bind]
      have hlt : ∀ e ∈ eqs, e.l < lhs.cols.length ∧ e.r < rhs.cols.length := by
        exact forall₂_right hF
      have hene : eqs ≠ [] := by
        cases hF with
        | nil => exact absurd rfl hne
        | cons => simp
      -- either some condition has a string column, or all are fine
      have hthrowPos : ∀ (es : List Equation) (d : Nat) (L : List (Nat × Nat)) (st : Buf (Nat × Nat) × Nat),
          (∀ e ∈ es, e.l < lhs.cols.length ∧ e.r < rhs.cols.length) → (∃ e ∈ es, ¬ EqOK lhs rhs e) →
          PosOK (lhs.numRows * rhs.numRows) L st → (∀ q ∈ L, q.1 < lhs.numRows ∧ q.2 < rhs.numRows) →
          L.length ≤ lhs.numRows * rhs.numRows → Res.Throws (thetaPositions cmp lhs rhs (d + 1) es (some st)) := by
        intro es
        induction es with
        | nil => intro d L st _ h; simp at h
        | cons e es ih =>
          intro d L st hlt hex h hL hlen
          have h12 := hlt e (by simp)
          rw [thetaPositions]
          simp only [List.getElem?_eq_getElem h12.1, List.getElem?_eq_getElem h12.2]
          by_cases hd : ((lhs.cols[e.l]).vt.deducible && (rhs.cols[e.r]).vt.deducible) = true
          · rw [if_pos hd]
            rw [Bool.and_eq_true] at hd
            refine Res.throws_bind_of_ok (compare_next hl hr h12 h hL hlen) ?_
            rintro _ ⟨st', rfl, h'⟩
            refine ih (d + 1) _ st' (fun x hx => hlt x (by simp [hx])) ?_ h' (fun q hq => hL q (List.mem_filter.1 hq).1)
              (Nat.le_trans (List.length_filter_le _ _) hlen)
            obtain ⟨x, hx, hbadx⟩ := hex
            rcases List.mem_cons.1 hx with rfl | hx
            · exact absurd ⟨_, _, List.getElem?_eq_getElem h12.1, List.getElem?_eq_getElem h12.2, hd.1, hd.2⟩ hbadx
            · exact ⟨x, hx, hbadx⟩
          · rw [if_neg hd]; exact ⟨_, rfl⟩
      by_cases hall : ∀ e ∈ eqs, EqOK lhs rhs e
      · refine Res.throws_bind_of_ok (theta_positions hl hr hene hall) ?_
        rintro _ ⟨⟨bp, n⟩, rfl, h2⟩
        dsimp only
        by_cases hn : (lhs.labels ++ rhs.labels).Nodup
        · obtain ⟨res0, g1, g2, g3, g4, g5, g6, _⟩ := create_ok (n := n) junk labels_len hn
          rw [g1, Res.ok_bind]
          have hcl : res0.cols.length = lhs.cols.length + rhs.cols.length := by
            have := congrArg List.length g3
            simpa [Frame.schema] using this
          have hw := hcol h2 (fun q hq => mem_allPairs.1 (List.mem_filter.1 hq).1)
            (Nat.le_trans (List.length_filter_le _ _) (by rw [allPairs_length, Nat.mul_comm])) g6 g2
          refine Res.throws_bind (mapM_throws _ (fun p hp => ?_) ?_)
          · cases hd : p.1.1.vt.deducible with
            | true => obtain ⟨y, hy, _⟩ := (hw p hp).1 hd; exact .inl ⟨y, hy⟩
            | false => exact .inr ((hw p hp).2 hd)
          · obtain ⟨vt, hvt, hnt⟩ := hbad.resolve_left (by simpa using hn)
            obtain ⟨i, hi⟩ := List.mem_iff_getElem?.1 hvt
            have hil := (List.getElem?_eq_some_iff.1 hi).1
            simp only [List.length_append, Frame.schema, List.length_map] at hil
            have hzl : i < (((lhs.cols.map fun c => (c, true)) ++ rhs.cols.map fun c => (c, false)).zip res0.cols).length := by
              simp [hcl]; omega
            refine ⟨_, List.getElem_mem hzl, (hw _ (List.getElem_mem hzl)).2 ?_⟩
            have : ((((lhs.cols.map fun c => (c, true)) ++ rhs.cols.map fun c => (c, false)).zip res0.cols)[i]).1.1.vt = vt := by
              rw [List.getElem_zip]
              have e : ((lhs.cols.map fun c => (c, true)) ++ rhs.cols.map fun c => (c, false)).map (fun s => s.1.vt) = lhs.schema ++ rhs.schema := by
                simp [Frame.schema, Function.comp_def]
              rw [← e, List.getElem?_map, List.getElem?_eq_getElem (by simp; omega)] at hi
              simpa using hi
            rw [this]
            cases hd : vt.deducible with
            | false => rfl
            | true => exact absurd ((deducible_iff vt).1 hd) hnt
        · exact Res.throws_bind ((C69_create_labels _ _ (some (lhs.labels ++ rhs.labels)) junk (by rintro _ ⟨⟩; exact labels_len)).2.1 hn)
      · refine Res.throws_bind ?_
        cases eqs with
        | nil => exact absurd rfl hene
        | cons e es =>
          have h12 := hlt e (by simp)
          rw [thetaPositions]
          simp only [List.getElem?_eq_getElem h12.1, List.getElem?_eq_getElem h12.2]
          by_cases hd : ((lhs.cols[e.l]).vt.deducible && (rhs.cols[e.r]).vt.deducible) = true
          · rw [if_pos hd]
            rw [Bool.and_eq_true] at hd
            refine Res.throws_bind_of_ok (compare_first hl hr h12) ?_
            rintro _ ⟨st', rfl, h'⟩
            refine hthrowPos es 0 _ st' (fun x hx => hlt x (by simp [hx])) ?_ h' (fun q hq => mem_allPairs.1 (List.mem_filter.1 hq).1)
              (Nat.le_trans (List.length_filter_le _ _) (by rw [allPairs_length, Nat.mul_comm]))
            simp only [not_forall] at hall
            obtain ⟨x, hx, hbadx⟩ := hall
            rcases List.mem_cons.1 hx with rfl | hx
            · exact absurd ⟨_, _, List.getElem?_eq_getElem h12.1, List.getElem?_eq_getElem h12.2, hd.1, hd.2⟩ hbadx
            · exact ⟨x, hx, hbadx⟩
          · rw [if_neg hd]; exact ⟨_, rfl⟩

/-- Full property: a theta join without conditions is the Cartesian product. The code dereferences a null pointer. -/
theorem C75_theta_no_condition_partial (cmp : CmpSem V) (lhs rhs : Frame V) (junk : Nat → Nat → V) :
    Res.IsUB (thetaJoin cmp lhs rhs [] junk) := ⟨_, rfl⟩

end Verif.Rel
