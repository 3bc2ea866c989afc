/-
  Lemmas for the join kernels.
-/
import Verif.Rel.Joins

namespace Verif.Rel
open Verif

/-! ### Folds -/

theorem foldRange_ok {σ : Type _} {f : σ → Nat → Res σ} (Inv : Nat → σ → Prop) (n : Nat) (s : σ) (h0 : Inv 0 s)
    (hs : ∀ i, i < n → ∀ s, Inv i s → Res.Ok (f s i) (Inv (i + 1))) : Res.Ok ((List.range n).foldlM f s) (Inv n) := by
  induction n with
  | zero => exact ⟨s, rfl, h0⟩
  | succ n ih =>
    rw [List.range_succ, List.foldlM_append]
    refine (ih (fun i hi => hs i (by omega))).bind fun a ha => ?_
    rw [List.foldlM_cons]
    refine (hs n (by omega) a ha).bind fun b hb => ⟨b, rfl, hb⟩

/-- Every step returns or throws, and some step always throws. -/
theorem foldlM_throws {σ α : Type _} {f : σ → α → Res σ} (Inv : σ → Prop) (l : List α) (s : σ) (h0 : Inv s)
    (hs : ∀ a ∈ l, ∀ s, Inv s → Res.Ok (f s a) Inv ∨ Res.Throws (f s a))
    (hj : ∃ a ∈ l, ∀ s, Inv s → Res.Throws (f s a)) : Res.Throws (l.foldlM f s) := by
  induction l generalizing s with
  | nil => simp at hj
  | cons a l ih =>
    rw [List.foldlM_cons]
    rcases hs a (by simp) s h0 with ⟨b, hb, hI⟩ | h
    · rw [hb]
      obtain ⟨x, hx, ht⟩ := hj
      rcases List.mem_cons.1 hx with rfl | hx
      · obtain ⟨m, hm⟩ := ht s h0; rw [hm] at hb; cases hb
      · exact ih b hI (fun y hy => hs y (by simp [hy])) ⟨x, hx, ht⟩
    · exact Res.throws_bind h

/-! ### Cells -/

/-- Everything about a frame except the contents of the columns. -/
def Frame.sig (f : Frame V) : Nat × List (String × Nat) × List (VTC × String × Nat) :=
  (f.numRows, f.l2i, f.cols.map fun c => (c.vt, c.label, c.data.size))

/-- Element `r` of the array of column `c`. -/
def Frame.dat (f : Frame V) (c r : Nat) : Option V := (f.cols[c]?).map (·.data.data r)

theorem Frame.cell_of_lt {f : Frame V} {c r : Nat} (h : r < f.numRows) : f.cell c r = f.dat c r := by
  simp [Frame.cell, Frame.dat, h]

theorem Frame.sig_numRows {f g : Frame V} (h : g.sig = f.sig) : g.numRows = f.numRows := congrArg (·.1) h
theorem Frame.sig_l2i {f g : Frame V} (h : g.sig = f.sig) : g.l2i = f.l2i := congrArg (·.2.1) h
theorem Frame.sig_cols {f g : Frame V} (h : g.sig = f.sig) :
    (g.cols.map fun c => (c.vt, c.label, c.data.size)) = f.cols.map fun c => (c.vt, c.label, c.data.size) := congrArg (·.2.2) h
theorem Frame.sig_schema {f g : Frame V} (h : g.sig = f.sig) : g.schema = f.schema := by
  have := congrArg (List.map (fun p : VTC × String × Nat => p.1)) (Frame.sig_cols h)
  simpa [Frame.schema, Function.comp_def] using this
theorem Frame.sig_labels {f g : Frame V} (h : g.sig = f.sig) : g.labels = f.labels := by
  have := congrArg (List.map (fun p : VTC × String × Nat => p.2.1)) (Frame.sig_cols h)
  simpa [Frame.labels, Function.comp_def] using this
theorem Frame.sig_len {f g : Frame V} (h : g.sig = f.sig) : g.cols.length = f.cols.length := by
  have := congrArg List.length (Frame.sig_cols h)
  simpa using this
theorem Frame.sig_WF {f g : Frame V} (h : g.sig = f.sig) (hf : f.WF) : g.WF := by
  have h1 : ∀ s ∈ f.cols.map (fun c => (c.vt, c.label, c.data.size)), f.numRows ≤ s.2.2 := by
    intro s hs
    obtain ⟨c, hc, rfl⟩ := List.mem_map.1 hs
    exact hf c hc
  intro c hc
  rw [Frame.sig_numRows h]
  rw [← Frame.sig_cols h] at h1
  exact h1 _ (List.mem_map_of_mem hc)
theorem Frame.sig_LabelsOK {f g : Frame V} (h : g.sig = f.sig) (hf : f.LabelsOK) : g.LabelsOK := by
  apply labelsOK_of_map
  rw [Frame.sig_l2i h, Frame.sig_labels h]
  exact map_of_labelsOK hf

theorem schema_get {f : Frame V} {c : Nat} {vt : VTC} : f.schema[c]? = some vt ↔ ∃ col, f.cols[c]? = some col ∧ col.vt = vt := by
  simp [Frame.schema]

theorem getCell_ok {f : Frame V} (hf : f.WF) {vt : VTC} {c r : Nat} (hc : f.schema[c]? = some vt) (hr : r < f.numRows) :
    ∃ v, f.dat c r = some v ∧ f.getCell vt c r = .ok v := by
  obtain ⟨col, h1, h2⟩ := schema_get.1 hc
  refine ⟨col.data.data r, by simp [Frame.dat, h1], ?_⟩
  unfold Frame.getCell Frame.getColumn
  simp only [h1, h2, ne_eq, not_true, if_false]
  show (if f.numRows ≤ r then _ else col.data.read r) = _
  rw [if_neg (by omega)]
  exact Buf.read_eq (by have := hf col (List.mem_of_getElem? h1); omega)

theorem setCell_ok {f : Frame V} (hf : f.WF) {vt : VTC} {c r : Nat} (hc : f.schema[c]? = some vt) (hr : r < f.numRows) (v : V) :
    Res.Ok (f.setCell vt c r v) fun g => g.sig = f.sig ∧
      ∀ c' r', g.dat c' r' = if c' = c ∧ r' = r then some v else f.dat c' r' := by
  obtain ⟨col, h1, h2⟩ := schema_get.1 hc
  have hlt := (List.getElem?_eq_some_iff.1 h1).1
  unfold Frame.setCell Frame.getColumn
  simp only [h1, h2, ne_eq, not_true, if_false]
  show Res.Ok (if f.numRows ≤ r then _ else _) _
  rw [if_neg (by omega), Buf.write_eq (by have := hf col (List.mem_of_getElem? h1); omega)]
  refine ⟨_, rfl, ?_, ?_⟩
  · simp only [Frame.sig, Prod.mk.injEq, true_and]
    apply List.ext_getElem
    · simp
    · intro i a b
      simp only [List.getElem_map, List.getElem_set]
      split
      · subst_vars
        have := (List.getElem?_eq_some_iff.1 h1).2
        simp [this]
      · rfl
  · intro c' r'
    simp only [Frame.dat, List.getElem?_set]
    by_cases hcc : c = c'
    · subst hcc
      simp only [hlt, if_true, Option.map_some, h1, Buf.put_data]
      by_cases hrr : r' = r
      · simp [hrr]
      · simp [hrr]
    · rw [if_neg hcc, if_neg (by intro h; exact hcc h.1.symm)]

theorem setCell_throws {f : Frame V} {vt : VTC} {c r : Nat} (hc : f.schema[c]? = some vt) (hr : f.numRows ≤ r) (v : V) :
    Res.Throws (f.setCell vt c r v) := by
  obtain ⟨col, h1, h2⟩ := schema_get.1 hc
  unfold Frame.setCell Frame.getColumn
  simp only [h1, h2, ne_eq, not_true, if_false]
  show Res.Throws (if f.numRows ≤ r then _ else _)
  rw [if_pos hr]
  exact ⟨_, rfl⟩

/-! ### Copying rows -/

theorem copyCell_ok {sup schema : List VTC} {arg : Frame V} (ha : arg.WF) {toRow toCol fromRow fromCol : Nat} {vt : VTC}
    (h1 : schema[toCol]? = some vt) (h2 : arg.schema[fromCol]? = some vt) (h3 : fromRow < arg.numRows) (res : Frame V)
    (hw : res.WF) (hs : res.schema = schema) (hr : toRow < res.numRows) :
    Res.Ok (copyCell sup schema arg toRow toCol fromRow fromCol res) fun g => g.sig = res.sig ∧
      ∀ c r, g.dat c r = if c = toCol ∧ r = toRow ∧ vt ∈ sup then arg.dat fromCol fromRow else res.dat c r := by
  unfold copyCell
  induction sup generalizing res with
  | nil => exact ⟨res, rfl, rfl, by simp⟩
  | cons t sup ih =>
    rw [List.foldlM_cons, h1]
    by_cases ht : vt = t
    · subst ht
      rw [if_pos rfl]
      obtain ⟨v, hv, hg⟩ := getCell_ok ha h2 h3
      rw [hg]
      refine (setCell_ok hw (by rw [hs]; exact h1) hr v).bind fun g hgs => ?_
      have hsig := hgs.1
      have := ih g (Frame.sig_WF hsig hw) (by rw [Frame.sig_schema hsig, hs]) (by rw [Frame.sig_numRows hsig]; exact hr)
      rw [h1] at this
      refine this.mono fun g' hg' => ⟨hg'.1.trans hsig, fun c r => ?_⟩
      rw [hg'.2, hgs.2, hv]
      by_cases hx : c = toCol ∧ r = toRow
      · simp [hx.1, hx.2]
      · rw [if_neg (by tauto), if_neg hx, if_neg (by tauto)]
    · rw [if_neg (by simpa using ht)]
      have := ih res hw hs hr
      rw [h1] at this
      rw [Res.ok_bind]
      refine this.mono fun g' hg' => ⟨hg'.1, fun c r => ?_⟩
      rw [hg'.2]
      simp [ht]

/-- Without room for the row, copying a cell of a supported type throws, and of another type does nothing. -/
theorem copyCell_full {sup schema : List VTC} {arg : Frame V} (ha : arg.WF) {toRow toCol fromRow fromCol : Nat} {vt : VTC}
    (h1 : schema[toCol]? = some vt) (h2 : arg.schema[fromCol]? = some vt) (h3 : fromRow < arg.numRows) (res : Frame V)
    (hs : res.schema = schema) (hr : res.numRows ≤ toRow) :
    (vt ∈ sup → Res.Throws (copyCell sup schema arg toRow toCol fromRow fromCol res)) ∧
    (vt ∉ sup → copyCell sup schema arg toRow toCol fromRow fromCol res = .ok res) := by
  unfold copyCell
  induction sup with
  | nil => exact ⟨by simp, fun _ => rfl⟩
  | cons t sup ih =>
    rw [List.foldlM_cons, h1]
    rw [h1] at ih
    by_cases ht : vt = t
    · subst ht
      rw [if_pos rfl]
      obtain ⟨v, hv, hg⟩ := getCell_ok ha h2 h3
      rw [hg]
      refine ⟨fun _ => Res.throws_bind ?_, by simp⟩
      exact setCell_throws (by rw [hs]; exact h1) hr v
    · rw [if_neg (by simpa using ht)]
      simp only [List.mem_cons, ht, false_or]
      exact ih

/-- The value that belongs into column `c` of the result row for the rows `p.1` and `p.2`. -/
def rowVal (lhs rhs : Frame V) (p : Nat × Nat) (c : Nat) : Option V :=
  if c < lhs.cols.length then lhs.dat c p.1 else rhs.dat (c - lhs.cols.length) p.2

/-- Column `c` of the result has a type in `sup`. -/
def Supp (sup schema : List VTC) (c : Nat) : Prop := ∃ vt ∈ sup, schema[c]? = some vt

theorem schema_append_left {lhs rhs : Frame V} {c : Nat} (h : c < lhs.cols.length) :
    (lhs.schema ++ rhs.schema)[c]? = lhs.schema[c]? := List.getElem?_append_left (by simpa [Frame.schema] using h)
theorem schema_append_right {lhs rhs : Frame V} {c : Nat} :
    (lhs.schema ++ rhs.schema)[lhs.cols.length + c]? = rhs.schema[c]? := by
  rw [List.getElem?_append_right (by simp [Frame.schema])]; simp [Frame.schema]

theorem copyRow_ok {sup : List VTC} {lhs rhs : Frame V} (hl : lhs.WF) (hr : rhs.WF) {l r row : Nat} (h1 : l < lhs.numRows)
    (h2 : r < rhs.numRows) (res : Frame V) (hw : res.WF) (hs : res.schema = lhs.schema ++ rhs.schema)
    (hrow : row < res.numRows) :
    Res.Ok (copyRow sup (lhs.schema ++ rhs.schema) lhs rhs l r row res) fun g => g.sig = res.sig ∧
      (∀ c, Supp sup (lhs.schema ++ rhs.schema) c → g.dat c row = rowVal lhs rhs (l, r) c) ∧
      (∀ c r', (r' ≠ row ∨ ¬ Supp sup (lhs.schema ++ rhs.schema) c) → g.dat c r' = res.dat c r') := by
  unfold copyRow
  have key1 := foldRange_ok (f := fun res c => copyCell sup (lhs.schema ++ rhs.schema) lhs row c l c res)
    (fun i g => g.sig = res.sig ∧
      (∀ c, c < i → Supp sup (lhs.schema ++ rhs.schema) c → g.dat c row = rowVal lhs rhs (l, r) c) ∧
      (∀ c r', (r' ≠ row ∨ i ≤ c ∨ ¬ Supp sup (lhs.schema ++ rhs.schema) c) → g.dat c r' = res.dat c r'))
    lhs.cols.length res ⟨rfl, by simp, by simp⟩ (by
      intro i hi g ⟨hg1, hg2, hg3⟩
      have hvt : lhs.schema[i]? = some (lhs.cols[i]).vt := by simp [Frame.schema, hi]
      refine (copyCell_ok hl (by rw [schema_append_left hi, hvt]) hvt h1 g (Frame.sig_WF hg1 hw)
        (by rw [Frame.sig_schema hg1, hs]) (by rw [Frame.sig_numRows hg1]; exact hrow)).mono fun g' hg' =>
        ⟨hg'.1.trans hg1, fun c hc hS => ?_, fun c r' hc => ?_⟩
      · rw [hg'.2]
        by_cases hci : c = i
        · subst hci
          obtain ⟨t, ht, hst⟩ := hS
          rw [schema_append_left hi, hvt] at hst
          cases hst
          simp [ht, rowVal, hi]
        · rw [if_neg (by tauto)]
          exact hg2 c (by omega) hS
      · rw [hg'.2, if_neg]
        · exact hg3 c r' (by rcases hc with h | h | h <;> [exact .inl h; exact .inr (.inl (by omega)); exact .inr (.inr h)])
        · rintro ⟨rfl, rfl, ht⟩
          rcases hc with h | h | h
          · exact h rfl
          · omega
          · exact h ⟨_, ht, by rw [schema_append_left hi, hvt]⟩)
  refine key1.bind fun g1 ⟨a1, a2, a3⟩ => ?_
  have key2 := foldRange_ok (f := fun res c => copyCell sup (lhs.schema ++ rhs.schema) rhs row (lhs.cols.length + c) r c res)
    (fun i g => g.sig = res.sig ∧
      (∀ c, c < lhs.cols.length + i → Supp sup (lhs.schema ++ rhs.schema) c → g.dat c row = rowVal lhs rhs (l, r) c) ∧
      (∀ c r', (r' ≠ row ∨ lhs.cols.length + i ≤ c ∨ ¬ Supp sup (lhs.schema ++ rhs.schema) c) → g.dat c r' = res.dat c r'))
    rhs.cols.length g1 ⟨a1, a2, a3⟩ (by
      intro i hi g ⟨hg1, hg2, hg3⟩
      have hvt : rhs.schema[i]? = some (rhs.cols[i]).vt := by simp [Frame.schema, hi]
      refine (copyCell_ok hr (by rw [schema_append_right, hvt]) hvt h2 g (Frame.sig_WF hg1 hw)
        (by rw [Frame.sig_schema hg1, hs]) (by rw [Frame.sig_numRows hg1]; exact hrow)).mono fun g' hg' =>
        ⟨hg'.1.trans hg1, fun c hc hS => ?_, fun c r' hc => ?_⟩
      · rw [hg'.2]
        by_cases hci : c = lhs.cols.length + i
        · subst hci
          obtain ⟨t, ht, hst⟩ := hS
          rw [schema_append_right, hvt] at hst
          cases hst
          simp [ht, rowVal]
        · rw [if_neg (by tauto)]
          exact hg2 c (by omega) hS
      · rw [hg'.2, if_neg]
        · exact hg3 c r' (by rcases hc with h | h | h <;> [exact .inl h; exact .inr (.inl (by omega)); exact .inr (.inr h)])
        · rintro ⟨rfl, rfl, ht⟩
          rcases hc with h | h | h
          · exact h rfl
          · omega
          · exact h ⟨_, ht, by rw [schema_append_right, hvt]⟩)
  refine key2.mono fun g ⟨b1, b2, b3⟩ => ⟨b1, fun c hS => b2 c ?_ hS, fun c r' h => b3 c r' (by tauto)⟩
  obtain ⟨t, _, ht⟩ := hS
  have := (List.getElem?_eq_some_iff.1 ht).1
  simpa [Frame.schema] using this

theorem copyRow_full {sup : List VTC} {lhs rhs : Frame V} (hl : lhs.WF) (hr : rhs.WF) {l r row : Nat} (h1 : l < lhs.numRows)
    (h2 : r < rhs.numRows) (res : Frame V) (hs : res.schema = lhs.schema ++ rhs.schema)
    (hrow : res.numRows ≤ row) (hS : ∃ c, Supp sup (lhs.schema ++ rhs.schema) c) :
    Res.Throws (copyRow sup (lhs.schema ++ rhs.schema) lhs rhs l r row res) := by
  unfold copyRow
  obtain ⟨c, vt, hvt, hc⟩ := hS
  have hlen := (List.getElem?_eq_some_iff.1 hc).1
  have hL : ∀ i ∈ List.range lhs.cols.length, ∀ g : Frame V, g = res →
      Res.Ok (copyCell sup (lhs.schema ++ rhs.schema) lhs row i l i g) (· = res) ∨
      Res.Throws (copyCell sup (lhs.schema ++ rhs.schema) lhs row i l i g) := by
    rintro i hi g rfl
    have hi := List.mem_range.1 hi
    have hv : lhs.schema[i]? = some (lhs.cols[i]).vt := by simp [Frame.schema, hi]
    have := copyCell_full (sup := sup) hl (by rw [schema_append_left hi, hv]) hv h1 g hs hrow
    by_cases hm : lhs.cols[i].vt ∈ sup
    · exact .inr (this.1 hm)
    · exact .inl ⟨_, this.2 hm, rfl⟩
  have hR : ∀ i ∈ List.range rhs.cols.length, ∀ g : Frame V, g = res →
      Res.Ok (copyCell sup (lhs.schema ++ rhs.schema) rhs row (lhs.cols.length + i) r i g) (· = res) ∨
      Res.Throws (copyCell sup (lhs.schema ++ rhs.schema) rhs row (lhs.cols.length + i) r i g) := by
    rintro i hi g rfl
    have hi := List.mem_range.1 hi
    have hv : rhs.schema[i]? = some (rhs.cols[i]).vt := by simp [Frame.schema, hi]
    have := copyCell_full (sup := sup) hr (by rw [schema_append_right, hv]) hv h2 g hs hrow
    by_cases hm : rhs.cols[i].vt ∈ sup
    · exact .inr (this.1 hm)
    · exact .inl ⟨_, this.2 hm, rfl⟩
  by_cases hex : ∃ i ∈ List.range lhs.cols.length, (∀ g : Frame V, g = res → Res.Throws (copyCell sup (lhs.schema ++ rhs.schema) lhs row i l i g))
  · exact Res.throws_bind (foldlM_throws (· = res) _ res rfl hL hex)
  · have hok : ∀ i, i < lhs.cols.length → copyCell sup (lhs.schema ++ rhs.schema) lhs row i l i res = .ok res := by
      intro i hi
      rcases hL i (List.mem_range.2 hi) res rfl with ⟨g, hg, rfl⟩ | h
      · exact hg
      · exact absurd ⟨i, List.mem_range.2 hi, by rintro g rfl; exact h⟩ hex
    refine Res.throws_bind_of_ok (foldRange_ok (fun _ g => g = res) _ res rfl fun i hi s hs => ⟨res, by rw [hs]; exact hok i hi, rfl⟩) ?_
    rintro g rfl
    refine foldlM_throws (· = g) _ g rfl hR ?_
    by_cases hcl : c < lhs.cols.length
    · exfalso
      rw [schema_append_left hcl] at hc
      have := (copyCell_full (sup := sup) hl (by rw [schema_append_left hcl, hc]) hc h1 g hs hrow).1 hvt
      obtain ⟨m, hm⟩ := this
      rw [hok c hcl] at hm
      cases hm
    · have e : c = lhs.cols.length + (c - lhs.cols.length) := by omega
      rw [e, schema_append_right] at hc
      refine ⟨c - lhs.cols.length, ?_, ?_⟩
      · rw [List.mem_range]
        simp [Frame.schema] at hlen
        omega
      · rintro g' rfl
        exact (copyCell_full (sup := sup) hr (by rw [schema_append_right, hc]) hc h2 g' hs hrow).1 hvt

/-- The first rows of the result hold the given pairs. -/
structure Filled (sup : List VTC) (lhs rhs res0 : Frame V) (ps : List (Nat × Nat)) (st : Nat × Frame V) : Prop where
  count : st.1 = ps.length
  sig : st.2.sig = res0.sig
  cells : ∀ (k : Nat) p, ps[k]? = some p → ∀ c, Supp sup (lhs.schema ++ rhs.schema) c → st.2.dat c k = rowVal lhs rhs p c
  rest : ∀ c r, ¬ Supp sup (lhs.schema ++ rhs.schema) c → st.2.dat c r = res0.dat c r

theorem copyRows_ok {sup : List VTC} {lhs rhs res0 : Frame V} (hl : lhs.WF) (hr : rhs.WF) (hw : res0.WF)
    (hs : res0.schema = lhs.schema ++ rhs.schema) (qs : List (Nat × Nat)) : ∀ (ps : List (Nat × Nat)) (st : Nat × Frame V),
    Filled sup lhs rhs res0 ps st → (∀ q ∈ qs, q.1 < lhs.numRows ∧ q.2 < rhs.numRows) →
    ps.length + qs.length ≤ res0.numRows →
    Res.Ok (copyRows sup (lhs.schema ++ rhs.schema) lhs rhs qs st) (Filled sup lhs rhs res0 (ps ++ qs)) := by
  induction qs with
  | nil => intro ps st h _ _; exact ⟨st, rfl, by simpa using h⟩
  | cons q qs ih =>
    intro ps st h hq hlen
    obtain ⟨l, r⟩ := q
    obtain ⟨hq1, hq2⟩ := hq (l, r) (by simp)
    simp only [List.length_cons] at hlen
    rw [copyRows]
    refine (copyRow_ok hl hr hq1 hq2 st.2 (Frame.sig_WF h.sig hw) (by rw [Frame.sig_schema h.sig, hs])
      (by rw [Frame.sig_numRows h.sig, h.count]; omega)).bind fun g ⟨g1, g2, g3⟩ => ?_
    have := ih (ps ++ [(l, r)]) (st.1 + 1, g) ⟨by simp [h.count], g1.trans h.sig, ?_, ?_⟩ (fun q hq' => hq q (by simp [hq'])) (by simp; omega)
    · simpa using this
    · intro k p hk c hS
      show g.dat c k = _
      by_cases hkl : k < ps.length
      · rw [List.getElem?_append_left hkl] at hk
        rw [g3 c k (.inl (by rw [h.count]; omega))]
        exact h.cells k p hk c hS
      · have hk' := (List.getElem?_eq_some_iff.1 hk).1
        simp at hk'
        have : k = ps.length := by omega
        subst this
        simp at hk
        rw [← hk, ← h.count]
        exact g2 c hS
    · intro c r' hS
      show g.dat c r' = _
      rw [g3 c r' (.inr hS)]
      exact h.rest c r' hS

theorem copyRows_full {sup : List VTC} {lhs rhs res0 : Frame V} (hl : lhs.WF) (hr : rhs.WF) (hw : res0.WF)
    (hs : res0.schema = lhs.schema ++ rhs.schema) (hS : ∃ c, Supp sup (lhs.schema ++ rhs.schema) c) (qs : List (Nat × Nat)) :
    ∀ (ps : List (Nat × Nat)) (st : Nat × Frame V),
    Filled sup lhs rhs res0 ps st → (∀ q ∈ qs, q.1 < lhs.numRows ∧ q.2 < rhs.numRows) →
    ps.length ≤ res0.numRows → res0.numRows < ps.length + qs.length →
    Res.Throws (copyRows sup (lhs.schema ++ rhs.schema) lhs rhs qs st) := by
  induction qs with
  | nil => intro ps st h _ h1 h2; simp at h2; omega
  | cons q qs ih =>
    intro ps st h hq hlen hlen2
    obtain ⟨l, r⟩ := q
    obtain ⟨hq1, hq2⟩ := hq (l, r) (by simp)
    simp only [List.length_cons] at hlen2
    rw [copyRows]
    by_cases hfull : res0.numRows = ps.length
    · exact Res.throws_bind (copyRow_full hl hr hq1 hq2 st.2 (by rw [Frame.sig_schema h.sig, hs])
        (by rw [Frame.sig_numRows h.sig, h.count]; omega) hS)
    · have h1 := copyRows_ok hl hr hw hs [(l, r)] ps st h (by simpa using ⟨hq1, hq2⟩) (by simp; omega)
      rw [copyRows] at h1
      obtain ⟨a, ha, hF⟩ := h1
      cases hc : copyRow sup (lhs.schema ++ rhs.schema) lhs rhs l r st.1 st.2 with
      | error e => rw [hc] at ha; cases ha
      | ok g =>
        rw [hc] at ha
        rw [Res.ok_bind]
        refine ih (ps ++ [(l, r)]) _ ?_ (fun q hq' => hq q (by simp [hq'])) (by simp; omega) (by simp; omega)
        have : a = (st.1 + 1, g) := by
          have h2 : (Except.ok (st.1 + 1, g) : Res (Nat × Frame V)) = .ok a := ha
          cases h2; rfl
        rw [← this]; exact hF

/-- A freshly created frame. -/
theorem create_ok {n : Nat} {schema : List VTC} {ls : List String} (junk : Nat → Nat → V) (hlen : ls.length = schema.length)
    (hn : ls.Nodup) : ∃ f, Frame.create n schema (some ls) junk = .ok f ∧ f.numRows = n ∧ f.schema = schema ∧ f.labels = ls ∧
      f.LabelsOK ∧ f.WF ∧ ∀ c r, c < schema.length → f.dat c r = some (junk c r) := by
  obtain ⟨f, h1, h2, h3, h4, h5⟩ := (C69_create_labels n schema (some ls) junk (by rintro _ ⟨⟩; exact hlen)).1 hn
  refine ⟨f, h1, h2, h3, h4, h5, ?_, ?_⟩
  all_goals
    obtain ⟨m, hm, _⟩ := (initL_iff ls).1 hn
    unfold Frame.create at h1
    simp only [Option.getD_some, hm] at h1
    have h1 : (Except.ok _ : Res (Frame V)) = .ok f := h1
    cases h1
  · intro c hc
    obtain ⟨i, hi, rfl⟩ := List.mem_iff_getElem.1 hc
    simp
  · intro c r hc
    simp [Frame.dat, hc, hlen]

end Verif.Rel
