/-
  Labels of frames (C69, C70).
-/
import Verif.Rel.GroupMain

namespace Verif.Rel
open Verif

theorem map_snd_zip_eq {l : List α} {l' : List β} (h : l'.length ≤ l.length) : (l.zip l').map (·.2) = l' :=
  List.map_snd_zip h

theorem mapOK_nil : MapOK ([] : List (String × Nat)) ([] : List String) := by intro l i; simp [lookupLabel]

/-- **Creating a frame** with labels (one per column) succeeds exactly if the labels are distinct; then the frame has
    these labels and value types, and looking up a label gives the position of the column with that label. Without labels
    the columns are called `col_0`, `col_1`, … -/
theorem C69_create_labels (n : Nat) (schema : List VTC) (labels : Option (List String)) (junk : Nat → Nat → V)
    (hlen : ∀ ls, labels = some ls → ls.length = schema.length) :
    ((labels.getD ((List.range schema.length).map defaultLabel)).Nodup →
      ∃ f, Frame.create n schema labels junk = .ok f ∧ f.numRows = n ∧ f.schema = schema ∧
        f.labels = labels.getD ((List.range schema.length).map defaultLabel) ∧ f.LabelsOK) ∧
    (¬ (labels.getD ((List.range schema.length).map defaultLabel)).Nodup → Res.Throws (Frame.create n schema labels junk)) ∧
    (labels = none → (labels.getD ((List.range schema.length).map defaultLabel)).Nodup) := by
  set ls := labels.getD ((List.range schema.length).map defaultLabel) with hls
  have hl : ls.length = schema.length := by
    cases labels with
    | none => simp [hls]
    | some l => exact hlen l rfl
  refine ⟨fun hn => ?_, fun hn => ?_, ?_⟩
  · obtain ⟨m, hm, hok⟩ := (initL_iff ls).1 hn
    refine ⟨⟨n, (schema.zip ls).mapIdx fun i p => ⟨p.1, p.2, ⟨n, junk i⟩⟩, m⟩, ?_, rfl, ?_, ?_, ?_⟩
    · unfold Frame.create
      rw [← hls]
      dsimp only
      rw [hm]; rfl
    · apply List.ext_getElem
      · simp [Frame.schema, hl]
      · intro i h1 h2; simp [Frame.schema]
    · apply List.ext_getElem
      · simp [Frame.labels, hl]
      · intro i h1 h2; simp [Frame.labels]
    · refine labelsOK_of_map ?_
      have : Frame.labels (⟨n, (schema.zip ls).mapIdx fun i p => ⟨p.1, p.2, ⟨n, junk i⟩⟩, m⟩ : Frame V) = ls := by
        apply List.ext_getElem
        · simp [Frame.labels, hl]
        · intro i h1 h2; simp [Frame.labels]
      rw [this]; exact hok
  · unfold Frame.create
    rw [← hls]
    exact Res.throws_bind ((initL_iff ls).2 hn)
  · intro h
    rw [hls, h]
    exact List.Nodup.map (fun a b h => defaultLabel_inj h) List.nodup_range

/-- **Column binding** of frames succeeds exactly if the row counts agree and all labels are distinct; the result has the
    columns of the first frame followed by those of the second. -/
theorem C69_bind_labels (lhs rhs : Frame V) :
    (lhs.numRows = rhs.numRows → (lhs.labels ++ rhs.labels).Nodup →
      ∃ f, Frame.bind lhs rhs = .ok f ∧ f.numRows = lhs.numRows ∧ f.cols = lhs.cols ++ rhs.cols ∧ f.LabelsOK) ∧
    (lhs.numRows ≠ rhs.numRows ∨ ¬ (lhs.labels ++ rhs.labels).Nodup → Res.Throws (Frame.bind lhs rhs)) := by
  have hl : (lhs.cols ++ rhs.cols).map (·.label) = lhs.labels ++ rhs.labels := by simp [Frame.labels]
  constructor
  · intro hr hn
    obtain ⟨m, hm, hok⟩ := (initL_iff _).1 hn
    refine ⟨⟨lhs.numRows, lhs.cols ++ rhs.cols, m⟩, ?_, rfl, rfl, labelsOK_of_map (by
      rw [show Frame.labels (⟨lhs.numRows, lhs.cols ++ rhs.cols, m⟩ : Frame V) = _ from hl]; exact hok)⟩
    unfold Frame.bind
    rw [if_neg (by simpa using hr)]
    dsimp only
    rw [hl, hm]; rfl
  · intro h
    unfold Frame.bind
    by_cases hr : lhs.numRows = rhs.numRows
    · rw [if_neg (by simpa using hr)]
      dsimp only
      rw [hl]
      rcases h with h | h
      · exact absurd hr h
      · exact Res.throws_bind ((initL_iff _).2 h)
    · rw [if_pos hr]; exact ⟨_, rfl⟩

/-- **Renaming columns** succeeds exactly if the new labels (one per column) are distinct; data and types stay. -/
theorem C69_set_labels (f : Frame V) (ls : List String) (hlen : ls.length = f.cols.length) :
    (ls.Nodup → ∃ g, f.setLabels ls = .ok g ∧ g.labels = ls ∧ g.schema = f.schema ∧ g.numRows = f.numRows ∧
      (∀ c r, g.cell c r = f.cell c r) ∧ g.LabelsOK) ∧
    (¬ ls.Nodup → Res.Throws (f.setLabels ls)) := by
  constructor
  · intro hn
    obtain ⟨m, hm, hok⟩ := (initL_iff _).1 hn
    have hl : Frame.labels (⟨f.numRows, (f.cols.zip ls).map fun p => { p.1 with label := p.2 }, m⟩ : Frame V) = ls := by
      simp only [Frame.labels, List.map_map]
      show (f.cols.zip ls).map (fun p => p.2) = ls
      exact List.map_snd_zip (by omega)
    refine ⟨⟨f.numRows, (f.cols.zip ls).map fun p => { p.1 with label := p.2 }, m⟩, ?_, hl, ?_, rfl, ?_, labelsOK_of_map (by rw [hl]; exact hok)⟩
    · unfold Frame.setLabels
      rw [hm]; rfl
    · simp only [Frame.schema, List.map_map]
      show (f.cols.zip ls).map (fun p => p.1.vt) = _
      rw [show (fun p : FCol V × String => p.1.vt) = (fun c : FCol V => c.vt) ∘ (fun p => p.1) from rfl, ← List.map_map,
        List.map_fst_zip (by omega)]
    · intro c r
      simp only [Frame.cell]
      by_cases hr : r < f.numRows
      · rw [if_pos hr, if_pos hr]
        by_cases hc : c < f.cols.length
        · simp [hc, hlen]
        · simp [List.getElem?_eq_none (show f.cols.length ≤ c by omega), List.getElem?_eq_none (show ((f.cols.zip ls).map _).length ≤ c by simp; omega)]
      · rw [if_neg hr, if_neg hr]
  · intro hn
    exact Res.throws_bind ((initL_iff ls).2 hn)

/-- **A frame from column matrices** succeeds exactly if there is at least one matrix, all have one column, the same number
    of rows, are not views, have a supported value type, and the labels (one per matrix, or the default labels) are
    distinct. -/
theorem C69_from_matrices (m0 : ColMat V) (ms : List (ColMat V)) (labels : Option (List String))
    (hlen : ∀ ls, labels = some ls → ls.length = ms.length + 1) :
    ((∀ m ∈ m0 :: ms, m.numCols = 1 ∧ m.numRows = m0.numRows ∧ m.rowSkip = 1 ∧ m.vt ≠ .fixedStr16) →
      (∀ ls, labels = some ls → ls.Nodup) →
      ∃ f, Frame.ofMats (m0 :: ms) labels = .ok f ∧ f.numRows = m0.numRows ∧ f.schema = (m0 :: ms).map (·.vt) ∧
        f.labels = labels.getD ((List.range (ms.length + 1)).map defaultLabel) ∧
        (∀ (j : Nat) m, (m0 :: ms)[j]? = some m → ∀ r, r < m0.numRows → f.cell j r = some (m.data.data r)) ∧ f.LabelsOK) ∧
    ((∃ m ∈ m0 :: ms, m.numCols ≠ 1 ∨ m.numRows ≠ m0.numRows ∨ m.rowSkip ≠ 1 ∨ m.vt = .fixedStr16) ∨
      (∃ ls, labels = some ls ∧ ¬ ls.Nodup) → Res.Throws (Frame.ofMats (m0 :: ms) labels)) ∧
    Res.Throws (Frame.ofMats ([] : List (ColMat V)) labels) := by
  refine ⟨fun hm hn => ?_, fun h => ?_, ⟨_, rfl⟩⟩
  · have hf : ∀ (P : ColMat V → Bool), (∀ m ∈ m0 :: ms, P m = false) → ((m0 :: ms).any P) = false := by
      intro P hP; rw [List.any_eq_false]; intro x hx; simp [hP x hx]
    unfold Frame.ofMats
    simp only
    rw [if_neg (by rw [hf]; simp; intro m h; simpa using (hm m h).1),
      if_neg (by rw [hf]; simp; intro m h; simpa using (hm m h).2.1),
      if_neg (by rw [hf]; simp; intro m h; simpa using (hm m h).2.2.1),
      if_neg (by rw [hf]; simp; intro m h; simpa using (hm m h).2.2.2)]
    set ls := labels.getD ((List.range (m0 :: ms).length).map defaultLabel) with hls
    have hl : ls.length = ms.length + 1 := by
      cases labels with
      | none => simp [hls]
      | some l => exact hlen l rfl
    have hnd : ls.Nodup := by
      cases labels with
      | none => exact List.Nodup.map (fun a b h => defaultLabel_inj h) List.nodup_range
      | some l => exact hn l rfl
    obtain ⟨m, hm', hok⟩ := (initL_iff ls).1 hnd
    have hlab : Frame.labels (⟨m0.numRows, ((m0 :: ms).zip ls).map fun p => ⟨p.1.vt, p.2, p.1.data⟩, m⟩ : Frame V) = ls := by
      simp only [Frame.labels, List.map_map]
      show ((m0 :: ms).zip ls).map (fun p => p.2) = ls
      exact List.map_snd_zip (by simp only [List.length_cons]; omega)
    refine ⟨⟨m0.numRows, ((m0 :: ms).zip ls).map fun p => ⟨p.1.vt, p.2, p.1.data⟩, m⟩, by rw [hm']; rfl, rfl, ?_, by rw [hlab, hls]; rfl, ?_,
      labelsOK_of_map (by rw [hlab]; exact hok)⟩
    · simp only [Frame.schema, List.map_map]
      show ((m0 :: ms).zip ls).map (fun p => p.1.vt) = _
      rw [show (fun p : ColMat V × String => p.1.vt) = (fun c : ColMat V => c.vt) ∘ (fun p => p.1) from rfl, ← List.map_map,
        List.map_fst_zip (by simp only [List.length_cons]; omega)]
    · intro j m' hj r hr
      have hjl : j < ms.length + 1 := by have := (List.getElem?_eq_some_iff.1 hj).1; simpa using this
      simp only [Frame.cell]
      rw [if_pos hr, List.getElem?_map, List.getElem?_zip_eq_some (z := (m', ls[j]'(by omega))).2 ⟨hj, List.getElem?_eq_getElem (by omega)⟩]
      rfl
  · unfold Frame.ofMats
    simp only
    split
    · exact ⟨_, rfl⟩
    split
    · exact ⟨_, rfl⟩
    split
    · exact ⟨_, rfl⟩
    split
    · exact ⟨_, rfl⟩
    · rename_i h1 h2 h3 h4
      rcases h with ⟨m, hm, h⟩ | ⟨ls, rfl, hn⟩
      · exfalso
        rcases h with h | h | h | h
        · exact h1 (List.any_eq_true.2 ⟨m, hm, by simpa using h⟩)
        · exact h2 (List.any_eq_true.2 ⟨m, hm, by simpa using h⟩)
        · exact h3 (List.any_eq_true.2 ⟨m, hm, by simpa using h⟩)
        · exact h4 (List.any_eq_true.2 ⟨m, hm, by simpa using h⟩)
      · exact Res.throws_bind ((initL_iff ls).2 hn)

theorem sub_eq {f : Frame V} {rl ru : Nat} {idxs : List Nat} {cs : List (FCol V)} (h : idxs.map (fun i => f.cols[i]?) = cs.map some)
    (hr : rl ≤ ru) (hr' : ru ≤ f.numRows) (hr'' : rl < f.numRows ∨ rl = 0) :
    f.sub rl ru idxs = .ok ⟨ru - rl, (cs.zip (initD 0 (cs.map (·.label)) []).1).map fun p =>
      ⟨p.1.vt, p.2, ⟨p.1.data.size - rl, fun k => p.1.data.data (rl + k)⟩⟩, (initD 0 (cs.map (·.label)) []).2⟩ := by
  unfold Frame.sub
  have h1 : (idxs.filterMap fun i => f.cols[i]?) = cs := by
    have : (idxs.filterMap fun i => f.cols[i]?) = (idxs.map fun i => f.cols[i]?).filterMap id := by
      rw [List.filterMap_map]; rfl
    rw [this, h, List.filterMap_map]; simp
  have h2 : (idxs.any fun i => decide (f.cols.length ≤ i)) = false := by
    rw [List.any_eq_false]
    intro i hi
    have : f.cols[i]? ∈ cs.map some := by rw [← h]; exact List.mem_map_of_mem hi
    obtain ⟨c, _, hc⟩ := List.mem_map.1 this
    have := (List.getElem?_eq_some_iff.1 hc.symm).1
    simp; omega
  rw [if_neg (by omega), h1, if_neg (by rw [h2]; simp)]

/-- **Selecting rows and columns** (slicing and column extraction by position): for a valid row range and existing
    columns, the result has these columns in the given order with their data and types. If the selected labels are distinct,
    they are kept; if a column is selected more than once, every column still has a label of its own, provided that
    no selected label has the form `col_k` (see `C70_duplicate_default_label_partial`). -/
theorem C69_select (f : Frame V) (rl ru : Nat) (idxs : List Nat) (cs : List (FCol V))
    (hcs : idxs.map (fun i => f.cols[i]?) = cs.map some) (hr : rl ≤ ru) (hr' : ru ≤ f.numRows) (hr'' : rl < f.numRows ∨ rl = 0) :
    ∃ g, f.sub rl ru idxs = .ok g ∧ g.numRows = ru - rl ∧ g.schema = cs.map (·.vt) ∧ g.cols.length = idxs.length ∧
      (∀ (j : Nat) c, cs[j]? = some c → ∀ r, r < ru - rl → g.cell j r = some (c.data.data (rl + r))) ∧
      ((cs.map (·.label)).Nodup → g.labels = cs.map (·.label) ∧ g.LabelsOK) ∧
      ((∀ c ∈ cs, ∀ k, c.label ≠ defaultLabel k) → g.LabelsOK ∧ g.labels.Nodup) := by
  have hlen : cs.length = idxs.length := by have := congrArg List.length hcs; simpa using this.symm
  have hdl : (initD 0 (cs.map (·.label)) []).1.length = cs.length := by rw [initD_length]; simp
  have hlab : ∀ m, Frame.labels (⟨ru - rl, (cs.zip (initD 0 (cs.map (·.label)) []).1).map fun p =>
      ⟨p.1.vt, p.2, ⟨p.1.data.size - rl, fun k => p.1.data.data (rl + k)⟩⟩, m⟩ : Frame V) = (initD 0 (cs.map (·.label)) []).1 := by
    intro m
    simp only [Frame.labels, List.map_map]
    show (cs.zip (initD 0 (cs.map (·.label)) []).1).map (fun p => p.2) = _
    exact List.map_snd_zip (by omega)
  refine ⟨_, sub_eq hcs hr hr' hr'', rfl, ?_, by simp [hdl, hlen], ?_, ?_, ?_⟩
  · simp only [Frame.schema, List.map_map]
    show (cs.zip (initD 0 (cs.map (·.label)) []).1).map (fun p => p.1.vt) = _
    rw [show (fun p : FCol V × String => p.1.vt) = (fun c : FCol V => c.vt) ∘ (fun p => p.1) from rfl, ← List.map_map,
      List.map_fst_zip (by omega)]
  · intro j c hj r hr
    have hjl := (List.getElem?_eq_some_iff.1 hj).1
    simp only [Frame.cell]
    rw [if_pos hr, List.getElem?_map, List.getElem?_zip_eq_some (z := (c, (initD 0 (cs.map (·.label)) []).1[j]'(by omega))).2
      ⟨hj, List.getElem?_eq_getElem (by omega)⟩]
    rfl
  · intro hn
    have := initD_nodup (cs.map (·.label)) [] [] mapOK_nil (by simpa using hn)
    simp only [List.length_nil, List.nil_append] at this
    refine ⟨by rw [hlab]; exact this.1, labelsOK_of_map ?_⟩
    rw [hlab, this.1]; exact this.2
  · intro hn
    have := initD_ok (cs.map (·.label)) [] [] mapOK_nil (by
      intro l hl
      obtain ⟨c, hc, rfl⟩ := List.mem_map.1 hl
      exact hn c hc) (by simp)
    simp only [List.length_nil, List.nil_append] at this
    have hok := labelsOK_of_map (f := ⟨ru - rl, (cs.zip (initD 0 (cs.map (·.label)) []).1).map fun p =>
      ⟨p.1.vt, p.2, ⟨p.1.data.size - rl, fun k => p.1.data.data (rl + k)⟩⟩, (initD 0 (cs.map (·.label)) []).2⟩) (by rw [hlab]; exact this)
    exact ⟨hok, hok.nodup⟩

/-- A column that does not exist, or an invalid row range, makes the selection throw. -/
theorem C69_select_throws (f : Frame V) (rl ru : Nat) (idxs : List Nat)
    (h : (∃ i ∈ idxs, f.cols.length ≤ i) ∨ ru < rl ∨ f.numRows < ru ∨ (rl = f.numRows ∧ rl ≠ 0)) :
    Res.Throws (f.sub rl ru idxs) := by
  unfold Frame.sub
  split
  · exact ⟨_, rfl⟩
  · rename_i hn
    split
    · exact ⟨_, rfl⟩
    · rename_i hn'
      exfalso
      rcases h with ⟨i, hi, hle⟩ | h
      · exact hn' (List.any_eq_true.2 ⟨i, hi, by simpa using hle⟩)
      · exact hn h

/-- Selecting the column with the default label `col_1` twice gives two columns with that label, so that the first of them
    can no longer be found by its label; many kernels then throw. -/
theorem C70_duplicate_default_label_partial (f : Frame V) (i : Nat) (c : FCol V) (hi : f.cols[i]? = some c)
    (hl : c.label = defaultLabel 1) :
    ∃ g, f.sub 0 f.numRows [i, i] = .ok g ∧ g.labels = [defaultLabel 1, defaultLabel 1] ∧ ¬ g.LabelsOK ∧
      g.getColumnIdx (defaultLabel 1) = .ok 1 := by
  have hd : initD 0 ([c, c].map (·.label)) [] =
      ([defaultLabel 1, defaultLabel 1], [(defaultLabel 1, 1), (defaultLabel 1, 0)]) := by
    simp [initD, hl, lookupLabel, List.lookup]
  refine ⟨_, sub_full (f := f) (idxs := [i, i]) (cs := [c, c]) (by simp [hi]), by rw [hd]; rfl, ?_, by rw [hd]; rfl⟩
  intro h
  have := h.nodup
  rw [hd] at this
  simp [Frame.labels, relabel] at this

/-! ## Examples -/

/-- Two columns with labels of their own. -/
def exLab : Frame Int := ⟨2, [⟨.si64, "a", Buf.ofList [1, 2]⟩, ⟨.f64, "col_1", Buf.ofList [3, 4]⟩], [("col_1", 1), ("a", 0)]⟩

example : ∃ g, exLab.sub 0 2 [1, 0] = .ok g ∧ g.labels = ["col_1", "a"] ∧ g.LabelsOK := by
  obtain ⟨g, h1, _, _, _, _, h2, _⟩ := C69_select exLab 0 2 [1, 0]
    [⟨.f64, "col_1", Buf.ofList [3, 4]⟩, ⟨.si64, "a", Buf.ofList [1, 2]⟩] rfl (by omega) (by decide) (.inr rfl)
  exact ⟨g, h1, h2 (by decide)⟩

example : ∃ g, exLab.sub 0 2 [0, 0] = .ok g ∧ g.labels = ["a", "col_1"] := ⟨_, rfl, by decide +kernel⟩

example : ∃ c, exLab.cols[1]? = some c ∧ c.label = defaultLabel 1 := ⟨_, rfl, by decide +kernel⟩

example : Res.Throws (Frame.bind exLab exLab) := (C69_bind_labels exLab exLab).2 (.inr (by decide))

end Verif.Rel
