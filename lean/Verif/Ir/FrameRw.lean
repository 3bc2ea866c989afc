/-
  Model of rewrites around frames in src/ir/daphneir/Canonicalize.cpp: extraction of a column by its label (661-748) and chains of casts
  (757-811), with the kernels src/runtime/local/kernels/ExtractCol.h:118-144, SetColLabels.h and CastObj.h (frame <-> dense matrix).
  Properties C136-C139.
-/
import Verif.Rel.FrameThms

namespace Verif.Ir
open Verif Verif.Rel
variable {V : Type}

/-! ### Specification -/

/-- What a program can observe of a frame: the number of rows, value types, labels and cells. -/
structure SameFrame (f g : Frame V) : Prop where
  rows : f.numRows = g.numRows
  schema : f.schema = g.schema
  labels : f.labels = g.labels
  cells : ∀ c r, f.cell c r = g.cell c r

/-! ### Kernels -/

/-- ExtractCol.h:122-124: the part of the label before the first `.`, and the part after it. Without a `.`, `find` returns `npos`, and both
parts are the whole label. -/
def beforeDot (s : String) : List Char := s.toList.takeWhile (· ≠ '.')
def afterDot (s : String) : List Char := if '.' ∈ s.toList then (s.toList.dropWhile (· ≠ '.')).drop 1 else s.toList

/-- ExtractCol.h:125: the label selects all columns of a source frame. -/
def wild (s : String) : Bool := afterDot s == ['*']

/-- ExtractCol.h:128-134. -/
def wildIdxs (f : Frame V) (sel : String) : List String → Res (List Nat)
  | [] => .ok []
  | l :: ls =>
    if beforeDot l = beforeDot sel then do
      let i ← f.getColumnIdx l
      let is ← wildIdxs f sel ls
      .ok (i :: is)
    else wildIdxs f sel ls

/-- ExtractCol.h:119-142. -/
def extractLabel (f : Frame V) (sel : String) : Res (Frame V) :=
  if wild sel then do
    let is ← wildIdxs f sel f.labels
    f.sub 0 f.numRows is
  else do
    let i ← f.getColumnIdx sel
    f.sub 0 f.numRows [i]

/-- SetColLabels.h:32-54. -/
def setColLabels (f : Frame V) (ls : List String) : Res (Frame V) :=
  if ls.length ≠ f.numCols then .error (.throw "the number of given labels does not match the number of columns of the given frame")
  else do
    let g ← f.sub 0 f.numRows (List.range f.numCols)
    g.setLabels ls

/-- CastObj.h:146-171 for a matrix with a single column: it becomes the column of the frame; a view of a column of a larger matrix is copied. -/
def castColMat (m : ColMat V) : Res (Frame V) :=
  if m.rowSkip = 1 then Frame.ofMats [m] none
  else Frame.ofMats [⟨m.numRows, 1, 1, m.vt, ⟨m.numRows, fun r => m.data.data (r * m.rowSkip)⟩⟩] none

/-! ### Extraction of a column from a frame that is created from matrices -/

/-- The program: `createFrame(m_1, ..., m_n, labels)[[sel]]`. -/
def createThenExtract (ms : List (ColMat V)) (labels : List String) (sel : String) : Res (Frame V) := do
  let f ← Frame.ofMats ms (some labels)
  extractLabel f sel

/-- Canonicalize.cpp:690-724 (single-column matrices): the column whose label is the selected value is cast to a frame and gets the label. -/
def castThenLabel (m : ColMat V) (sel : String) : Res (Frame V) := do
  let f ← castColMat m
  setColLabels f [sel]

theorem sub_one {f : Frame V} {i : Nat} {c : FCol V} (h : f.cols[i]? = some c) :
    f.sub 0 f.numRows [i] = .ok ⟨f.numRows, [⟨c.vt, c.label, ⟨c.data.size, c.data.data⟩⟩], [(c.label, 0)]⟩ := by
  rw [sub_eq (cs := [c]) (by simp [h]) (by omega) (by omega) (by omega)]
  simp [initD, lookupLabel, List.lookup]

theorem initL_one (l : String) : initL 0 [l] [] = .ok [(l, 0)] := rfl

theorem castThenLabel_ok (m : ColMat V) (sel : String) (h1 : m.numCols = 1) (h2 : m.rowSkip = 1) (h3 : m.vt ≠ .fixedStr16) :
    castThenLabel m sel = .ok ⟨m.numRows, [⟨m.vt, sel, ⟨m.data.size, m.data.data⟩⟩], [(sel, 0)]⟩ := by
  have hcast : castColMat m = .ok ⟨m.numRows, [⟨m.vt, defaultLabel 0, m.data⟩], [(defaultLabel 0, 0)]⟩ := by
    unfold castColMat
    rw [if_pos h2]
    unfold Frame.ofMats
    simp [h1, h2, h3, initL, lookupLabel, List.lookup, Res.ok_bind]
  unfold castThenLabel
  rw [hcast]
  simp only [Res.ok_bind, setColLabels, Frame.numCols, List.length_cons, List.length_nil]
  simp only [ne_eq, not_true, if_false, Nat.zero_add, List.range_one]
  rw [sub_one (c := ⟨m.vt, defaultLabel 0, m.data⟩) (by simp)]
  simp only [Res.ok_bind, Frame.setLabels, initL_one]
  rfl

/-- **C136.** If creating the frame and extracting the column succeeds, then the rewritten program gives the same frame: one column with the
selected label. (`k` is the position of the label value in the argument list, the first with this value.) -/
theorem C136_extract_from_created (ms : List (ColMat V)) (labels : List String) (sel : String) (k : Nat) (m : ColMat V) (g : Frame V)
    (hlen : labels.length = ms.length) (hk : labels[k]? = some sel) (hm : ms[k]? = some m) (hw : wild sel = false)
    (h : createThenExtract ms labels sel = .ok g) :
    ∃ g', castThenLabel m sel = .ok g' ∧ SameFrame g g' ∧ g.labels = [sel] ∧ g.schema = [m.vt] ∧
      ∀ r, r < m.numRows → g.cell 0 r = some (m.data.data r) := by
  cases ms with
  | nil => simp at hm
  | cons m0 ms =>
  have key := C69_from_matrices m0 ms (some labels) (by rintro ls ⟨⟩; simpa using hlen)
  unfold createThenExtract at h
  by_cases hg : (∀ m ∈ m0 :: ms, m.numCols = 1 ∧ m.numRows = m0.numRows ∧ m.rowSkip = 1 ∧ m.vt ≠ .fixedStr16) ∧ labels.Nodup
  · obtain ⟨f, hf, h1, h2, h3, h4, h5⟩ := key.1 hg.1 (by rintro ls ⟨⟩; exact hg.2)
    rw [hf] at h
    simp only [Res.ok_bind, extractLabel, hw] at h
    have hi : f.getColumnIdx sel = .ok k := (h5 sel k).2 (by rw [h3]; exact hk)
    rw [hi] at h
    simp only [Res.ok_bind] at h
    obtain ⟨c, hc⟩ : ∃ c, f.cols[k]? = some c := by
      have : f.labels[k]? = some sel := by rw [h3]; exact hk
      simp only [Frame.labels, List.getElem?_map, Option.map_eq_some_iff] at this
      obtain ⟨c, hc, -⟩ := this
      exact ⟨c, hc⟩
    have hcl : c.label = sel := by
      have : f.labels[k]? = some sel := by rw [h3]; exact hk
      simpa [Frame.labels, hc] using this
    have hcv : c.vt = m.vt := by
      have : f.schema[k]? = some m.vt := by rw [h2, List.getElem?_map, hm]; rfl
      simpa [Frame.schema, hc] using this
    have hmm := hg.1 m (List.mem_of_getElem? hm)
    have hcd : ∀ r, r < m0.numRows → c.data.data r = m.data.data r := by
      intro r hr
      have := h4 k m hm r hr
      simpa [Frame.cell, h1, hr, hc] using this
    have h' : g = ⟨f.numRows, [⟨c.vt, c.label, ⟨c.data.size, c.data.data⟩⟩], [(c.label, 0)]⟩ := by
      have h6 := h.symm.trans (by simpa using sub_one hc)
      exact Except.ok.inj h6
    subst h'
    refine ⟨⟨m.numRows, [⟨m.vt, sel, ⟨m.data.size, m.data.data⟩⟩], [(sel, 0)]⟩, ?_, ?_, by simp [Frame.labels, hcl], by simp [Frame.schema, hcv], ?_⟩
    · exact castThenLabel_ok m sel hmm.1 hmm.2.2.1 hmm.2.2.2
    · refine ⟨by simp [h1, hmm.2.1], by simp [Frame.schema, hcv], by simp [Frame.labels, hcl], ?_⟩
      intro c' r
      simp only [Frame.cell, h1, hmm.2.1]
      by_cases hr : r < m0.numRows
      · rw [if_pos hr, if_pos hr]
        cases c' with
        | zero => simp [hcd r hr]
        | succ c' => simp
      · rw [if_neg hr, if_neg hr]
    · intro r hr
      rw [hmm.2.1] at hr
      simp [Frame.cell, h1, hr, hcd r hr]
  · exfalso
    have : Res.Throws (Frame.ofMats (m0 :: ms) (some labels)) := by
      refine key.2.1 ?_
      rw [not_and_or] at hg
      rcases hg with hg | hg
      · left
        push Not at hg
        obtain ⟨m, hm, hmm⟩ := hg
        refine ⟨m, hm, ?_⟩
        by_cases e1 : m.numCols = 1
        · by_cases e2 : m.numRows = m0.numRows
          · by_cases e3 : m.rowSkip = 1
            · exact Or.inr (Or.inr (Or.inr (hmm e1 e2 e3)))
            · exact Or.inr (Or.inr (Or.inl e3))
          · exact Or.inr (Or.inl e2)
        · exact Or.inl e1
      · right
        exact ⟨labels, rfl, hg⟩
    obtain ⟨e, he⟩ := this
    rw [he] at h
    cases h

def exMat (n : Nat) (d : Nat → Int) : ColMat Int := ⟨n, 1, 1, .si64, ⟨n, d⟩⟩

example : (createThenExtract [exMat 2 (fun r => r), exMat 2 (fun r => 10 * r)] ["a", "b"] "b").map (fun g => (g.labels, g.numRows, g.cell 0 1)) =
    .ok (["b"], 2, some 10) := by decide +kernel

/-- **C137 (refuted).** Full statement: the program with the rewrite behaves like the program without. False if creating the frame throws
(here: columns of different lengths), and if the label ends with `.*`: then all columns with the same prefix are extracted, but only one
of them by the rewritten program. -/
theorem C137_extract_from_created_partial (n k : Nat) (hnk : n ≠ k) (d : Nat → Int) :
    (Res.Throws (createThenExtract [exMat n d, exMat k d] ["a", "b"] "a") ∧ ∃ g, castThenLabel (exMat n d) "a" = .ok g) ∧
    (∃ g g', createThenExtract [exMat n d, exMat n d] ["x.*", "x.b"] "x.*" = .ok g ∧ castThenLabel (exMat n d) "x.*" = .ok g' ∧
      g.numCols = 2 ∧ g'.numCols = 1) := by
  refine ⟨⟨?_, ?_⟩, ?_⟩
  · have := (C69_from_matrices (exMat n d) [exMat k d] (some ["a", "b"]) (by rintro ls ⟨⟩; rfl)).2.1
      (Or.inl ⟨exMat k d, by simp, Or.inr (Or.inl (by simpa [exMat] using Ne.symm hnk))⟩)
    exact Res.throws_bind this
  · exact ⟨_, castThenLabel_ok _ _ rfl rfl (by simp [exMat])⟩
  · have hw : wild "x.*" = true := by decide +kernel
    have hb : beforeDot "x.*" = beforeDot "x.*" ∧ beforeDot "x.b" = beforeDot "x.*" := by decide +kernel
    have hne : ("x.b" == "x.*") = false := by decide +kernel
    have hne' : ("x.*" == "x.b") = false := by decide +kernel
    refine ⟨⟨n, [⟨.si64, "x.*", ⟨n, d⟩⟩, ⟨.si64, "x.b", ⟨n, d⟩⟩], [("x.b", 1), ("x.*", 0)]⟩, ⟨n, [⟨.si64, "x.*", ⟨n, d⟩⟩], [("x.*", 0)]⟩, ?_, ?_, rfl, rfl⟩
    · simp [createThenExtract, exMat, Frame.ofMats, initL, lookupLabel, List.lookup, extractLabel, hw, wildIdxs, hb.2, Frame.labels, Frame.getColumnIdx, hne, hne',
        Frame.sub, initD, Res.ok_bind]
    · exact castThenLabel_ok _ _ rfl rfl (by simp [exMat])

/-! ### Extraction from bound frames, repeated extraction, repeated labels -/

theorem extractLabel_one {f : Frame V} {sel : String} {i : Nat} {c : FCol V} (hw : wild sel = false) (hf : f.LabelsOK)
    (hi : f.labels[i]? = some sel) (hc : f.cols[i]? = some c) :
    extractLabel f sel = .ok ⟨f.numRows, [⟨c.vt, c.label, ⟨c.data.size, c.data.data⟩⟩], [(c.label, 0)]⟩ := by
  unfold extractLabel
  rw [hw]
  simp only [Bool.false_eq_true, if_false]
  rw [(hf sel i).2 hi]
  exact sub_one hc

theorem label_col {f : Frame V} {i : Nat} {sel : String} (h : f.labels[i]? = some sel) : ∃ c, f.cols[i]? = some c ∧ c.label = sel := by
  simp only [Frame.labels, List.getElem?_map, Option.map_eq_some_iff] at h
  exact h

/-- **C138 (bound frames).** Canonicalize.cpp:725-743: if binding the columns of two frames and extracting a column succeeds, and one of the
frames has the label, then extracting from that frame gives the same result. -/
theorem C138_extract_from_bound (l r b g : Frame V) (sel : String) (hw : wild sel = false) (hl : l.LabelsOK) (hr : r.LabelsOK)
    (hb : Frame.bind l r = .ok b) (hg : extractLabel b sel = .ok g) :
    (sel ∈ l.labels → ∃ g', extractLabel l sel = .ok g' ∧ SameFrame g g') ∧ (sel ∈ r.labels → ∃ g', extractLabel r sel = .ok g' ∧ SameFrame g g') := by
  have hok : l.numRows = r.numRows ∧ (l.labels ++ r.labels).Nodup := by
    by_contra hno
    obtain ⟨e, he⟩ := (C69_bind_labels l r).2 (by
      rw [not_and_or] at hno
      exact hno)
    rw [hb] at he; cases he
  obtain ⟨b', hb', h1, h2, h3⟩ := (C69_bind_labels l r).1 hok.1 hok.2
  rw [hb] at hb'
  obtain rfl := Except.ok.inj hb'
  have hlab : b.labels = l.labels ++ r.labels := by simp [Frame.labels, h2]
  constructor
  · intro hs
    obtain ⟨i, hi⟩ := List.getElem?_of_mem hs
    obtain ⟨c, hc, -⟩ := label_col hi
    have hil : i < l.cols.length := (List.getElem?_eq_some_iff.1 hc).1
    rw [extractLabel_one hw h3 (i := i) (c := c) (by rw [hlab, List.getElem?_append_left (by simpa [Frame.labels] using hil)]; exact hi)
      (by rw [h2, List.getElem?_append_left hil]; exact hc)] at hg
    obtain rfl := Except.ok.inj hg
    exact ⟨_, extractLabel_one hw hl hi hc, ⟨h1, rfl, rfl, fun c r => by simp only [Frame.cell, h1]⟩⟩
  · intro hs
    obtain ⟨i, hi⟩ := List.getElem?_of_mem hs
    obtain ⟨c, hc, -⟩ := label_col hi
    have e : l.labels.length = l.cols.length := by simp [Frame.labels]
    rw [extractLabel_one hw h3 (i := l.cols.length + i) (c := c)
      (by rw [hlab, List.getElem?_append_right (by omega), e, Nat.add_sub_cancel_left]; exact hi)
      (by rw [h2, List.getElem?_append_right (by omega), Nat.add_sub_cancel_left]; exact hc)] at hg
    obtain rfl := Except.ok.inj hg
    exact ⟨_, extractLabel_one hw hr hi hc, ⟨by rw [h1, hok.1], rfl, rfl, fun c r => by simp only [Frame.cell, h1, hok.1]⟩⟩

theorem wildIdxs_ok {f : Frame V} (sel : String) (hf : f.LabelsOK) : ∀ ls : List String, (∀ l ∈ ls, l ∈ f.labels) →
    ∃ is, wildIdxs f sel ls = .ok is ∧ is.map (fun i => f.labels[i]?) = (ls.filter fun l => beforeDot l = beforeDot sel).map some
  | [], _ => ⟨[], rfl, rfl⟩
  | l :: ls, h => by
    obtain ⟨is, h1, h2⟩ := wildIdxs_ok sel hf ls (fun x hx => h x (by simp [hx]))
    unfold wildIdxs
    by_cases e : beforeDot l = beforeDot sel
    · obtain ⟨i, hi⟩ := List.getElem?_of_mem (h l (by simp))
      rw [if_pos e, (hf l i).2 hi, h1]
      exact ⟨i :: is, rfl, by simp [e, hi, h2]⟩
    · rw [if_neg e, h1]
      exact ⟨is, rfl, by simp [e, h2]⟩

theorem labels_nodup {f : Frame V} (hf : f.LabelsOK) : f.labels.Nodup := hf.nodup

theorem map_getElem?_range {α : Type} (l : List α) : (List.range l.length).map (fun i => l[i]?) = l.map some := by
  apply List.ext_getElem <;> simp

/-- The frame view of all columns. -/
theorem sub_all (f : Frame V) (hf : f.LabelsOK) :
    ∃ g, f.sub 0 f.numRows (List.range f.cols.length) = .ok g ∧ SameFrame f g ∧ g.LabelsOK ∧ g.cols.length = f.cols.length := by
  obtain ⟨g, h1, h2, h3, h4, h5, h6, -⟩ := C69_select f 0 f.numRows (List.range f.cols.length) f.cols (map_getElem?_range _) (by omega) (by omega) (by omega)
  have hn := labels_nodup hf
  obtain ⟨h7, h8⟩ := h6 hn
  refine ⟨g, h1, ⟨by omega, h3.symm, h7.symm, ?_⟩, h8, by simpa using h4⟩
  intro c r
  by_cases hr : r < f.numRows
  · cases hc : f.cols[c]? with
    | none =>
      have : g.cols[c]? = none := by
        rw [List.getElem?_eq_none_iff] at hc ⊢
        simpa [h4] using hc
      simp [Frame.cell, hc, this]
    | some col =>
      rw [h5 c col hc r (by omega)]
      simp [Frame.cell, hc, hr]
  · simp [Frame.cell, h2, hr]

/-- **C138 (repeated extraction).** Canonicalize.cpp:744-752: extracting by the same label (also one that ends with `.*`) a second time
gives the same frame. -/
theorem C138_extract_twice (f g : Frame V) (sel : String) (hf : f.LabelsOK) (hg : extractLabel f sel = .ok g) :
    ∃ g', extractLabel g sel = .ok g' ∧ SameFrame g g' := by
  by_cases hw : wild sel = true
  · unfold extractLabel at hg ⊢
    rw [if_pos hw] at hg ⊢
    obtain ⟨is, h1, h2⟩ := wildIdxs_ok sel hf f.labels (fun _ h => h)
    rw [h1] at hg
    simp only [Res.ok_bind] at hg
    obtain ⟨cs, hcs⟩ : ∃ cs : List (FCol V), is.map (fun i => f.cols[i]?) = cs.map some := by
      have : ∀ i ∈ is, ∃ c, f.cols[i]? = some c := by
        intro i hi
        have : f.labels[i]? ∈ (f.labels.filter fun l => beforeDot l = beforeDot sel).map some := by rw [← h2]; exact List.mem_map_of_mem hi
        obtain ⟨l, -, hl⟩ := List.mem_map.1 this
        obtain ⟨c, hc, -⟩ := label_col hl.symm
        exact ⟨c, hc⟩
      clear h1 h2 hg
      induction is with
      | nil => exact ⟨[], rfl⟩
      | cons i is IH =>
        obtain ⟨cs, hcs⟩ := IH (fun j hj => this j (by simp [hj]))
        obtain ⟨c, hc⟩ := this i (by simp)
        exact ⟨c :: cs, by simp [hc, hcs]⟩
    have hcl : cs.map (·.label) = f.labels.filter fun l => beforeDot l = beforeDot sel := by
      have e : (cs.map (·.label)).map some = (f.labels.filter fun l => beforeDot l = beforeDot sel).map some := by
        rw [← h2]
        have : is.map (fun i => f.labels[i]?) = (is.map (fun i => f.cols[i]?)).map (Option.map (·.label)) := by
          simp [Frame.labels, Function.comp_def]
        rw [this, hcs]
        simp [Function.comp_def]
      exact List.map_injective_iff.2 (fun _ _ => Option.some.inj) e
    obtain ⟨g0, k1, k2, k3, k4, k5, k6, -⟩ := C69_select f 0 f.numRows is cs hcs (by omega) (by omega) (by omega)
    rw [hg] at k1
    obtain rfl := Except.ok.inj k1
    obtain ⟨k7, k8⟩ := k6 (by rw [hcl]; exact (labels_nodup hf).filter _)
    obtain ⟨is', m1, m2⟩ := wildIdxs_ok sel k8 g.labels (fun _ h => h)
    have hfil : (g.labels.filter fun l => beforeDot l = beforeDot sel) = g.labels := by
      rw [k7, hcl, List.filter_filter]; simp
    rw [hfil] at m2
    have his : is' = List.range g.cols.length := by
      have hl : is'.length = g.cols.length := by have := congrArg List.length m2; simpa [Frame.labels] using this
      apply List.ext_getElem
      · simp [hl]
      · intro i a1 a2
        have e : g.labels[is'[i]]? = some (g.labels[i]'(by simp [Frame.labels]; omega)) := by
          have := congrArg (fun l => l[i]?) m2
          simp only [List.getElem?_map, List.getElem?_eq_getElem a1, Option.map_some] at this
          have hgl : i < g.labels.length := by simp [Frame.labels]; omega
          rw [List.getElem?_eq_getElem hgl] at this
          simpa using this
        have h3 := (k8 _ _).2 e
        have h4 := (k8 (g.labels[i]'(by simp [Frame.labels]; omega)) i).2 (List.getElem?_eq_getElem _)
        rw [h3] at h4
        simpa using Except.ok.inj h4
    rw [m1, his]
    obtain ⟨g', n1, n2, -⟩ := sub_all g k8
    exact ⟨g', n1, n2⟩
  · have hw' : wild sel = false := by simpa using hw
    unfold extractLabel at hg
    rw [hw'] at hg
    simp only [Bool.false_eq_true, if_false] at hg
    cases hi : f.getColumnIdx sel with
    | error e => rw [hi] at hg; cases hg
    | ok i =>
      rw [hi] at hg
      have hl := (hf sel i).1 hi
      obtain ⟨c, hc, hcl⟩ := label_col hl
      rw [Res.ok_bind, sub_one hc] at hg
      obtain rfl := Except.ok.inj hg
      have hok : (⟨f.numRows, [⟨c.vt, c.label, ⟨c.data.size, c.data.data⟩⟩], [(c.label, 0)]⟩ : Frame V).LabelsOK := by
        refine labelsOK_of_map ?_
        have := initD_nodup [c.label] [] [] mapOK_nil (by simp)
        exact this.2
      refine ⟨_, extractLabel_one hw' hok (i := 0) (c := ⟨c.vt, c.label, ⟨c.data.size, c.data.data⟩⟩) ?_ rfl, ⟨rfl, rfl, rfl, fun _ _ => rfl⟩⟩
      simp [Frame.labels, hcl]

/-- **C138 (labels).** Canonicalize.cpp:816-843: giving a frame the labels it has changes nothing. -/
theorem C138_same_labels (f : Frame V) (hf : f.LabelsOK) : ∃ g, setColLabels f f.labels = .ok g ∧ SameFrame f g := by
  unfold setColLabels
  rw [if_neg (by simp [Frame.labels, Frame.numCols])]
  obtain ⟨g, h1, h2, h3, h4⟩ := sub_all f hf
  unfold Frame.numCols
  rw [h1]
  simp only [Res.ok_bind]
  obtain ⟨g', k1, k2, k3, k4, k5, -⟩ := (C69_set_labels g f.labels (by simp [Frame.labels, h4])).1 (labels_nodup hf)
  exact ⟨g', k1, ⟨h2.rows.trans k4.symm, h2.schema.trans k3.symm, k2.symm, fun c r => (h2.cells c r).trans (k5 c r).symm⟩⟩

/-! ### Chains of casts -/

/-- A matrix with a value type. -/
structure TMat (V : Type) where
  vt : VTC
  rows : Nat
  cols : Nat
  cell : Nat → Nat → V

/-- Same type, shape and cells. -/
structure SameMat (a b : TMat V) : Prop where
  vt : a.vt = b.vt
  rows : a.rows = b.rows
  cols : a.cols = b.cols
  cells : ∀ r c, r < a.rows → c < a.cols → a.cell r c = b.cell r c

/-- CastObj.h:146-171: matrix to frame. -/
def castMF (m : TMat V) : Res (Frame V) :=
  Frame.ofMats ((List.range m.cols).map fun c => ⟨m.rows, 1, 1, m.vt, ⟨m.rows, fun r => m.cell r c⟩⟩) none

/-- CastObj.h:58-138: frame to matrix; `conv s t` is `castSca` (columns that do not exist are not looked at). -/
def castFM [Inhabited V] (conv : VTC → VTC → V → V) (t : VTC) (f : Frame V) : TMat V :=
  ⟨t, f.numRows, f.numCols, fun r c => match f.cols[c]? with
    | some col => conv col.vt t (col.data.data r)
    | none => default⟩

/-- CastObj.h:177-206: matrix to matrix. -/
def castMM (conv : VTC → VTC → V → V) (t : VTC) (m : TMat V) : TMat V := ⟨t, m.rows, m.cols, fun r c => conv m.vt t (m.cell r c)⟩

theorem castMF_ok (m : TMat V) (hv : m.vt ≠ .fixedStr16) (hc : m.cols ≠ 0) :
    ∃ f, castMF m = .ok f ∧ f.numRows = m.rows ∧ f.schema = List.replicate m.cols m.vt ∧ f.labels = (List.range m.cols).map defaultLabel ∧
      (∀ c r, c < m.cols → r < m.rows → f.cell c r = some (m.cell r c)) := by
  unfold castMF
  obtain ⟨k, hk⟩ : ∃ k, m.cols = k + 1 := ⟨m.cols - 1, by omega⟩
  rw [hk, List.range_succ_eq_map, List.map_cons]
  obtain ⟨f, h1, h2, h3, h4, h5, -⟩ := (C69_from_matrices (⟨m.rows, 1, 1, m.vt, ⟨m.rows, fun r => m.cell r 0⟩⟩ : ColMat V)
    ((List.map Nat.succ (List.range k)).map fun c => ⟨m.rows, 1, 1, m.vt, ⟨m.rows, fun r => m.cell r c⟩⟩) none (by rintro ls ⟨⟩)).1 (by
      intro x hx
      rw [List.mem_cons] at hx
      rcases hx with rfl | hx
      · exact ⟨rfl, rfl, rfl, hv⟩
      · obtain ⟨c, -, rfl⟩ := List.mem_map.1 hx
        exact ⟨rfl, rfl, rfl, hv⟩) (by rintro ls ⟨⟩)
  refine ⟨f, h1, h2, ?_, ?_, ?_⟩
  · rw [h3]
    apply List.ext_getElem
    · simp
    · intro i a1 a2
      cases i <;> simp
  · rw [h4]
    simp only [List.length_map, List.length_range, Option.getD_none]
    rw [List.range_succ_eq_map]
  · intro c r hc hr
    refine h5 c ⟨m.rows, 1, 1, m.vt, ⟨m.rows, fun r => m.cell r c⟩⟩ ?_ r hr
    cases c with
    | zero => rfl
    | succ c => simp [List.getElem?_range (show c < k by omega)]

theorem cell_col {f : Frame V} {c r : Nat} {v : V} (h : f.cell c r = some v) : ∃ col, f.cols[c]? = some col ∧ col.data.data r = v := by
  unfold Frame.cell at h
  split at h
  · simpa [Option.map_eq_some_iff] using h
  · cases h

theorem schema_col {f : Frame V} {c : Nat} {col : FCol V} (h : f.cols[c]? = some col) : f.schema[c]? = some col.vt := by
  simp [Frame.schema, h]

/-- **C139.** Casts of a matrix to a frame and on to a matrix, and of a frame with columns of one type to a matrix and on to a matrix, give
what the direct cast gives (Canonicalize.cpp:770-778 with DaphneOps.td:1582-1634). -/
theorem C139_cast_chain [Inhabited V] (conv : VTC → VTC → V → V) (hid : ∀ t v, conv t t v = v) (t2 : VTC) :
    (∀ (m : TMat V) f, castMF m = .ok f → SameMat (castFM conv t2 f) (castMM conv t2 m)) ∧
    (∀ (f : Frame V) t1, (∀ c ∈ f.cols, c.vt = t1) → SameMat (castMM conv t2 (castFM conv t1 f)) (castFM conv t2 f)) := by
  constructor
  · intro m f hf
    by_cases hc : m.cols = 0
    · unfold castMF at hf
      rw [hc] at hf
      cases hf
    by_cases hv : m.vt = .fixedStr16
    · exfalso
      unfold castMF at hf
      obtain ⟨k, hk⟩ : ∃ k, m.cols = k + 1 := ⟨m.cols - 1, by omega⟩
      rw [hk, List.range_succ_eq_map, List.map_cons] at hf
      obtain ⟨e, he⟩ := (C69_from_matrices (⟨m.rows, 1, 1, m.vt, ⟨m.rows, fun r => m.cell r 0⟩⟩ : ColMat V)
        ((List.map Nat.succ (List.range k)).map fun c => ⟨m.rows, 1, 1, m.vt, ⟨m.rows, fun r => m.cell r c⟩⟩) none (by rintro ls ⟨⟩)).2.1
        (Or.inl ⟨_, List.mem_cons_self, Or.inr (Or.inr (Or.inr hv))⟩)
      rw [he] at hf; cases hf
    obtain ⟨f', h1, h2, h3, -, h5⟩ := castMF_ok m hv hc
    rw [h1] at hf
    obtain rfl := Except.ok.inj hf
    have hn : f'.numCols = m.cols := by have := congrArg List.length h3; simpa [Frame.schema, Frame.numCols] using this
    refine ⟨rfl, h2, hn, ?_⟩
    intro r c hr hc
    simp only [castFM] at hr hc
    obtain ⟨col, hcol, hd⟩ := cell_col (h5 c r (by omega) (by omega))
    have hs := schema_col hcol
    rw [h3, List.getElem?_replicate, if_pos (by omega)] at hs
    simp only [castFM, castMM, hcol, hd, Option.some.inj hs]
  · intro f t1 ht
    refine ⟨rfl, rfl, rfl, ?_⟩
    intro r c hr hc
    simp only [castFM, castMM] at *
    have hc' : c < f.cols.length := hc
    simp only [List.getElem?_eq_getElem hc', ht _ (List.getElem_mem hc'), hid]

example : ((castMF (⟨.si64, 2, 2, fun r c => 10 * r + c⟩ : TMat Int)).map fun f => (f.labels, f.cell 1 1)) = .ok (["col_0", "col_1"], some 11) := by
  decide +kernel

/-- **C140 (refuted).** Full statement: casting a frame with columns of one type to a matrix and back gives the same frame as without the
elimination of the two casts. The casts give the default labels; the elimination leaves the frame as it is (Canonicalize.cpp:770-778, then the
cast of the frame to a frame type without known labels is dropped, DaphneOps.td:1569-1580). So this holds exactly if the labels are the
default labels. -/
theorem C140_frame_round_trip_partial [Inhabited V] (conv : VTC → VTC → V → V) (hid : ∀ t v, conv t t v = v) (f : Frame V) (t : VTC)
    (ht : ∀ c ∈ f.cols, c.vt = t) (hv : t ≠ .fixedStr16) (hc : f.cols ≠ []) :
    ∃ g, castMF (castFM conv t f) = .ok g ∧ g.numRows = f.numRows ∧ g.schema = f.schema ∧ (∀ c r, g.cell c r = f.cell c r) ∧
      g.labels = (List.range f.numCols).map defaultLabel ∧ (SameFrame g f ↔ f.labels = (List.range f.numCols).map defaultLabel) := by
  have hlen : f.cols.length ≠ 0 := by simpa using hc
  obtain ⟨g, h1, h2, h3, h4, h5⟩ := castMF_ok (castFM conv t f) hv (by simpa [castFM, Frame.numCols] using hlen)
  have hs : g.schema = f.schema := by
    rw [h3]
    apply List.ext_getElem
    · simp [castFM, Frame.numCols, Frame.schema]
    · intro i a1 a2
      simp only [List.getElem_replicate, castFM, Frame.schema, List.getElem_map]
      exact (ht _ (List.getElem_mem _)).symm
  have hn : g.cols.length = f.cols.length := by have := congrArg List.length hs; simpa [Frame.schema] using this
  have hcell : ∀ c r, g.cell c r = f.cell c r := by
    intro c r
    by_cases hr : r < f.numRows
    · by_cases hcc : c < f.cols.length
      · rw [h5 c r hcc hr]
        simp [Frame.cell, hr, castFM, hcc, ht _ (List.getElem_mem hcc), hid]
      · simp [Frame.cell, List.getElem?_eq_none (show f.cols.length ≤ c by omega), List.getElem?_eq_none (show g.cols.length ≤ c by omega)]
    · have h2' : g.numRows = f.numRows := h2
      simp [Frame.cell, h2', hr]
  have hg : g.labels = (List.range f.numCols).map defaultLabel := h4
  refine ⟨g, h1, h2, hs, hcell, hg, fun h => h.labels ▸ hg, fun h => ⟨h2, hs, hg.trans h.symm, hcell⟩⟩

example : (∀ c ∈ exLab.cols.take 1, c.vt = VTC.si64) ∧ exLab.cols.take 1 ≠ [] ∧ (exLab.cols.take 1).map (·.label) ≠ ["col_0"] := by
  refine ⟨by decide +kernel, ?_, by decide +kernel⟩
  exact List.cons_ne_nil _ _

end Verif.Ir
