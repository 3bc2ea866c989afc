/-
  Model of `runtime/local/datastructures/Frame.h`: columns with labels, and the label-to-position map. Column contents
  are arrays of cells of a type `V` (one per element; the byte representation is in `Verif/Rel/FrameBytes.lean`).
  Sharing of column arrays between frames is not modelled here (no kernel below writes to an input frame).
-/
import Verif.Basic.Res

namespace Verif.Rel
open Verif

/-- `ValueTypeCode` — ValueTypeCode.h:29-42 (without `INVALID`, which no column has). -/
inductive VTC where
  | si8 | si32 | si64 | ui8 | ui32 | ui64 | f32 | f64 | str | fixedStr16
  deriving DecidableEq, Repr

/-- One column of a frame: entry of `schema`, `labels` and `columns` — Frame.h:50-86. -/
structure FCol (V : Type) where
  vt : VTC
  label : String
  data : Buf V

/-- `Frame` — Frame.h:45-86. `l2i` is `labels2idxs` (Frame.h:67), newest binding first. -/
structure Frame (V : Type) where
  numRows : Nat
  cols : List (FCol V)
  l2i : List (String × Nat)

def Frame.labels (f : Frame V) : List String := f.cols.map (·.label)
def Frame.schema (f : Frame V) : List VTC := f.cols.map (·.vt)
def Frame.numCols (f : Frame V) : Nat := f.cols.length

/-- `labels2idxs.count(l)` / `find` -/
def lookupLabel (m : List (String × Nat)) (l : String) : Option Nat := List.lookup l m

/-- `getDefaultLabel` — Frame.h:321. -/
def defaultLabel (pos : Nat) : String := "col_" ++ toString pos

/-- `initLabels2Idxs` — Frame.h:95-103, from column `i` on. -/
def initL : Nat → List String → List (String × Nat) → Res (List (String × Nat))
  | _, [], m => .ok m
  | i, l :: ls, m =>
    if (lookupLabel m l).isSome then .error (.throw "a frame's column labels must be unique")
    else initL (i + 1) ls ((l, i) :: m)

/-- `initDeduplicatedLabels2Idxs` — Frame.h:114-121, from column `i` on: the labels and the map. -/
def initD : Nat → List String → List (String × Nat) → List String × List (String × Nat)
  | _, [], m => ([], m)
  | i, l :: ls, m =>
    let l' := if (lookupLabel m l).isSome then defaultLabel i else l
    let r := initD (i + 1) ls ((l', i) :: m)
    (l' :: r.1, r.2)

/-- Allocating constructor — Frame.h:135-160. `labels = none` models `labels == nullptr`; `junk` is the content of the
    uninitialized column arrays. -/
def Frame.create (n : Nat) (schema : List VTC) (labels : Option (List String)) (junk : Nat → Nat → V) : Res (Frame V) := do
  let ls := labels.getD ((List.range schema.length).map defaultLabel)
  let m ← initL 0 ls []
  .ok ⟨n, (schema.zip ls).mapIdx fun i p => ⟨p.1, p.2, ⟨n, junk i⟩⟩, m⟩

/-- Column-binding constructor — Frame.h:162-185; `ColBind` on frames (ColBind.h:97-101). -/
def Frame.bind (lhs rhs : Frame V) : Res (Frame V) :=
  if lhs.numRows ≠ rhs.numRows then .error (.throw "both input frames must have the same number of rows")
  else do
    let cols := lhs.cols ++ rhs.cols
    let m ← initL 0 (cols.map (·.label)) []
    .ok ⟨lhs.numRows, cols, m⟩

/-- Constructor from single-column matrices — Frame.h:217-250 (the arrays must have as many elements as rows;
    matrices given by row count, column count, row skip, value type and array). -/
structure ColMat (V : Type) where
  numRows : Nat
  numCols : Nat
  rowSkip : Nat
  vt : VTC
  data : Buf V

def Frame.ofMats (ms : List (ColMat V)) (labels : Option (List String)) : Res (Frame V) :=
  match ms with
  | [] => .error (.throw "Frame: at least one column matrix must be provided")
  | m0 :: _ =>
    if ms.any fun m => m.numCols ≠ 1 then .error (.throw "Frame: all given matrices must be column matrices")
    else if ms.any fun m => m.numRows ≠ m0.numRows then .error (.throw "Frame: all given matrices must have the same number of rows")
    else if ms.any fun m => m.rowSkip ≠ 1 then .error (.throw "Frame: must not be a view of a column of a larger matrix")
    else if ms.any fun m => m.vt = .fixedStr16 then .error (.throw "unsupported value type")
    else do
      let ls := labels.getD ((List.range ms.length).map defaultLabel)
      let m ← initL 0 ls []
      .ok ⟨m0.numRows, (ms.zip ls).map fun p => ⟨p.1.vt, p.2, p.1.data⟩, m⟩

/-- The sub-frame (view) constructor — Frame.h:265-307, for row bounds that are valid `int64_t` (as passed by `slice`,
    `ExtractCol`, `SetColLabels`). The view's column arrays begin at row `rl` of the source's. -/
def Frame.sub (src : Frame V) (rl ru : Nat) (idxs : List Nat) : Res (Frame V) :=
  if ru < rl ∨ src.numRows < ru ∨ (rl = src.numRows ∧ rl ≠ 0) then .error (.throw "invalid arguments passed to frame constructor")
  else if idxs.any fun i => src.cols.length ≤ i then .error (.throw "colIdx is out of bounds")
  else
    let cs := idxs.filterMap fun i => src.cols[i]?
    let r := initD 0 (cs.map (·.label)) []
    .ok ⟨ru - rl, (cs.zip r.1).map fun p => ⟨p.1.vt, p.2, ⟨p.1.data.size - rl, fun k => p.1.data.data (rl + k)⟩⟩, r.2⟩

/-- `setLabels` — Frame.h:332-336. -/
def Frame.setLabels (f : Frame V) (ls : List String) : Res (Frame V) := do
  let m ← initL 0 ls []
  .ok ⟨f.numRows, (f.cols.zip ls).map fun p => { p.1 with label := p.2 }, m⟩

/-- `getColumnIdx` — Frame.h:338-360. -/
def Frame.getColumnIdx (f : Frame V) (l : String) : Res Nat :=
  match lookupLabel f.l2i l with
  | some i => .ok i
  | none => .error (.throw "column label not found")

/-- `getColumnType(idx)` — Frame.h:362-366. -/
def Frame.getColumnType (f : Frame V) (i : Nat) : Res VTC :=
  match f.cols[i]? with
  | some c => .ok c.vt
  | none => .error (.throw "Frame (getColumnType): column index is out of bounds")

/-- `getColumn<VT>(idx)` — Frame.h:370-376: the column as an array of its first `numRows` elements. `columns[idx]` with
    an invalid index is undefined behaviour. -/
def Frame.getColumn (f : Frame V) (vt : VTC) (i : Nat) : Res (FCol V) :=
  match f.cols[i]? with
  | none => .error (.ub "schema[idx] out of bounds")
  | some c => if c.vt ≠ vt then .error (.throw "Frame (getColumn): requested value type must match") else .ok c

/-- `shrinkNumRows` — Frame.h:323-326. -/
def Frame.shrinkNumRows (f : Frame V) (n : Nat) : Frame V := { f with numRows := n }

/-- `slice` — Frame.h:419-430. -/
def Frame.slice (f : Frame V) (rl ru cl cu : Nat) : Res (Frame V) :=
  if cl > cu then .error (.throw "Frame::slice(): cl must not be greater than cu")
  else f.sub rl ru (List.range' cl (cu - cl))

/-- Every column array has at least `numRows` elements. -/
def Frame.WF (f : Frame V) : Prop := ∀ c ∈ f.cols, f.numRows ≤ c.data.size

/-- The cell in row `r` of column `c`. -/
def Frame.cell (f : Frame V) (c r : Nat) : Option V := if r < f.numRows then (f.cols[c]?).map (·.data.data r) else none

/-- Looking up a label gives the position of the column with that label, and every label is found. -/
def Frame.LabelsOK (f : Frame V) : Prop := ∀ l i, f.getColumnIdx l = .ok i ↔ f.labels[i]? = some l

/-! ## Proofs -/

theorem defaultLabel_inj {i j : Nat} (h : defaultLabel i = defaultLabel j) : i = j := by
  unfold defaultLabel at h
  have h1 := congrArg String.toList h
  simp only [String.toList_append] at h1
  have h2 := List.append_cancel_left h1
  have h3 : (Nat.repr i).toList = (Nat.repr j).toList := h2
  rw [Nat.toList_repr, Nat.toList_repr] at h3
  have h4 := congrArg (fun l => Nat.ofDigitChars 10 l 0) h3
  simpa [Nat.ofDigitChars_ten_toDigits] using h4

/-- The map binds exactly the labels `ls` (columns `0 …`), each to a position with that label. -/
def MapOK (m : List (String × Nat)) (ls : List String) : Prop := ∀ l i, lookupLabel m l = some i ↔ ls[i]? = some l

theorem mapOK_snoc {m : List (String × Nat)} {ls : List String} (h : MapOK m ls) {l : String} (hl : lookupLabel m l = none) :
    MapOK ((l, ls.length) :: m) (ls ++ [l]) := by
  intro l' i
  show List.lookup l' ((l, ls.length) :: m) = _ ↔ _
  rw [List.lookup_cons]
  by_cases he : l' = l
  · subst he
    simp only [beq_self_eq_true, Option.some.injEq]
    constructor
    · rintro rfl; simp
    · intro hi
      rcases Nat.lt_trichotomy i ls.length with h1 | h1 | h1
      · rw [List.getElem?_append_left h1] at hi
        rw [(h l' i).2 hi] at hl; simp at hl
      · exact h1.symm
      · rw [List.getElem?_eq_none (by simp; omega)] at hi; simp at hi
  · rw [show (l' == l) = false by simpa using he]
    show lookupLabel m l' = some i ↔ _
    rw [h l' i]
    constructor
    · intro hi
      obtain ⟨hlt, _⟩ := List.getElem?_eq_some_iff.1 hi
      rw [List.getElem?_append_left hlt]; exact hi
    · intro hi
      rcases Nat.lt_trichotomy i ls.length with h1 | h1 | h1
      · rwa [List.getElem?_append_left h1] at hi
      · subst h1; simp at hi; exact absurd hi.symm he
      · rw [List.getElem?_eq_none (by simp; omega)] at hi; simp at hi

theorem mapOK_nodup {m : List (String × Nat)} {ls : List String} (h : MapOK m ls) : ls.Nodup := by
  rw [List.Nodup, List.pairwise_iff_getElem]
  intro a b ha hb hab he
  have h1 := (h ls[a] a).2 (by simp)
  rw [(h ls[a] b).2 (by rw [he]; simp)] at h1
  simp at h1; omega

theorem initL_spec : ∀ (ls pre : List String) (m : List (String × Nat)), MapOK m pre →
    ((pre ++ ls).Nodup → ∃ m', initL pre.length ls m = .ok m' ∧ MapOK m' (pre ++ ls)) ∧
    (¬ (pre ++ ls).Nodup → Res.Throws (initL pre.length ls m)) := by
  intro ls
  induction ls with
  | nil =>
    intro pre m h
    refine ⟨fun _ => ⟨m, rfl, by simpa using h⟩, fun hn => absurd ?_ hn⟩
    simpa using mapOK_nodup h
  | cons l ls ih =>
    intro pre m h
    rw [initL]
    cases hl : lookupLabel m l with
    | none =>
      have := ih (pre ++ [l]) _ (mapOK_snoc h hl)
      simpa using this
    | some i =>
      have hm : l ∈ pre := List.mem_of_getElem? ((h l i).1 hl)
      refine ⟨fun hn => ?_, fun _ => ⟨_, rfl⟩⟩
      exfalso
      rw [List.nodup_append] at hn
      exact hn.2.2 l hm l (by simp) rfl

theorem initL_iff (ls : List String) :
    (ls.Nodup → ∃ m, initL 0 ls [] = .ok m ∧ MapOK m ls) ∧ (¬ ls.Nodup → Res.Throws (initL 0 ls [])) := by
  have := initL_spec ls [] [] (by intro l i; simp [lookupLabel])
  simpa using this

theorem labelsOK_of_map {f : Frame V} (h : MapOK f.l2i f.labels) : f.LabelsOK := by
  intro l i
  rw [← h l i]
  unfold Frame.getColumnIdx
  cases lookupLabel f.l2i l <;> simp

theorem map_of_labelsOK {f : Frame V} (h : f.LabelsOK) : MapOK f.l2i f.labels := by
  intro l i
  rw [← h l i]
  unfold Frame.getColumnIdx
  cases lookupLabel f.l2i l <;> simp

theorem Frame.LabelsOK.nodup {f : Frame V} (h : f.LabelsOK) : f.labels.Nodup := mapOK_nodup (map_of_labelsOK h)

theorem initD_length : ∀ (ls : List String) (i : Nat) (m), (initD i ls m).1.length = ls.length := by
  intro ls
  induction ls with
  | nil => intros; rfl
  | cons l ls ih => intro i m; simp [initD, ih]

/-- Deduplication keeps unique labels unchanged. -/
theorem initD_nodup : ∀ (ls pre : List String) (m), MapOK m pre → (pre ++ ls).Nodup →
    (initD pre.length ls m).1 = ls ∧ MapOK (initD pre.length ls m).2 (pre ++ ls) := by
  intro ls
  induction ls with
  | nil => intro pre m h _; exact ⟨rfl, by simpa [initD] using h⟩
  | cons l ls ih =>
    intro pre m h hn
    have hl : lookupLabel m l = none := by
      cases hl : lookupLabel m l with
      | none => rfl
      | some i =>
        exfalso
        rw [List.nodup_append] at hn
        exact hn.2.2 l (List.mem_of_getElem? ((h l i).1 hl)) l (by simp) rfl
    have := ih (pre ++ [l]) _ (mapOK_snoc h hl) (by simpa using hn)
    simp only [List.length_append, List.length_singleton, List.append_assoc, List.cons_append, List.nil_append] at this
    simp only [initD, hl, Option.isSome_none, Bool.false_eq_true, if_false]
    exact ⟨by rw [this.1], this.2⟩

/-- If no label has the form `col_k`, deduplication gives unique labels that can all be looked up. -/
theorem initD_ok : ∀ (ls pre : List String) (m), MapOK m pre → (∀ l ∈ ls, ∀ k, l ≠ defaultLabel k) →
    (∀ l ∈ pre, ∀ k, l = defaultLabel k → k < pre.length) →
    MapOK (initD pre.length ls m).2 (pre ++ (initD pre.length ls m).1) := by
  intro ls
  induction ls with
  | nil => intro pre m h _ _; simpa [initD] using h
  | cons l ls ih =>
    intro pre m h hn hp
    simp only [initD]
    generalize hl' : (if (lookupLabel m l).isSome then defaultLabel pre.length else l) = l'
    have hnone : lookupLabel m l' = none := by
      cases hx : lookupLabel m l' with
      | none => rfl
      | some i =>
        exfalso
        by_cases hs : (lookupLabel m l).isSome = true
        · rw [if_pos hs] at hl'
          subst hl'
          have := hp _ (List.mem_of_getElem? ((h _ i).1 hx)) _ rfl
          omega
        · rw [if_neg hs] at hl'
          subst hl'
          rw [hx] at hs; simp at hs
    have := ih (pre ++ [l']) _ (mapOK_snoc h hnone) (fun x hx => hn x (by simp [hx])) (by
      intro x hx k hk
      simp only [List.mem_append, List.mem_singleton] at hx
      simp only [List.length_append, List.length_singleton]
      rcases hx with hx | hx
      · have := hp x hx k hk; omega
      · by_cases hs : (lookupLabel m l).isSome = true
        · rw [if_pos hs] at hl'
          rw [hx, ← hl'] at hk
          have := defaultLabel_inj hk; omega
        · rw [if_neg hs] at hl'
          rw [hx, ← hl'] at hk
          exact absurd hk (hn l (by simp) k))
    simpa using this

end Verif.Rel
