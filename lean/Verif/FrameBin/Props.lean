/-
  Properties C283-C286: binary files of frames.
-/
import Verif.FrameBin.Model

namespace Verif.FrameBin
open Verif Verif.Ser
open Verif.FileMeta (VTC defaultLabel)

/-! ### Specification -/

/-- The number of bytes of a number. -/
inductive Width : VTC → Nat → Prop
  | si8 : Width .si8 1
  | ui8 : Width .ui8 1
  | si32 : Width .si32 4
  | ui32 : Width .ui32 4
  | f32 : Width .f32 4
  | si64 : Width .si64 8
  | ui64 : Width .ui64 8
  | f64 : Width .f64 8

/-- A frame with columns of numbers, as it is in memory. -/
structure Numeric (f : Frame) : Prop where
  rows : f.numRows < 2 ^ 64
  cols : f.numCols < 2 ^ 64
  schema : f.schema.length = f.numCols
  cells : ∀ c, c < f.numCols → ∃ n, Width (f.schema.getD c .invalid) n ∧ (f.cols c).size = f.numRows ∧
    ∀ r, r < f.numRows → ((f.cols c).data r).length = n

/-- Same dimensions, value types and values. -/
structure SameData (f g : Frame) : Prop where
  rows : g.numRows = f.numRows
  cols : g.numCols = f.numCols
  schema : g.schema = f.schema
  cells : ∀ r c, r < f.numRows → c < f.numCols → (g.cols c).data r = (f.cols c).data r

/-! ### Lemmas -/

theorem cellSize_width {v : VTC} {n : Nat} (h : Width v n) : cellSize v = some n := by cases h <;> rfl

theorem take_append {n : Nat} {a b : List Byte} (h : a.length = n) : take n (a ++ b) = .ok (a, b) := by
  unfold take
  rw [if_pos (by simp [h])]
  subst h
  simp

theorem range'_snoc {α : Type} (g : Nat → List α) (n : Nat) : (List.range (n + 1)).flatMap g = (List.range n).flatMap g ++ g n := by
  rw [List.range_succ, List.flatMap_append]
  simp

theorem range'_cons {α : Type} (g : Nat → List α) (i n : Nat) (h : i < n) :
    (List.range' i (n - i)).flatMap g = g i ++ (List.range' (i + 1) (n - (i + 1))).flatMap g := by
  rw [show n - i = (n - (i + 1)) + 1 by omega, List.range'_succ]
  simp

theorem forLoop_last {σ : Type} {body : Nat → σ → Res σ} : ∀ (k lo : Nat) (s : σ),
    forFrom lo (k + 1) s body = forFrom lo k s body >>= fun s' => body (lo + k) s'
  | 0, lo, s => by
    show body lo s >>= (fun s' => .ok s') = _
    cases h : body lo s <;> simp [forFrom, bind, Except.bind, h]
  | k + 1, lo, s => by
    show body lo s >>= (fun s' => forFrom (lo + 1) (k + 1) s' body) = (body lo s >>= fun s' => forFrom (lo + 1) k s' body) >>= fun s' => body (lo + (k + 1)) s'
    cases h : body lo s with
    | error e => rfl
    | ok a =>
      show forFrom (lo + 1) (k + 1) a body = forFrom (lo + 1) k a body >>= fun s' => body (lo + (k + 1)) s'
      rw [forLoop_last k (lo + 1) a, show lo + 1 + k = lo + (k + 1) by omega]

/-- The output of the loops of the writer. -/
def labelBytes (f : Frame) (mem : LabelMem) (c : Nat) : List Byte := le 2 (labelLen f c) ++ bytesAt mem (32 * c) (labelLen f c)

def rowBytes (f : Frame) (r : Nat) : List Byte := (List.range f.numCols).flatMap fun c => (f.cols c).data r

theorem writeLabels_ok {f : Frame} {mem : LabelMem} (h : ∀ c, c < f.numCols → 32 * c + labelLen f c ≤ mem.size) (out : List Byte) :
    writeLabels f mem out = .ok (out ++ (List.range f.numCols).flatMap (labelBytes f mem)) := by
  have := forLoop_ok (body := fun c out => do
      let b ← labelObject mem c (labelLen f c)
      .ok (out ++ le 2 (labelLen f c) ++ b))
    (fun c o => o = out ++ (List.range c).flatMap (labelBytes f mem)) 0 f.numCols out (by omega) (by simp) (fun c o _ hc ho => by
      unfold labelObject
      rw [if_pos (h c hc), Res.ok_bind, Res.ok_iff, range'_snoc, ho]
      simp [labelBytes])
  obtain ⟨o, e, ho⟩ := this
  exact e.trans (by rw [ho])

theorem writeCells_ok {f : Frame} (hf : Numeric f) (out : List Byte) :
    writeCells f out = .ok (out ++ (List.range f.numRows).flatMap (rowBytes f)) := by
  have := forLoop_ok (body := fun r out => forLoop 0 f.numCols out fun c out => do
      let b ← writeCell f r c
      .ok (out ++ b))
    (fun r o => o = out ++ (List.range r).flatMap (rowBytes f)) 0 f.numRows out (by omega) (by simp) (fun r o _ hr ho => by
      have := forLoop_ok (body := fun c out => do
          let b ← writeCell f r c
          .ok (out ++ b))
        (fun c o' => o' = o ++ (List.range c).flatMap fun c => (f.cols c).data r) 0 f.numCols o (by omega) (by simp) (fun c o' _ hc ho' => by
          obtain ⟨n, e, hs, _⟩ := hf.cells c hc
          unfold writeCell
          rw [cellSize_width e]
          simp only
          rw [Buf.read_eq (by omega), Res.ok_bind, Res.ok_iff, range'_snoc, ho', List.append_assoc])
      obtain ⟨o', e, ho'⟩ := this
      exact ⟨o', e, by rw [ho', range'_snoc, ho, List.append_assoc]; rfl⟩)
  obtain ⟨o, e, ho⟩ := this
  exact e.trans (by rw [ho])

theorem ofNum_num (v : VTC) : ofNum (num v) = v := by cases v <;> rfl

theorem num_lt (v : VTC) : num v < 256 := by cases v <;> decide

theorem readSchema_ok (s : List VTC) (rest : List Byte) : readSchema s.length (schemaBytes s ++ rest) = .ok (s, rest) := by
  have := forLoop_ok (body := fun (_ : Nat) ((s, rest) : List VTC × List Byte) => (do
      let (b, rest) ← take 1 rest
      .ok (s ++ [ofNum (unle b)], rest) : Res (List VTC × List Byte)))
    (fun i (st : List VTC × List Byte) => st.1 = s.take i ∧ st.2 = schemaBytes (s.drop i) ++ rest) 0 s.length ([], schemaBytes s ++ rest) (by omega) (by simp)
    (fun i st _ hi h => by
      obtain ⟨s', r'⟩ := st
      obtain ⟨h1, h2⟩ := h
      simp only at h1 h2
      subst h1 h2
      have e : schemaBytes (s.drop i) = le 1 (num s[i]) ++ schemaBytes (s.drop (i + 1)) := by
        rw [List.drop_eq_getElem_cons hi]
        rfl
      simp only
      rw [e, List.append_assoc, take_append (le_length 1 _), Res.ok_bind, Res.ok_iff]
      refine ⟨?_, rfl⟩
      simp only
      rw [unle_le, Nat.mod_eq_of_lt (by have := num_lt s[i]; omega), ofNum_num]
      simp)
  obtain ⟨⟨s', r'⟩, e, h1, h2⟩ := this
  refine e.trans ?_
  simp only at h1 h2
  rw [h1, h2]
  simp [schemaBytes]

theorem readLabels_ok {f : Frame} {mem : LabelMem} (hm : mem.size = 32 * f.numCols) (h : ∀ c, c < f.numCols → 32 * c + labelLen f c ≤ mem.size) (rest : List Byte) :
    readLabels f.numCols ((List.range f.numCols).flatMap (labelBytes f mem) ++ rest) = .ok rest := by
  have := forLoop_ok (body := fun (c : Nat) (rest : List Byte) => (do
      let (l, rest) ← take 2 rest
      let (_, rest) ← take (unle l) rest
      if 32 * c + unle l ≤ 32 * f.numCols then .ok rest else .error (.ub "out-of-bounds write") : Res (List Byte)))
    (fun c r => r = (List.range' c (f.numCols - c)).flatMap (labelBytes f mem) ++ rest) 0 f.numCols
    ((List.range f.numCols).flatMap (labelBytes f mem) ++ rest) (by omega) (by rw [List.range_eq_range']; rfl)
    (fun c r _ hc hr => by
      subst hr
      have hl : unle (le 2 (labelLen f c)) = labelLen f c := by
        rw [unle_le]
        exact Nat.mod_eq_of_lt (Nat.mod_lt _ (by decide))
      rw [range'_cons _ _ _ hc]
      simp only [labelBytes, List.append_assoc]
      rw [take_append (le_length 2 _), Res.ok_bind]
      simp only [hl]
      rw [take_append (bytesAt_length _ _ _), Res.ok_bind]
      simp only
      rw [if_pos (by have := h c hc; omega), Res.ok_iff])
  obtain ⟨r, e, hr⟩ := this
  refine e.trans ?_
  rw [hr]
  simp

theorem readCells_ok {f : Frame} (hf : Numeric f) (rest : List Byte) (junk : Nat → Nat → List Byte) :
    ∃ cols, readCells f.schema f.numRows f.numCols ((List.range f.numRows).flatMap (rowBytes f) ++ rest) (fun c => ⟨f.numRows, junk c⟩) = .ok (rest, cols) ∧
      ∀ r c, r < f.numRows → c < f.numCols → (cols c).data r = (f.cols c).data r := by
  have := forLoop_ok (body := fun (r : Nat) (st : List Byte × (Nat → Buf (List Byte))) => forLoop 0 f.numCols st fun c (rest, cols) => (do
      let (b, rest) ← readCell (f.schema.getD c .invalid) rest
      let col ← (cols c).write r b
      .ok (rest, fun j => if j = c then col else cols j) : Res (List Byte × (Nat → Buf (List Byte)))))
    (fun r st => st.1 = (List.range' r (f.numRows - r)).flatMap (rowBytes f) ++ rest ∧ (∀ c, (st.2 c).size = f.numRows) ∧
      ∀ r' c, r' < r → c < f.numCols → (st.2 c).data r' = (f.cols c).data r') 0 f.numRows
    ((List.range f.numRows).flatMap (rowBytes f) ++ rest, fun c => ⟨f.numRows, junk c⟩) (by omega)
    ⟨by rw [List.range_eq_range']; rfl, fun _ => rfl, fun r' c h => by omega⟩
    (fun r st _ hr h => by
      obtain ⟨rest', cols⟩ := st
      obtain ⟨h1, h2, h3⟩ := h
      simp only at h1 h2 h3
      have := forLoop_ok (body := fun (c : Nat) (p : List Byte × (Nat → Buf (List Byte))) => (do
          let (b, rest) ← readCell (f.schema.getD c .invalid) p.1
          let col ← (p.2 c).write r b
          .ok (rest, fun j => if j = c then col else p.2 j) : Res (List Byte × (Nat → Buf (List Byte)))))
        (fun c p => p.1 = (List.range' c (f.numCols - c)).flatMap (fun c => (f.cols c).data r) ++ ((List.range' (r + 1) (f.numRows - (r + 1))).flatMap (rowBytes f) ++ rest) ∧
          (∀ c, (p.2 c).size = f.numRows) ∧ (∀ r' c', r' < r → c' < f.numCols → (p.2 c').data r' = (f.cols c').data r') ∧
          ∀ c', c' < c → (p.2 c').data r = (f.cols c').data r) 0 f.numCols (rest', cols) (by omega)
        ⟨by simp only; rw [h1, range'_cons _ _ _ hr, List.append_assoc]; simp only [rowBytes]; rw [List.range_eq_range']; rfl, h2, h3, fun c h => by omega⟩
        (fun c p _ hc hp => by
          obtain ⟨rest'', cols'⟩ := p
          obtain ⟨g1, g2, g3, g4⟩ := hp
          simp only at g1 g2 g3 g4
          obtain ⟨n, e, _, hlen⟩ := hf.cells c hc
          unfold readCell
          rw [cellSize_width e]
          simp only
          rw [g1, range'_cons _ _ _ hc, List.append_assoc, take_append (hlen r hr), Res.ok_bind]
          simp only
          rw [Buf.write_eq (by rw [g2]; exact hr), Res.ok_bind, Res.ok_iff]
          refine ⟨rfl, fun c' => ?_, fun r' c' hr' hc' => ?_, fun c' hc' => ?_⟩
          · simp only
            split
            · simp [g2]
            · exact g2 c'
          · simp only
            split
            · rename_i h
              rw [Buf.put_data_ne _ _ _ _ (by omega), ← h]
              exact g3 r' c' hr' hc'
            · exact g3 r' c' hr' hc'
          · simp only
            split
            · rename_i h
              rw [Buf.put_data_same, h]
            · exact g4 c' (by omega))
      obtain ⟨⟨rest'', cols'⟩, e, g1, g2, g3, g4⟩ := this
      refine ⟨(rest'', cols'), e, ?_, g2, fun r' c hr' hc => ?_⟩
      · simp only at g1 ⊢
        rw [g1]
        simp
      · by_cases hrr : r' = r
        · subst hrr; exact g4 c hc
        · exact g3 r' c (by omega) hc)
  obtain ⟨⟨rest', cols⟩, e, h1, _, h3⟩ := this
  refine ⟨cols, e.trans ?_, h3⟩
  simp only at h1
  rw [h1]
  simp

/-! ### C283 -/

theorem header_parts (r c : Nat) (hr : r < 2 ^ 64) (hc : c < 2 ^ 64) :
    (dfHeader 3 r c).length = 18 ∧ unle (((dfHeader 3 r c).drop 1).take 1) = 3 ∧ unle (((dfHeader 3 r c).drop 2).take 8) = r ∧
      unle (((dfHeader 3 r c).drop 10).take 8) = c := by
  have h1 := unle_le 8 r
  have h2 := unle_le 8 c
  rw [Nat.mod_eq_of_lt (by omega)] at h1 h2
  refine ⟨by simp [dfHeader, le_length], rfl, ?_, ?_⟩
  · refine Eq.trans ?_ h1
    simp only [dfHeader, le, List.cons_append, List.nil_append, List.drop_succ_cons, List.drop_zero, List.take_succ_cons, List.take_zero]
  · refine Eq.trans ?_ h2
    simp only [dfHeader, le, List.cons_append, List.nil_append, List.drop_succ_cons, List.drop_zero, List.take_succ_cons, List.take_zero]

theorem round_trip {f : Frame} {mem : LabelMem} (hf : Numeric f) (hm : mem.size = 32 * f.numCols)
    (hl : ∀ c, c < f.numCols → 32 * c + labelLen f c ≤ mem.size) :
    ∃ file, write f mem = .ok file ∧ ∀ junk, ∃ g, read file junk = .ok (some g) ∧ SameData f g ∧ g.labels = (List.range f.numCols).map defaultLabel := by
  obtain ⟨p1, p2, p3, p4⟩ := header_parts f.numRows f.numCols hf.rows hf.cols
  refine ⟨_, by unfold write; rw [writeLabels_ok hl, Res.ok_bind, writeCells_ok hf], fun junk => ?_⟩
  have hi : VTC.invalid ∉ f.schema := by
    intro h
    obtain ⟨c, hc, e⟩ := List.getElem_of_mem h
    obtain ⟨n, e', _⟩ := hf.cells c (by have := hf.schema; omega)
    rw [List.getD_eq_getElem?_getD, List.getElem?_eq_getElem hc, Option.getD_some, e] at e'
    cases e'
  obtain ⟨cols, e, h⟩ := readCells_ok hf [] junk
  have hs := readSchema_ok f.schema ((List.range f.numCols).flatMap (labelBytes f mem) ++ (dfBody ++ ((List.range f.numRows).flatMap (rowBytes f) ++ [])))
  rw [hf.schema] at hs
  refine ⟨⟨f.numRows, f.numCols, f.schema, (List.range f.numCols).map defaultLabel, cols⟩, ?_, ⟨rfl, rfl, rfl, h⟩, rfl⟩
  unfold read
  rw [show dfHeader 3 f.numRows f.numCols ++ schemaBytes f.schema ++ (List.range f.numCols).flatMap (labelBytes f mem) ++ dfBody ++
      (List.range f.numRows).flatMap (rowBytes f) = dfHeader 3 f.numRows f.numCols ++ (schemaBytes f.schema ++
      ((List.range f.numCols).flatMap (labelBytes f mem) ++ (dfBody ++ ((List.range f.numRows).flatMap (rowBytes f) ++ [])))) by simp]
  rw [take_append p1, Res.ok_bind]
  simp only
  rw [if_pos p2]
  simp only [p3, p4]
  rw [hs, Res.ok_bind]
  simp only
  rw [readLabels_ok hm hl, Res.ok_bind, take_append (by simp [dfBody, le_length]), Res.ok_bind]
  simp only
  unfold create
  rw [if_neg hi, Res.ok_bind]
  simp only
  rw [e, Res.ok_bind]

/-- Frames of numbers of any size whose labels have at most 32 bytes: dimensions, value types and values come back from a binary file. -/
theorem C283_round_trip {f : Frame} {mem : LabelMem} (hf : Numeric f) (hm : mem.size = 32 * f.numCols)
    (hl : ∀ l ∈ f.labels, l.utf8ByteSize ≤ 32) :
    ∃ file, write f mem = .ok file ∧ ∀ junk, ∃ g, read file junk = .ok (some g) ∧ SameData f g := by
  obtain ⟨file, e, h⟩ := round_trip hf hm fun c hc => by
    have : labelLen f c ≤ 32 := by
      unfold labelLen
      refine Nat.le_trans (Nat.mod_le _ _) ?_
      rw [List.getD_eq_getElem?_getD]
      by_cases h : c < f.labels.length
      · rw [List.getElem?_eq_getElem h]
        exact hl _ (List.getElem_mem h)
      · rw [List.getElem?_eq_none (by omega)]
        decide
    omega
  exact ⟨file, e, fun junk => let ⟨g, e, h, _⟩ := h junk; ⟨g, e, h⟩⟩

/-- Columns of strings are rejected with an exception (if there is a row). -/
theorem C283_strings_rejected {f : Frame} {mem : LabelMem} (hm : mem.size = 32 * f.numCols) (hl : ∀ l ∈ f.labels, l.utf8ByteSize ≤ 32)
    (hr : 0 < f.numRows) (hv : ∀ c, c < f.numCols → (f.cols c).size = f.numRows)
    (hs : ∃ c, c < f.numCols ∧ (f.schema.getD c .invalid = .str ∨ f.schema.getD c .invalid = .fixedStr16)) : (write f mem).Throws := by
  have hl' : ∀ c, c < f.numCols → 32 * c + labelLen f c ≤ mem.size := fun c hc => by
    have : labelLen f c ≤ 32 := by
      unfold labelLen
      refine Nat.le_trans (Nat.mod_le _ _) ?_
      rw [List.getD_eq_getElem?_getD]
      by_cases h : c < f.labels.length
      · rw [List.getElem?_eq_getElem h]
        exact hl _ (List.getElem_mem h)
      · rw [List.getElem?_eq_none (by omega)]
        decide
    omega
  unfold write
  rw [writeLabels_ok hl', Res.ok_bind]
  unfold writeCells
  obtain ⟨c0, hc0, h0⟩ := hs
  have inner : ∀ (r : Nat), r < f.numRows → ∀ o : List Byte, (forLoop 0 f.numCols o fun c out => do
      let b ← writeCell f r c
      .ok (out ++ b)).Throws := by
    intro r hr' o
    refine forLoop_throws (fun _ => True) 0 f.numCols o trivial (fun c s _ hc _ => ?_) ⟨c0, by omega, hc0, fun s _ => ?_⟩
    · unfold writeCell
      split
      · exact .inr ⟨_, rfl⟩
      · rw [Buf.read_eq (by rw [hv c hc]; exact hr')]
        exact .inl (Res.ok_iff.2 trivial)
    · unfold writeCell
      rcases h0 with h0 | h0 <;> rw [h0] <;> exact ⟨_, rfl⟩
  refine forLoop_throws (fun _ => True) 0 f.numRows _ trivial (fun r s _ h _ => .inr (inner r h s)) ⟨0, by omega, hr, fun s _ => inner 0 hr s⟩

/-! ### C284-C286: what does not hold -/

/-- Labels are never read back: the frame has the default labels. -/
theorem C284_labels_lost_partial {f : Frame} {mem : LabelMem} (hf : Numeric f) (hm : mem.size = 32 * f.numCols)
    (hl : ∀ c, c < f.numCols → 32 * c + labelLen f c ≤ mem.size) :
    ∃ file, write f mem = .ok file ∧ ∀ junk, ∃ g, read file junk = .ok (some g) ∧ g.labels = (List.range f.numCols).map defaultLabel := by
  obtain ⟨file, e, h⟩ := round_trip hf hm hl
  exact ⟨file, e, fun junk => let ⟨g, e, _, h⟩ := h junk; ⟨g, e, h⟩⟩

/-- A last column with a label of 33 up to 65535 bytes: memory beyond the labels is read (and ends up in the file). -/
theorem C285_long_label_partial {f : Frame} {mem : LabelMem} (hm : mem.size = 32 * f.numCols) (h0 : 0 < f.numCols)
    (hl : ∀ c, c + 1 < f.numCols → 32 * c + labelLen f c ≤ mem.size)
    (hbad : 32 < (f.labels.getD (f.numCols - 1) "").utf8ByteSize ∧ (f.labels.getD (f.numCols - 1) "").utf8ByteSize < 2 ^ 16) : (write f mem).IsUB := by
  have hlen : labelLen f (f.numCols - 1) = (f.labels.getD (f.numCols - 1) "").utf8ByteSize := Nat.mod_eq_of_lt hbad.2
  have key : ∀ out, (writeLabels f mem out).IsUB := by
    intro out
    obtain ⟨n, hn⟩ : ∃ n, f.numCols = n + 1 := ⟨f.numCols - 1, by omega⟩
    have e1 := writeLabels_ok (f := { f with numCols := n }) (mem := mem) (fun c hc => hl c (by simp only at hc; omega)) out
    unfold writeLabels at e1 ⊢
    rw [hn]
    unfold forLoop at e1 ⊢
    rw [show n + 1 - 0 = n + 1 by omega, forLoop_last n 0 out]
    simp only at e1
    have e1 : (forFrom 0 n out fun c out => (do
      let b ← labelObject mem c (labelLen f c)
      .ok (out ++ le 2 (labelLen f c) ++ b) : Res (List Byte))) = _ := e1
    rw [e1, Res.ok_bind]
    unfold labelObject
    rw [Nat.zero_add]
    rw [hn] at hlen
    simp only [Nat.add_sub_cancel] at hlen
    rw [if_neg (by rw [hlen]; rw [hn, Nat.add_sub_cancel] at hbad; omega)]
    exact ⟨_, rfl⟩
  unfold write
  obtain ⟨w, e⟩ := key (dfHeader 3 f.numRows f.numCols ++ schemaBytes f.schema)
  exact ⟨w, by rw [e]; rfl⟩

/-- A file that is not a frame (also a matrix written by DAPHNE) is not reported: the result stays a null pointer. -/
theorem C286_other_kind_partial (file : List Byte) (h : 18 ≤ file.length) (hd : unle ((file.drop 1).take 1) ≠ 3) (junk : Nat → Nat → List Byte) :
    read file junk = .ok none := by
  unfold read take
  rw [if_pos h, Res.ok_bind]
  simp only
  rw [if_neg]
  intro e
  apply hd
  rw [← e]
  congr 1
  rw [List.drop_take, List.take_take]
  simp

/-- A file that is too short (also an empty or missing one) is not reported: uninitialized memory is used. -/
theorem C286_short_file_partial (file : List Byte) (h : file.length < 18) (junk : Nat → Nat → List Byte) : (read file junk).IsUB := by
  unfold read take
  rw [if_neg (by omega)]
  exact ⟨_, rfl⟩

/-! ### Cases that meet the hypotheses -/

/-- Two rows, a column of 8-bit and one of 32-bit integers. -/
def sample (labels : List String) : Frame :=
  ⟨2, 2, [.si8, .ui32], labels, fun c => Buf.ofList (if c = 0 then [[1], [2]] else [[1, 2, 3, 4], [5, 6, 7, 8]])⟩

theorem sample_numeric (labels : List String) : Numeric (sample labels) := by
  refine ⟨by show 2 < 2 ^ 64; decide, by show 2 < 2 ^ 64; decide, rfl, fun c hc => ?_⟩
  have hc : c < 2 := hc
  obtain rfl | rfl : c = 0 ∨ c = 1 := by omega
  · exact ⟨1, .si8, rfl, fun r hr => by
      have hr : r < 2 := hr
      obtain rfl | rfl : r = 0 ∨ r = 1 := by omega
      all_goals rfl⟩
  · exact ⟨4, .ui32, rfl, fun r hr => by
      have hr : r < 2 := hr
      obtain rfl | rfl : r = 0 ∨ r = 1 := by omega
      all_goals rfl⟩

example : (∀ l ∈ (sample ["a", "bc"]).labels, l.utf8ByteSize ≤ 32) ∧ ((Buf.mk 64 fun _ => 0 : LabelMem).size = 32 * (sample ["a", "bc"]).numCols) := by
  constructor <;> decide

example : 32 < ((sample ["a", "a label that has more than thirty-two bytes"]).labels.getD ((sample []).numCols - 1) "").utf8ByteSize := by decide

end Verif.FrameBin
