/-
  Properties C275-C282: files by name.
-/
import Verif.FileMeta.Props

namespace Verif.FileMeta
open Verif

theorem metaName_ne (name : List Char) : metaName name ≠ name := by
  intro h
  have := congrArg List.length h
  simp [metaName] at this

theorem names_codeOfInt (t : Io.IntTy) : ∃ s, Names s (codeOfInt t) := by
  cases t
  · exact ⟨_, .si8⟩
  · exact ⟨_, .si32⟩
  · exact ⟨_, .si64⟩
  · exact ⟨_, .ui8⟩
  · exact ⟨_, .ui32⟩
  · exact ⟨_, .ui64⟩

theorem names_codeOf (t : Io.ColTy) : ∃ s, Names s (codeOf t) := by
  cases t with
  | int t => exact names_codeOfInt t
  | str => exact ⟨_, .str⟩

theorem colTy_codeOf (t : Io.ColTy) : colTy? (codeOf t) = some t := by
  rcases t with (_ | _ | _ | _ | _ | _) | _ <;> rfl

/-- What a successful `.csv` write leaves behind. -/
theorem writeCsvFile_ok {fs : FS} {name : List Char} {m : Meta} {s : List Char} (hd : Describes m) (hf : Fits m) (hh : m.hdfs = ⟨false, ""⟩) :
    ∃ fs', writeCsvFile fs name m (.ok s) = (fs', .ok ()) ∧ readMetaFile fs' name = .ok m ∧ openText fs' name = .ok s := by
  obtain ⟨j, e1, e2⟩ := C273_round_trip_local hd hf hh
  refine ⟨_, by unfold writeCsvFile writeMetaFile; rw [e1], ?_, ?_⟩
  · unfold readMetaFile FS.set
    simp only
    rw [if_neg (metaName_ne name), if_pos trivial]
    exact e2
  · unfold openText FS.set
    simp

/-! ### C275: `read` returns what `write` has stored -/

/-- Integer matrices, in files with the extension `.csv`; the contents of the file system do not matter. -/
theorem C275_matrix (t : Io.IntTy) (m : Io.Mat Int) (hm : 0 < m.numRows ∧ m.numRows < 2 ^ 64) (hn : 0 < m.numCols ∧ m.numCols < 2 ^ 64) (hv : m.Valid)
    (hr : ∀ r c, r < m.numRows → c < m.numCols → t.InRange (m.get r c))
    (h64 : t = .si64 ∨ t = .ui64 → ∀ r c, r < m.numRows → c < m.numCols → -2 ^ 31 ≤ m.get r c ∧ m.get r c < 2 ^ 31)
    (fs : FS) (name : List Char) (he : extension name = ".csv".toList) :
    ∃ fs', writeMatrix t fs m name = (fs', .ok ()) ∧ ∀ junk, ∃ o, readMatrix t fs' name junk = .ok o ∧
      o.numRows = m.numRows ∧ o.numCols = m.numCols ∧ ∀ r c, r < m.numRows → c < m.numCols → o.get r c = m.get r c := by
  obtain ⟨s, e, h⟩ := Io.C35_ints t m hm.1 hn.1 hv hr h64
  obtain ⟨n, hn'⟩ := names_codeOfInt t
  obtain ⟨fs', e1, e2, e3⟩ := writeCsvFile_ok (fs := fs) (name := name) (m := .matrix m.numRows m.numCols (codeOfInt t)) (s := s)
    (.inl ⟨rfl, rfl, _, n, rfl, hn'⟩) ⟨hm.2, hn.2, by show -2 ^ 63 ≤ (-1 : Int) ∧ (-1 : Int) < 2 ^ 63; decide⟩ rfl
  refine ⟨fs', by unfold writeMatrix; rw [if_pos he, e, e1], fun junk => ?_⟩
  obtain ⟨o, e4, h'⟩ := h junk
  refine ⟨o, ?_, h'⟩
  unfold readMatrix
  rw [e2, Res.ok_bind, if_pos he, e3, Res.ok_bind]
  exact e4

theorem mapM_some {α β : Type} {f : α → Option β} {g : β → α} (h : ∀ b, f (g b) = some b) : ∀ l : List β, (l.map g).mapM f = some l
  | [] => rfl
  | b :: l => by rw [List.map_cons, List.mapM_cons, h b, mapM_some h l]; rfl

/-- Frames with integer and string columns: values, value types and labels come back. -/
theorem C275_frame (f : LFrame) (hm : 0 < f.fr.numRows ∧ f.fr.numRows < 2 ^ 64) (hn : 0 < f.fr.numCols ∧ f.fr.numCols < 2 ^ 64)
    (hv : ∀ j, j < f.fr.numCols → f.fr.numRows ≤ (f.fr.cols j).size)
    (hok : ∀ r c, r < f.fr.numRows → c < f.fr.numCols → Io.CellOk (f.fr.types c) ((f.fr.cols c).data r))
    (hl : f.labels.length = f.fr.numCols) (hu : f.labels.Nodup)
    (fs : FS) (name : List Char) (he : extension name = ".csv".toList) :
    ∃ fs', writeFrame fs f name = (fs', .ok ()) ∧ ∀ junk, ∃ o, readFrame fs' name junk = .ok o ∧
      o.fr.numRows = f.fr.numRows ∧ o.fr.numCols = f.fr.numCols ∧ o.labels = f.labels ∧
      ∀ c, c < f.fr.numCols → o.fr.types c = f.fr.types c ∧ ∀ r, r < f.fr.numRows → (o.fr.cols c).data r = (f.fr.cols c).data r := by
  obtain ⟨s, e, h⟩ := Io.C35_frame f.fr hm.1 hn.1 hv hok
  obtain ⟨fs', e1, e2, e3⟩ := writeCsvFile_ok (fs := fs) (name := name) (s := s)
    (m := .frame f.fr.numRows f.fr.numCols ((List.range f.fr.numCols).map fun c => codeOf (f.fr.types c)) f.labels)
    (.inr ⟨rfl, by simp [Meta.frame, hl], fun v hv => by
      simp only [Meta.frame, List.mem_map] at hv
      obtain ⟨c, _, rfl⟩ := hv
      exact names_codeOf _⟩) ⟨hm.2, hn.2, by show -2 ^ 63 ≤ (-1 : Int) ∧ (-1 : Int) < 2 ^ 63; decide⟩ rfl
  refine ⟨fs', by unfold writeFrame; rw [if_pos he, e, e1], fun junk => ?_⟩
  have ht : ∀ c, c < f.fr.numCols → ((List.range f.fr.numCols).map f.fr.types).getD c .str = f.fr.types c := by
    intro c hc
    rw [List.getD_eq_getElem?_getD, List.getElem?_map, List.getElem?_range hc]
    rfl
  have ec : createFrame f.fr.numCols ((List.range f.fr.numCols).map fun c => codeOf (f.fr.types c)) (some f.labels) =
      .ok ((List.range f.fr.numCols).map fun c => codeOf (f.fr.types c), f.labels) := by
    unfold createFrame
    have t1 : ((List.range f.fr.numCols).map fun c => codeOf (f.fr.types c)).take f.fr.numCols = (List.range f.fr.numCols).map fun c => codeOf (f.fr.types c) :=
      List.take_of_length_le (by simp)
    have t2 : f.labels.take f.fr.numCols = f.labels := List.take_of_length_le (by omega)
    have t3 : VTC.invalid ∉ (List.range f.fr.numCols).map fun c => codeOf (f.fr.types c) := by
      intro hi
      simp only [List.mem_map] at hi
      obtain ⟨c, _, h⟩ := hi
      obtain ⟨s, hs⟩ := names_codeOf (f.fr.types c)
      exact not_invalid hs h
    rw [if_neg (by simp)]
    simp only [t1, t2]
    rw [if_neg (by omega), if_neg t3, if_pos hu]
  have el : labelsFor (.frame f.fr.numRows f.fr.numCols ((List.range f.fr.numCols).map fun c => codeOf (f.fr.types c)) f.labels) = some f.labels := by
    unfold labelsFor Meta.frame
    rw [if_neg fun h => by simp only at h; rw [h] at hl; simp at hl; omega]
  have em : ((List.range f.fr.numCols).map fun c => codeOf (f.fr.types c)).mapM colTy? = some ((List.range f.fr.numCols).map f.fr.types) := by
    have := mapM_some colTy_codeOf ((List.range f.fr.numCols).map f.fr.types)
    rwa [List.map_map] at this
  -- the types agree on the columns, and the reader uses no others
  obtain ⟨o, e4, o1, o2, o3⟩ := Io.C35_frame ⟨f.fr.numRows, f.fr.numCols, fun j => ((List.range f.fr.numCols).map f.fr.types).getD j .str, f.fr.cols⟩ hm.1 hn.1 hv
    (fun r c h1 h2 => by simp only at h1 h2 ⊢; rw [ht c h2]; exact hok r c h1 h2) |>.choose_spec.2 junk
  have es : (Io.C35_frame ⟨f.fr.numRows, f.fr.numCols, fun j => ((List.range f.fr.numCols).map f.fr.types).getD j .str, f.fr.cols⟩ hm.1 hn.1 hv
    (fun r c h1 h2 => by simp only at h1 h2 ⊢; rw [ht c h2]; exact hok r c h1 h2)).choose = s := by
    have := (Io.C35_frame ⟨f.fr.numRows, f.fr.numCols, fun j => ((List.range f.fr.numCols).map f.fr.types).getD j .str, f.fr.cols⟩ hm.1 hn.1 hv
      (fun r c h1 h2 => by simp only at h1 h2 ⊢; rw [ht c h2]; exact hok r c h1 h2)).choose_spec.1
    exact Except.ok.inj (this.symm.trans e)
  rw [es] at e4
  have o4 : o.types = fun j => ((List.range f.fr.numCols).map f.fr.types).getD j .str := by
    unfold Io.readFrame at e4
    rw [if_neg (by simp only; omega), if_neg (by simp only; omega)] at e4
    obtain ⟨cols, _, e5⟩ := bind_inv e4
    rw [← Except.ok.inj e5]
  refine ⟨⟨o, f.labels⟩, ?_, o1, o2, rfl, fun c hc => ⟨by simp only [o4, ht c hc], fun r hr => o3 r c hr hc⟩⟩
  unfold readFrame
  rw [e2, Res.ok_bind, if_pos he]
  unfold schemaFor
  rw [if_neg (by simp [Meta.frame]), Res.ok_bind, el]
  show (do
    let x ← createFrame f.fr.numCols ((List.range f.fr.numCols).map fun c => codeOf (f.fr.types c)) (some f.labels)
    _) = _
  rw [ec, Res.ok_bind]
  simp only
  rw [e3, Res.ok_bind]
  unfold readCells
  rw [em]
  simp only [Meta.frame]
  rw [e4]
  rfl

example : extension "data/a.b.csv".toList = ".csv".toList ∧ extension ".csv".toList = [] ∧ extension "a.csv.meta".toList = ".meta".toList := by decide

/-! ### C276: only the two files are touched -/

/-- Whatever happens, `write` changes no other file than the named one and its meta data. -/
theorem C276_other_files (t : Io.IntTy) (fs : FS) (m : Io.Mat Int) (f : LFrame) (name other : List Char) (h1 : other ≠ name)
    (h2 : other ≠ name ++ ".meta".toList) : (writeMatrix t fs m name).1 other = fs other ∧ (writeFrame fs f name).1 other = fs other := by
  have key : ∀ (m : Meta) (text : Res (List Char)), (writeCsvFile fs name m text).1 other = fs other := by
    intro m text
    have h2' : other ≠ metaName name := h2
    unfold writeCsvFile writeMetaFile
    cases writeMeta m with
    | error e => simp [FS.set, h1, h2']
    | ok j => cases text <;> simp [FS.set, h1, h2']
  constructor
  · unfold writeMatrix
    split
    · exact key _ _
    · rfl
  · unfold writeFrame
    split
    · exact key _ _
    · rfl

/-- With another extension nothing is changed, and an exception is thrown. (Binary and HDFS files are not part of this model.) -/
theorem C276_unsupported (t : Io.IntTy) (fs : FS) (m : Io.Mat Int) (f : LFrame) (name : List Char) (h : extension name ≠ ".csv".toList) :
    (writeMatrix t fs m name).1 = fs ∧ (writeMatrix t fs m name).2.Throws ∧ (writeFrame fs f name).1 = fs ∧ (writeFrame fs f name).2.Throws := by
  unfold writeMatrix writeFrame
  rw [if_neg h, if_neg h]
  exact ⟨rfl, ⟨_, rfl⟩, rfl, ⟨_, rfl⟩⟩

/-- A successful `write` replaces the meta data by the description of what has been written. -/
theorem C276_describes (t : Io.IntTy) (fs fs' : FS) (m : Io.Mat Int) (name : List Char) (hr : m.numRows < 2 ^ 64) (hc : m.numCols < 2 ^ 64)
    (h : writeMatrix t fs m name = (fs', .ok ())) :
    ∃ fmd, readMetaFile fs' name = .ok fmd ∧ fmd.numRows = m.numRows ∧ fmd.numCols = m.numCols ∧ fmd.schema = [codeOfInt t] := by
  unfold writeMatrix at h
  split at h
  · obtain ⟨n, hn'⟩ := names_codeOfInt t
    cases e : Io.writeInts t m with
    | error er =>
      rw [e] at h
      unfold writeCsvFile writeMetaFile at h
      split at h <;> simp_all
    | ok s =>
      obtain ⟨fs'', e1, e2, _⟩ := writeCsvFile_ok (fs := fs) (name := name) (m := .matrix m.numRows m.numCols (codeOfInt t)) (s := s)
        (.inl ⟨rfl, rfl, _, n, rfl, hn'⟩) ⟨hr, hc, by show -2 ^ 63 ≤ (-1 : Int) ∧ (-1 : Int) < 2 ^ 63; decide⟩ rfl
      rw [e, e1] at h
      cases h
      exact ⟨_, e2, rfl, rfl, rfl⟩
  · cases h

/-! ### C281: the compiler knows what will be read -/

/-- As long as the meta data file is the same, the shape inferred for `readMatrix` is the one of the matrix read. -/
theorem C281_shape (t : Io.IntTy) (fs fs' : FS) (name : List Char) (hfs : fs' (name ++ ".meta".toList) = fs (name ++ ".meta".toList))
    (junk : Nat → Int) (o : Io.Mat Int) (h : readMatrix t fs' name junk = .ok o) : inferReadShape fs name = .ok (o.numRows, o.numCols) := by
  unfold readMatrix at h
  obtain ⟨fmd, e, h⟩ := bind_inv h
  have e' : readMetaFile fs name = .ok fmd := by
    unfold readMetaFile at e ⊢
    rw [show fs (metaName name) = fs' (metaName name) from hfs.symm]
    exact e
  split at h
  · obtain ⟨s, _, h⟩ := bind_inv h
    unfold inferReadShape
    rw [e', Res.ok_bind]
    unfold Io.readInts at h
    split at h
    · cases h
    · split at h
      · cases h
      · obtain ⟨x, _, h⟩ := bind_inv h
        rw [← Except.ok.inj h]
  · cases h

/-- The same for frames: shape, labels, and the value types if the schema has as many columns as the file is said to have. -/
theorem C281_frame (fs fs' : FS) (name : List Char) (hfs : fs' (name ++ ".meta".toList) = fs (name ++ ".meta".toList))
    (junk : Nat → Nat → Io.Val) (o : LFrame) (h : readFrame fs' name junk = .ok o) :
    inferReadShape fs name = .ok (o.fr.numRows, o.fr.numCols) ∧
    (∀ tys, inferReadFrameTypes fs name = .ok tys → tys.length = o.fr.numCols → tys = (List.range o.fr.numCols).map fun c => codeOf (o.fr.types c)) ∧
    (∀ ls, inferReadLabels fs name = .ok (some ls) → ls.length = o.fr.numCols → o.labels = ls) := by
  unfold readFrame at h
  obtain ⟨fmd, e, h⟩ := bind_inv h
  have e' : readMetaFile fs name = .ok fmd := by
    unfold readMetaFile at e ⊢
    rw [show fs (metaName name) = fs' (metaName name) from hfs.symm]
    exact e
  split at h
  · obtain ⟨schema, es, h⟩ := bind_inv h
    obtain ⟨⟨tys, ls⟩, ec, h⟩ := bind_inv h
    obtain ⟨s, _, h⟩ := bind_inv h
    obtain ⟨fr, er, h⟩ := bind_inv h
    have h := Except.ok.inj h
    subst h
    simp only
    unfold readCells at er
    split at er
    · cases er
    · rename_i tys' et
      have ⟨f1, f2, f3⟩ : fr.numRows = fmd.numRows ∧ fr.numCols = fmd.numCols ∧ fr.types = fun j => tys'.getD j .str := by
        unfold Io.readFrame at er
        split at er
        · cases er
        · split at er
          · cases er
          · obtain ⟨x, _, er⟩ := bind_inv er
            rw [← Except.ok.inj er]
            exact ⟨rfl, rfl, rfl⟩
      have hc : tys = schema.take fmd.numCols ∧ (∀ l, labelsFor fmd = some l → ls = l.take fmd.numCols) ∧ fmd.numCols ≤ schema.length := by
        unfold createFrame at ec
        split at ec
        · cases ec
        · rename_i hlen
          split at ec
          · rename_i hl
            split at ec
            · cases ec
            · have := Except.ok.inj ec
              refine ⟨(congrArg Prod.fst this).symm, fun l h => ?_, by omega⟩
              rw [hl] at h; cases h
          · rename_i l hl
            split at ec
            · cases ec
            · split at ec
              · cases ec
              · split at ec
                · have := Except.ok.inj ec
                  refine ⟨(congrArg Prod.fst this).symm, fun l' h => ?_, by omega⟩
                  rw [hl] at h; cases h
                  exact (congrArg Prod.snd this).symm
                · cases ec
      obtain ⟨hc1, hc2, hc3⟩ := hc
      -- types as codes
      have back : ∀ (l : List VTC) (r : List Io.ColTy), l.mapM colTy? = some r → l = r.map codeOf := by
        intro l
        induction l with
        | nil => intro r h; cases h; rfl
        | cons a l ih =>
          intro r h
          rw [List.mapM_cons] at h
          cases ha : colTy? a with
          | none => rw [ha] at h; cases h
          | some b =>
            rw [ha] at h
            cases hl : l.mapM colTy? with
            | none => rw [hl] at h; cases h
            | some r' =>
              rw [hl] at h
              cases h
              rw [List.map_cons, ← ih r' hl]
              congr 1
              cases a <;> cases ha <;> rfl
      have hb := back _ _ et
      refine ⟨?_, ?_, ?_⟩
      · unfold inferReadShape
        rw [e', Res.ok_bind, f1, f2]
      · intro t ht htl
        rw [f2] at htl ⊢
        have hts : t = schema := by
          unfold inferReadFrameTypes at ht
          rw [e', Res.ok_bind] at ht
          unfold schemaFor at es
          split at ht
          · rename_i hsg
            rw [if_pos hsg] at es
            split at ht
            · rename_i v vs hvs
              rw [hvs] at es
              exact (Except.ok.inj ht).symm.trans (Except.ok.inj es)
            · cases ht
          · rename_i hsg
            rw [if_neg hsg] at es
            exact (Except.ok.inj ht).symm.trans (Except.ok.inj es)
        have ht' : tys = t := by rw [hc1, ← hts]; exact List.take_of_length_le (by omega)
        rw [ht'] at hb
        have hlen : tys'.length = fmd.numCols := by
          have := congrArg List.length hb
          simp at this
          omega
        rw [hb, f3]
        apply List.ext_getElem
        · simp [hlen]
        · intro i h1 h2
          simp only [List.length_map] at h1
          simp [List.getD_eq_getElem?_getD, List.getElem?_eq_getElem h1]
      · intro l hl hll
        unfold inferReadLabels at hl
        rw [e', Res.ok_bind] at hl
        have := hc2 l (Except.ok.inj hl)
        rw [this]
        exact List.take_of_length_le (by omega)
  · cases h

/-! ### C277-C280, C282: what does not hold -/

/-- The meta data of a frame with a column of fixed-size strings are written, but cannot be read. -/
theorem C277_fixed_size_strings_partial (numRows numCols : Nat) (l : String) :
    ∃ j, writeMeta (.frame numRows numCols [.fixedStr16] [l]) = .ok j ∧ ∀ m, readMeta j ≠ .ok m := by
  refine ⟨_, rfl, fun m h => ?_⟩
  obtain ⟨_, h⟩ := C274_accepted h
  rcases h with ⟨h, _⟩ | ⟨cols, h, _, h1, h2, h3⟩
  · cases h
  · have : cols = [.obj [("label", .str l), ("valueType", .null)]] := by
      have := Option.some.inj h
      exact (Json.arr.inj this).symm
    subst this
    simp only [List.length_cons, List.length_nil] at h1 h2
    obtain ⟨_, jt, e, h | ⟨_, jd, h, _⟩⟩ := h3 0 (by simp) (by omega) (by omega)
    · have : jt = .null := (Option.some.inj e).symm
      subst this
      cases h with
      | known e h => cases e
    · cases h

/-- Documented as supported: frames whose labels are all empty. With two or more columns (as in the documentation), reading the frame
throws. -/
theorem C278_empty_labels_partial (fs : FS) (name : List Char) (fmd : Meta) (h : readMetaFile fs name = .ok fmd) (hs : fmd.single = false)
    (h2 : 2 ≤ fmd.numCols) (hl : fmd.labels = List.replicate fmd.numCols "") (hn : fmd.numCols ≤ fmd.schema.length) (junk : Nat → Nat → Io.Val) :
    (readFrame fs name junk).Throws := by
  unfold readFrame
  rw [h, Res.ok_bind]
  split
  · unfold schemaFor
    rw [if_neg (by simp [hs]), Res.ok_bind]
    have : labelsFor fmd = some fmd.labels := by
      unfold labelsFor
      rw [if_neg]
      rw [hl]
      intro h
      have := congrArg List.length h
      simp at this
      omega
    rw [this]
    have hd : ¬ (fmd.labels.take fmd.numCols).Nodup := by
      rw [hl, List.take_of_length_le (by simp)]
      obtain ⟨k, hk⟩ : ∃ k, fmd.numCols = k + 2 := ⟨fmd.numCols - 2, by omega⟩
      rw [hk]
      simp [List.replicate_succ]
    have : (createFrame fmd.numCols fmd.schema (some fmd.labels)).Throws := by
      unfold createFrame
      rw [if_neg (by omega)]
      simp only
      rw [if_neg (show ¬ fmd.labels.length < fmd.numCols by rw [hl]; simp), if_neg hd]
      split
      · exact ⟨_, rfl⟩
      · exact ⟨_, rfl⟩
    obtain ⟨msg, e⟩ := this
    exact ⟨msg, by rw [e]; rfl⟩
  · exact ⟨_, rfl⟩

/-- The example of the documentation. -/
def docEmptyLabels : Json :=
  .obj [("numRows", .num 5), ("numCols", .num 3), ("schema", .arr [.obj [("label", .str ""), ("valueType", .str "si64")],
    .obj [("label", .str ""), ("valueType", .str "f64")], .obj [("label", .str ""), ("valueType", .str "ui32")]])]

example : readMeta docEmptyLabels = .ok (.frame 5 3 [.si64, .f64, .ui32] ["", "", ""]) := by decide +kernel

/-- A schema with fewer elements than `numCols` is accepted, and reading the frame accesses memory out of bounds. -/
theorem C279_short_schema_partial (fs : FS) (name : List Char) (fmd : Meta) (h : readMetaFile fs name = .ok fmd) (hs : fmd.single = false)
    (hn : fmd.schema.length < fmd.numCols) (he : extension name = ".csv".toList) (junk : Nat → Nat → Io.Val) :
    (readFrame fs name junk).IsUB := by
  unfold readFrame
  rw [h, Res.ok_bind, if_pos he]
  unfold schemaFor
  rw [if_neg (by simp [hs]), Res.ok_bind]
  unfold createFrame
  rw [if_pos hn]
  exact ⟨_, rfl⟩

example : readMeta (.obj [("numRows", .num 5), ("numCols", .num 3), ("schema", .arr [])]) = .ok (.frame 5 3 [] []) := by decide +kernel

/-- An unknown value type of a matrix is not rejected when the meta data are read. -/
theorem C280_unknown_type_partial (r c : Nat) (s : String) (hs : ∀ v, ¬ Names s v) :
    ∃ m, readMeta (.obj [("numRows", .num r), ("numCols", .num c), ("valueType", .str s)]) = .ok m ∧ m.schema = [.invalid] := by
  have : vtcFromJson (.str s) = .invalid := by
    have := fromJson_asks (.str s)
    by_contra hne
    rw [if_neg hne] at this
    cases this with
    | known e h => cases e; exact hs _ h
  refine ⟨_, rfl, ?_⟩
  simp only [Meta.matrix, this]

/-- Numbers of rows that are negative or not whole are not rejected either. -/
theorem C280_numbers_partial :
    readMeta (.obj [("numRows", .num (-1)), ("numCols", .num 1), ("valueType", .str "f64")]) = .ok (.matrix (2 ^ 64 - 1) 1 .f64) ∧
    readMeta (.obj [("numRows", .real 2), ("numCols", .num 1), ("valueType", .str "f64")]) = .ok (.matrix 2 1 .f64) := by
  decide +kernel

/-- A script that writes a matrix to a file and then reads it: the compiler takes the shape from the file as it was before the script ran. -/
theorem C282_write_then_read_partial (t : Io.IntTy) (fs : FS) (m : Io.Mat Int) (name : List Char) (fmd : Meta) (h : readMetaFile fs name = .ok fmd)
    (hne : (fmd.numRows, fmd.numCols) ≠ (m.numRows, m.numCols)) (hr : m.numRows < 2 ^ 64) (hc : m.numCols < 2 ^ 64) (fs' : FS)
    (hw : writeMatrix t fs m name = (fs', .ok ())) (junk : Nat → Int) (o : Io.Mat Int) (ho : readMatrix t fs' name junk = .ok o) :
    ∃ shape, inferReadShape fs name = .ok shape ∧ shape ≠ (o.numRows, o.numCols) := by
  refine ⟨(fmd.numRows, fmd.numCols), by unfold inferReadShape; rw [h, Res.ok_bind], fun e => ?_⟩
  have := C281_shape t fs' fs' name rfl junk o ho
  obtain ⟨fmd', e1, e2, e3, _⟩ := C276_describes t fs fs' m name hr hc hw
  unfold inferReadShape at this
  rw [e1, Res.ok_bind] at this
  have := Except.ok.inj this
  rw [← this] at e
  apply hne
  rw [e, e2, e3]

/-- A case for the theorem: the file describes a 1x1 matrix, the script writes a 1x2 matrix. -/
example : ∃ (fs : FS) (m : Io.Mat Int) (name : List Char) (fmd : Meta) (fs' : FS) (o : Io.Mat Int), readMetaFile fs name = .ok fmd ∧
    (fmd.numRows, fmd.numCols) ≠ (m.numRows, m.numCols) ∧ writeMatrix .si64 fs m name = (fs', .ok ()) ∧ readMatrix .si64 fs' name (fun _ => 0) = .ok o := by
  have hv : (⟨1, 2, 2, Buf.ofList [5, -7]⟩ : Io.Mat Int).Valid := by
    intro r c hr hc
    simp only at hr hc
    simp only [Buf.ofList, List.length_cons, List.length_nil]
    omega
  have hg : ∀ r c, r < 1 → c < 2 → -2 ^ 31 ≤ (⟨1, 2, 2, Buf.ofList [5, -7]⟩ : Io.Mat Int).get r c ∧ (⟨1, 2, 2, Buf.ofList [5, -7]⟩ : Io.Mat Int).get r c < 2 ^ 31 := by
    intro r c hr hc
    obtain rfl : r = 0 := by omega
    have : c = 0 ∨ c = 1 := by omega
    rcases this with rfl | rfl <;> decide
  obtain ⟨fs', e, h⟩ := C275_matrix .si64 ⟨1, 2, 2, Buf.ofList [5, -7]⟩ ⟨by decide, by decide⟩ ⟨by decide, by decide⟩ hv
    (fun r c hr hc => by have := hg r c hr hc; unfold Io.IntTy.InRange; simp only; omega) (fun _ => hg)
    (fun n => if n = metaName "a.csv".toList then some (.json (.obj [("numRows", .num 1), ("numCols", .num 1), ("valueType", .str "si64")])) else none)
    "a.csv".toList (by decide)
  obtain ⟨o, e', _⟩ := h fun _ => 0
  exact ⟨_, _, _, .matrix 1 1 .si64, fs', o, by decide +kernel, by decide, e, e'⟩

end Verif.FileMeta
