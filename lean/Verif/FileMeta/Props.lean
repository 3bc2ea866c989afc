/-
  Properties C273-C276, C281: meta data and files by name.
-/
import Verif.FileMeta.Model

namespace Verif.FileMeta
open Verif

/-! ### Specification -/

/-- The names of value types in meta data files (doc/FileMetaDataFormat.md). -/
inductive Names : String → VTC → Prop
  | si8 : Names "si8" .si8
  | si32 : Names "si32" .si32
  | si64 : Names "si64" .si64
  | ui8 : Names "ui8" .ui8
  | ui32 : Names "ui32" .ui32
  | ui64 : Names "ui64" .ui64
  | f32 : Names "f32" .f32
  | f64 : Names "f64" .f64
  | str : Names "str" .str

/-- Meta data that describe a matrix or a frame: one value type and no labels, or a label for each column; value types that have a name. -/
def Describes (m : Meta) : Prop :=
  (m.single = true ∧ m.labels = [] ∧ ∃ v s, m.schema = [v] ∧ Names s v) ∨
  (m.single = false ∧ m.labels.length = m.schema.length ∧ ∀ v ∈ m.schema, ∃ s, Names s v)

/-- Numbers as they are stored in the fields of the C++ struct. -/
structure Fits (m : Meta) : Prop where
  rows : m.numRows < 2 ^ 64
  cols : m.numCols < 2 ^ 64
  nnz : -2 ^ 63 ≤ m.numNonZeros ∧ m.numNonZeros < 2 ^ 63

/-- The value type that the JSON value `j` asks for: a known name, or nothing known. -/
inductive Asks (j : Json) : Option VTC → Prop
  | known {s : String} {v : VTC} (e : j = .str s) (h : Names s v) : Asks j (some v)
  | unknown (h : ∀ s v, j = .str s → ¬ Names s v) : Asks j none

/-- `j` is a number with integer part `n`. -/
def IsNumber (j : Json) (n : Nat) : Prop := (∃ v, j = .num v ∧ (v % 2 ^ 64).toNat = n) ∨ j = .real n

/-! ### Value types -/

theorem toJson_names {s : String} {v : VTC} (h : Names s v) : vtcToJson v = .str s := by
  cases h <;> simp [vtcToJson, table]

theorem fromJson_names {s : String} {v : VTC} (h : Names s v) : vtcFromJson (.str s) = v := by
  cases h <;> simp [vtcFromJson, table]

theorem not_invalid {s : String} {v : VTC} (h : Names s v) : v ≠ .invalid := by cases h <;> decide

theorem fromJson_asks (j : Json) : Asks j (if vtcFromJson j = .invalid then none else some (vtcFromJson j)) := by
  cases j with
  | str s =>
    by_cases h : ∃ v, Names s v
    · obtain ⟨v, h⟩ := h
      rw [fromJson_names h, if_neg (not_invalid h)]
      exact .known rfl h
    · have e : vtcFromJson (.str s) = .invalid := by
        have : table.find? (fun e => e.2 = s) = none := by
          rw [List.find?_eq_none]
          intro e he hs
          simp only [decide_eq_true_eq] at hs
          subst hs
          apply h
          simp only [table, List.mem_cons, List.not_mem_nil, or_false] at he
          rcases he with rfl | rfl | rfl | rfl | rfl | rfl | rfl | rfl | rfl
          · exact ⟨_, .si8⟩
          · exact ⟨_, .si32⟩
          · exact ⟨_, .si64⟩
          · exact ⟨_, .ui8⟩
          · exact ⟨_, .ui32⟩
          · exact ⟨_, .ui64⟩
          · exact ⟨_, .f32⟩
          · exact ⟨_, .f64⟩
          · exact ⟨_, .str⟩
        simp only [vtcFromJson, this]
      rw [e, if_pos rfl]
      exact .unknown fun s' v e h' => by cases e; exact h ⟨v, h'⟩
  | _ => exact .unknown fun s v e => by cases e

/-! ### C273: what is written is read back -/

theorem mapM_ok {α β : Type} {f : α → Res β} {g : α → β} : ∀ l : List α, (∀ a ∈ l, f a = .ok (g a)) → l.mapM f = .ok (l.map g)
  | [], _ => rfl
  | a :: l, h => by
    rw [List.mapM_cons, h a (by simp), Res.ok_bind, mapM_ok l fun b hb => h b (by simp [hb]), Res.ok_bind]
    rfl

theorem writeColumns_ok : ∀ (vs : List VTC) (ls : List String), ls.length = vs.length →
    writeColumns vs ls = .ok ((vs.zip ls).map fun p => .obj [("label", .str p.2), ("valueType", vtcToJson p.1)])
  | [], _, _ => by simp [writeColumns]
  | v :: vs, [], h => by simp at h
  | v :: vs, l :: ls, h => by
    rw [writeColumns, writeColumns_ok vs ls (by simpa using h), Res.ok_bind]
    rfl

theorem lookup_cons {α : Type} (k k' : String) (v : α) (l : List (String × α)) :
    ((k', v) :: l).lookup k = if k = k' then some v else l.lookup k := by
  rw [List.lookup]
  by_cases h : k = k'
  · simp [h]
  · have : (k == k') = false := by simpa using h
    simp [h, this]

theorem wrapS_id {v : Int} (h : -2 ^ 63 ≤ v ∧ v < 2 ^ 63) : Io.wrapS 64 v = v := by
  unfold Io.wrapS
  norm_num at *
  omega

/-- What comes back for the HDFS part: the directory is not kept. -/
def hdfsBack (h : Hdfs) : Hdfs := if h.isHDFS then ⟨true, String.ofList ('/' :: fileName h.filename.toList)⟩ else ⟨false, ""⟩

theorem readColumns_ok (d : VTC) : ∀ (vs : List VTC) (ls : List String), ls.length = vs.length → (∀ v ∈ vs, ∃ s, Names s v) →
    ∃ cs, ((vs.zip ls).map fun p => Json.obj [("label", .str p.2), ("valueType", vtcToJson p.1)]).mapM readColumn = .ok cs ∧
      ∃ cs', cs.mapM (columnType d) = .ok cs' ∧ cs'.map (·.1) = vs ∧ cs'.map (·.2) = ls
  | [], [], _, _ => ⟨[], rfl, [], rfl, rfl, rfl⟩
  | [], _ :: _, h, _ => by simp at h
  | _ :: _, [], h, _ => by simp at h
  | v :: vs, l :: ls, h, hn => by
    obtain ⟨s, hs⟩ := hn v (by simp)
    obtain ⟨cs, e1, cs', e2, e3, e4⟩ := readColumns_ok d vs ls (by simpa using h) fun w hw => hn w (by simp [hw])
    refine ⟨(l, v) :: cs, ?_, (v, l) :: cs', ?_, by simp [e3], by simp [e4]⟩
    · have : readColumn (.obj [("label", .str l), ("valueType", vtcToJson v)]) = .ok (l, v) := by
        unfold readColumn Json.atKey Json.get?
        simp only [lookup_cons]
        rw [if_pos trivial, if_neg (by decide), if_pos trivial]
        simp only [Res.ok_bind, Json.getStr, toJson_names hs, fromJson_names hs]
      rw [List.zip_cons_cons, List.map_cons, List.mapM_cons, this, Res.ok_bind, e1]
      rfl
    · have : columnType d (l, v) = .ok (v, l) := by
        unfold columnType
        rw [if_neg (not_invalid hs)]
      rw [List.mapM_cons, this, Res.ok_bind, e2]
      rfl

/-- All meta data that describe a matrix or a frame survive being written and read; of an HDFS file name only the last component does. -/
theorem C273_round_trip {m : Meta} (hd : Describes m) (hf : Fits m) :
    ∃ j, writeMeta m = .ok j ∧ readMeta j = .ok { m with hdfs := hdfsBack m.hdfs } := by
  have keys : ∀ (ts : List (String × Json)), (∀ k, k ≠ "valueType" → k ≠ "schema" → ts.lookup k = none) →
      (Json.obj (("numRows", .num m.numRows) :: ("numCols", .num m.numCols) :: (ts ++ (writeNnz m ++ writeHdfs m)))).get? "numRows" = some (.num m.numRows) ∧
      (Json.obj (("numRows", .num m.numRows) :: ("numCols", .num m.numCols) :: (ts ++ (writeNnz m ++ writeHdfs m)))).get? "numCols" = some (.num m.numCols) ∧
      (Json.obj (("numRows", .num m.numRows) :: ("numCols", .num m.numCols) :: (ts ++ (writeNnz m ++ writeHdfs m)))).get? "valueType" = ts.lookup "valueType" ∧
      (Json.obj (("numRows", .num m.numRows) :: ("numCols", .num m.numCols) :: (ts ++ (writeNnz m ++ writeHdfs m)))).get? "schema" = ts.lookup "schema" ∧
      readNnz (Json.obj (("numRows", .num m.numRows) :: ("numCols", .num m.numCols) :: (ts ++ (writeNnz m ++ writeHdfs m)))) = .ok m.numNonZeros ∧
      readHdfs (Json.obj (("numRows", .num m.numRows) :: ("numCols", .num m.numCols) :: (ts ++ (writeNnz m ++ writeHdfs m)))) = .ok (hdfsBack m.hdfs) := by
    intro ts hts
    have hn := hts "numNonZeros" (by decide) (by decide)
    have hh := hts "hdfs" (by decide) (by decide)
    refine ⟨?_, ?_, ?_, ?_, ?_, ?_⟩
    · simp only [Json.get?, lookup_cons]; simp
    · simp only [Json.get?, lookup_cons]; simp
    · simp only [Json.get?, lookup_cons]
      rw [if_neg (by decide), if_neg (by decide), List.lookup_append]
      have : (writeNnz m ++ writeHdfs m).lookup "valueType" = none := by
        unfold writeNnz writeHdfs
        split <;> split <;> simp [List.lookup]
      rw [this, Option.or_none]
    · simp only [Json.get?, lookup_cons]
      rw [if_neg (by decide), if_neg (by decide), List.lookup_append]
      have : (writeNnz m ++ writeHdfs m).lookup "schema" = none := by
        unfold writeNnz writeHdfs
        split <;> split <;> simp [List.lookup]
      rw [this, Option.or_none]
    · unfold readNnz
      simp only [Json.get?, lookup_cons]
      rw [if_neg (by decide), if_neg (by decide), List.lookup_append, hn, Option.none_or, List.lookup_append]
      unfold writeNnz writeHdfs
      by_cases h1 : m.numNonZeros = -1
      · by_cases h2 : m.hdfs.isHDFS = true
        · simp [h1, h2, List.lookup]
        · simp [h1, h2]
      · simp [h1, List.lookup, Json.getSSize, wrapS_id hf.nnz]
    · unfold readHdfs
      simp only [Json.get?, lookup_cons]
      rw [if_neg (by decide), if_neg (by decide), List.lookup_append, hh, Option.none_or, List.lookup_append]
      have : (writeNnz m).lookup "hdfs" = none := by
        unfold writeNnz
        split <;> simp [List.lookup]
      rw [this, Option.none_or]
      unfold writeHdfs hdfsBack
      by_cases h2 : m.hdfs.isHDFS = true
      · rw [if_pos h2, if_pos h2]
        simp only [lookup_cons, List.lookup_nil]
        rw [if_pos trivial]
        simp only [lookup_cons]
        rw [if_pos trivial, if_neg (by decide), if_pos trivial]
        simp only [Option.getD_some, Json.getBool, Json.getStr, h2, Res.ok_bind]
      · rw [if_neg h2, if_neg h2]
        simp
  have size : ∀ n : Nat, n < 2 ^ 64 → (Json.num n).getSize = .ok n := by
    intro n hn
    unfold Json.getSize
    simp only
    congr 1
    omega
  rcases hd with ⟨h1, h2, v, s, h3, hs⟩ | ⟨h1, h2, h3⟩
  · have ew : writeTypes m = .ok [("valueType", vtcToJson v)] := by
      unfold writeTypes
      rw [if_pos h1, h3]
    obtain ⟨k1, k2, k3, k4, k5, k6⟩ := keys [("valueType", vtcToJson v)] fun k hk _ => by rw [lookup_cons, if_neg hk]; rfl
    refine ⟨_, by unfold writeMeta; rw [ew, Res.ok_bind], ?_⟩
    unfold readMeta readMatrixMeta
    rw [k1, k2, k3, k4, k5, k6]
    simp only [size _ hf.rows, size _ hf.cols, Res.ok_bind, lookup_cons, List.lookup_nil]
    rw [if_neg (by decide), if_pos trivial]
    simp only [toJson_names hs, fromJson_names hs, Meta.matrix]
    rw [← h1, ← h2, ← h3]
  · obtain ⟨cs, e1, cs', e2, e3, e4⟩ := readColumns_ok (defaultType (.obj (("numRows", .num m.numRows) :: ("numCols", .num m.numCols) ::
      ([("schema", .arr ((m.schema.zip m.labels).map fun p => .obj [("label", .str p.2), ("valueType", vtcToJson p.1)]))] ++ (writeNnz m ++ writeHdfs m)))))
      m.schema m.labels h2 h3
    have ew : writeTypes m = .ok [("schema", .arr ((m.schema.zip m.labels).map fun p => .obj [("label", .str p.2), ("valueType", vtcToJson p.1)]))] := by
      unfold writeTypes
      rw [if_neg (by simp [h1]), writeColumns_ok _ _ h2, Res.ok_bind]
    obtain ⟨k1, k2, k3, k4, k5, k6⟩ := keys [("schema", .arr ((m.schema.zip m.labels).map fun p => .obj [("label", .str p.2), ("valueType", vtcToJson p.1)]))]
      fun k _ hk => by rw [lookup_cons, if_neg hk]; rfl
    refine ⟨_, by unfold writeMeta; rw [ew, Res.ok_bind], ?_⟩
    unfold readMeta readFrameMeta
    rw [k1, k2, k4, k5, k6]
    simp only [size _ hf.rows, size _ hf.cols, Res.ok_bind, lookup_cons, List.lookup_nil]
    rw [if_pos trivial]
    simp only [Json.getArr, Res.ok_bind]
    rw [e1, Res.ok_bind, e2, Res.ok_bind]
    simp only [Meta.frame, e3, e4]
    rw [← h1]

/-- The same without HDFS: nothing is lost. -/
theorem C273_round_trip_local {m : Meta} (hd : Describes m) (hf : Fits m) (hh : m.hdfs = ⟨false, ""⟩) :
    ∃ j, writeMeta m = .ok j ∧ readMeta j = .ok m := by
  obtain ⟨j, e1, e2⟩ := C273_round_trip hd hf
  refine ⟨j, e1, e2.trans ?_⟩
  obtain ⟨_, _, _, _, _, _, h⟩ := m
  subst hh
  rfl

/-- The hypotheses are met by a frame with two columns. -/
example : Describes (.frame 4 2 [.si64, .f64] ["foo", "bar"]) ∧ Fits (.frame 4 2 [.si64, .f64] ["foo", "bar"]) := by
  refine ⟨.inr ⟨rfl, rfl, ?_⟩, ⟨by decide, by decide, by decide⟩⟩
  intro v hv
  simp only [Meta.frame, List.mem_cons, List.not_mem_nil, or_false] at hv
  rcases hv with rfl | rfl
  · exact ⟨_, .si64⟩
  · exact ⟨_, .f64⟩

/-! ### C274: what reading accepts, and what it makes of it -/

theorem mapM_inv {α β : Type} {f : α → Res β} : ∀ {l : List α} {r : List β}, l.mapM f = .ok r →
    r.length = l.length ∧ ∀ i (h : i < l.length) (h' : i < r.length), f l[i] = .ok r[i]
  | [], r, h => by
    cases h
    exact ⟨rfl, fun i h => by simp at h⟩
  | a :: l, r, h => by
    rw [List.mapM_cons] at h
    cases ea : f a with
    | error e => rw [ea] at h; cases h
    | ok b =>
      rw [ea, Res.ok_bind] at h
      cases el : l.mapM f with
      | error e => rw [el] at h; cases h
      | ok r' =>
        rw [el, Res.ok_bind] at h
        cases h
        obtain ⟨h1, h2⟩ := mapM_inv el
        refine ⟨by simp [h1], fun i hi hi' => ?_⟩
        cases i with
        | zero => simpa using ea
        | succ i => simpa using h2 i (by simpa using hi) (by simpa using hi')

theorem getSize_inv {j : Json} {n : Nat} (h : j.getSize = .ok n) : IsNumber j n := by
  cases j with
  | num v => cases h; exact .inl ⟨v, rfl, rfl⟩
  | real t =>
    unfold Json.getSize at h
    simp only at h
    split at h
    · rename_i ht
      cases h
      right
      rw [Int.toNat_of_nonneg ht.1]
    · cases h
  | _ => cases h

theorem bind_inv {α β : Type} {m : Res α} {f : α → Res β} {b : β} (h : m >>= f = .ok b) : ∃ a, m = .ok a ∧ f a = .ok b := by
  cases m with
  | error e => cases h
  | ok a => exact ⟨a, rfl, h⟩

/-- Element `c` of a schema says: label `l`, value type `v` if it names one, else the value type of the whole file. -/
def ColumnSays (file c : Json) (l : String) (v : VTC) : Prop :=
  c.get? "label" = some (.str l) ∧ ∃ jt, c.get? "valueType" = some jt ∧
    (Asks jt (some v) ∨ (Asks jt none ∧ ∃ jd, file.get? "valueType" = some jd ∧ Asks jd (some v)))

/-- Whatever meta data are accepted have numbers for `numRows` and `numCols`, and these are the dimensions; with a schema, each of its
elements has a label and a value type of its own or by default; without, the value type is the one of the file. -/
theorem C274_accepted {j : Json} {m : Meta} (h : readMeta j = .ok m) :
    (∃ r c, j.get? "numRows" = some r ∧ j.get? "numCols" = some c ∧ IsNumber r m.numRows ∧ IsNumber c m.numCols) ∧
    ((j.get? "schema" = none ∧ m.single = true ∧ m.labels = [] ∧
        ∃ v jt, m.schema = [v] ∧ j.get? "valueType" = some jt ∧ Asks jt (if v = .invalid then none else some v)) ∨
     (∃ cols, j.get? "schema" = some (.arr cols) ∧ m.single = false ∧ m.schema.length = cols.length ∧ m.labels.length = cols.length ∧
        ∀ i (hi : i < cols.length) (h1 : i < m.labels.length) (h2 : i < m.schema.length), ColumnSays j cols[i] m.labels[i] m.schema[i])) := by
  unfold readMeta at h
  split at h
  · rename_i r c er ec
    obtain ⟨nr, e1, h⟩ := bind_inv h
    obtain ⟨nc, e2, h⟩ := bind_inv h
    obtain ⟨nnz, _, h⟩ := bind_inv h
    obtain ⟨hd, _, h⟩ := bind_inv h
    split at h
    · rename_i es
      unfold readMatrixMeta at h
      split at h
      · rename_i v ev
        cases h
        exact ⟨⟨r, c, er, ec, getSize_inv e1, getSize_inv e2⟩, .inl ⟨es, rfl, rfl, _, v, rfl, ev, fromJson_asks v⟩⟩
      · cases h
    · rename_i s es
      unfold readFrameMeta at h
      obtain ⟨cols, ea, h⟩ := bind_inv h
      obtain ⟨cs, eb, h⟩ := bind_inv h
      obtain ⟨cs', ec', h⟩ := bind_inv h
      cases h
      cases s <;> try cases ea
      obtain ⟨l1, g1⟩ := mapM_inv eb
      obtain ⟨l2, g2⟩ := mapM_inv ec'
      refine ⟨⟨r, c, er, ec, getSize_inv e1, getSize_inv e2⟩, .inr ⟨_, es, rfl, by simp [Meta.frame, l1, l2], by simp [Meta.frame, l1, l2], fun i hi h1 h2 => ?_⟩⟩
      have i1 : i < cs.length := by omega
      have i2 : i < cs'.length := by omega
      have a := g1 i hi i1
      have b := g2 i i1 i2
      unfold readColumn Json.atKey at a
      obtain ⟨jl, a1, b1⟩ := bind_inv a
      obtain ⟨l, a2, b2⟩ := bind_inv b1
      obtain ⟨jt, a3, b3⟩ := bind_inv b2
      clear a b1 b2
      split at a1 <;> cases a1
      rename_i a1
      split at a3 <;> cases a3
      rename_i a3
      cases jl <;> try cases a2
      have a := Except.ok.inj b3
      have ask := fromJson_asks jt
      unfold columnType at b
      rw [← a] at b
      simp only at b
      simp only [Meta.frame, List.getElem_map]
      split at b
      · rename_i hv
        split at b
        · cases b
        · rename_i hd'
          rw [← Except.ok.inj b]
          rw [if_pos hv] at ask
          refine ⟨a1, jt, a3, .inr ⟨ask, ?_⟩⟩
          unfold defaultType at hd' ⊢
          split at hd'
          · rename_i jd ed
            have := fromJson_asks jd
            rw [if_neg hd'] at this
            exact ⟨jd, ed, this⟩
          · exact absurd rfl hd'
      · rename_i hv
        rw [← Except.ok.inj b]
        rw [if_neg hv] at ask
        exact ⟨a1, jt, a3, .inl ask⟩
  · cases h

/-- The documented example with a default value type. -/
def docDefault : Json :=
  .obj [("numRows", .num 5), ("numCols", .num 2), ("valueType", .str "f32"),
    ("schema", .arr [.obj [("label", .str "a"), ("valueType", .str "")], .obj [("label", .str "bc"), ("valueType", .str "si8")]])]

example : readMeta docDefault = .ok (.frame 5 2 [.f32, .si8] ["a", "bc"]) := by decide +kernel

end Verif.FileMeta
