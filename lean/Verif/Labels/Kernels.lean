/-
  The labels of the results of the frame kernels, whatever else they do (partial correctness). Lemmas for C226.
-/
import Verif.Labels.Model

namespace Verif.Labels
open Verif Verif.Rel Verif.Ir Verif.Res
variable {V : Type}

/-- A frame with these labels, in which labels are looked up correctly. -/
def Has (ls : List String) (f : Frame V) : Prop := f.labels = ls ∧ f.LabelsOK

theorem initL_post (ls : List String) : Post (initL 0 ls []) fun m => MapOK m ls := by
  intro m hm
  by_cases hn : ls.Nodup
  · obtain ⟨m', h1, h2⟩ := (initL_iff ls).1 hn
    rw [h1] at hm
    cases hm
    exact h2
  · obtain ⟨e, he⟩ := (initL_iff ls).2 hn
    rw [he] at hm
    cases hm

theorem has_of_map {f : Frame V} {ls : List String} (h : f.labels = ls) (hm : MapOK f.l2i ls) : Has ls f :=
  ⟨h, labelsOK_of_map (by rw [h]; exact hm)⟩

theorem create_post {n : Nat} {schema : List VTC} {ls : List String} {junk : Nat → Nat → V} (hl : ls.length = schema.length) :
    Post (Frame.create n schema (some ls) junk) (Has ls) := by
  intro f hf
  have h := C69_create_labels n schema (some ls) junk (by rintro _ ⟨⟩; exact hl)
  by_cases hn : ls.Nodup
  · obtain ⟨g, h1, -, -, h4, h5⟩ := h.1 hn
    rw [h1] at hf
    cases hf
    exact ⟨h4, h5⟩
  · obtain ⟨e, he⟩ := h.2.1 hn
    rw [he] at hf
    cases hf

theorem ofMats_post {ms : List (ColMat V)} {ls : List String} (hl : ls.length = ms.length) : Post (Frame.ofMats ms (some ls)) (Has ls) := by
  cases ms with
  | nil => exact post_error
  | cons m0 ms =>
    unfold Frame.ofMats
    refine post_ite (fun _ => post_error) fun _ => post_ite (fun _ => post_error) fun _ => post_ite (fun _ => post_error) fun _ =>
      post_ite (fun _ => post_error) fun _ => ?_
    refine post_bind (initL_post _) fun m hm => post_ok (has_of_map ?_ hm)
    simp only [Frame.labels, List.map_map, Option.getD_some]
    show ((m0 :: ms).zip ls).map (fun p => p.2) = ls
    exact List.map_snd_zip (by omega)

theorem bind_post {f g : Frame V} : Post (f.bind g) (Has (f.labels ++ g.labels)) := by
  unfold Frame.bind
  refine post_ite (fun _ => post_error) fun _ => ?_
  have hl : (f.cols ++ g.cols).map (·.label) = f.labels ++ g.labels := by simp [Frame.labels]
  refine post_bind (initL_post _) fun m hm => post_ok (has_of_map hl ?_)
  rw [← hl]; exact hm

/-- Columns that are not repeated keep their labels. -/
theorem sub_post {f : Frame V} {rl ru : Nat} {idxs : List Nat} (hn : (idxs.filterMap fun i => f.labels[i]?).Nodup) :
    Post (f.sub rl ru idxs) fun g => Has (idxs.filterMap fun i => f.labels[i]?) g ∧ g.cols.length = idxs.length := by
  unfold Frame.sub
  refine post_ite (fun _ => post_error) fun _ => post_ite (fun _ => post_error) fun hb => ?_
  have hlen : (idxs.filterMap fun i => f.cols[i]?).length = idxs.length := by
    clear hn
    induction idxs with
    | nil => rfl
    | cons i is ih =>
      simp only [List.any_cons, Bool.or_eq_true, decide_eq_true_eq, not_or, Nat.not_le] at hb
      rw [List.filterMap_cons, List.getElem?_eq_getElem hb.1]
      simp [ih hb.2]
  have hlab : (idxs.filterMap fun i => f.cols[i]?).map (·.label) = idxs.filterMap fun i => f.labels[i]? := by
    rw [List.map_filterMap]
    congr 1
    funext i
    simp [Frame.labels]
  have hd := initD_nodup ((idxs.filterMap fun i => f.cols[i]?).map (·.label)) [] [] mapOK_nil (by rw [List.nil_append, hlab]; exact hn)
  simp only [List.length_nil, List.nil_append] at hd
  refine post_ok ⟨has_of_map ?_ ?_, ?_⟩
  · simp only [Frame.labels, List.map_map]
    show (List.zip _ _).map (fun p => p.2) = _
    rw [List.map_snd_zip (by rw [initD_length]; simp), hd.1, hlab]
    simp [Frame.labels]
  · rw [hlab] at hd
    rw [hlab]
    exact hd.2
  · simp [initD_length, hlen]

theorem getColumnIdx_post {f : Frame V} (hf : f.LabelsOK) {l : String} : Post (f.getColumnIdx l) fun i => f.labels[i]? = some l :=
  fun i hi => (hf l i).1 hi

theorem labels_len (f : Frame V) : f.labels.length = f.cols.length := by simp [Frame.labels]

theorem wildIdxs_post {f : Frame V} (hf : f.LabelsOK) {sel : String} : ∀ ls : List String,
    Post (wildIdxs f sel ls) fun is => (is.filterMap fun i => f.labels[i]?) = ls.filter fun l => beforeDot l = beforeDot sel := by
  intro ls
  induction ls with
  | nil => exact post_ok rfl
  | cons l ls ih =>
    unfold wildIdxs
    refine post_ite (fun h => ?_) fun h => ?_
    · refine post_bind (getColumnIdx_post hf) fun i hi => post_bind ih fun is his => post_ok ?_
      rw [List.filterMap_cons, hi, List.filter_cons, if_pos (by simpa using h)]
      simp only [his]
    · refine post_mono ih fun is his => ?_
      rw [List.filter_cons, if_neg (by simpa using h)]
      exact his

theorem extractLabel_post {f : Frame V} (hf : f.LabelsOK) (sel : String) :
    Post (extractLabel f sel) (Has (if wild sel then f.labels.filter fun l => beforeDot l = beforeDot sel else [sel])) := by
  unfold extractLabel
  cases hw : wild sel
  · simp only [Bool.false_eq_true, if_false]
    refine post_bind (getColumnIdx_post hf) fun i hi => ?_
    refine post_mono (sub_post (by simp [hi])) fun g hg => ?_
    have := hg.1
    simpa [hi] using this
  · simp only [if_true]
    refine post_bind (wildIdxs_post hf _) fun is his => ?_
    refine post_mono (sub_post (by rw [his]; exact hf.nodup.filter _)) fun g hg => ?_
    rw [← his]; exact hg.1

theorem extractRow_post {f : Frame V} {rows : List Nat} : Post (f.extractRow rows) (Has f.labels) := by
  unfold Frame.extractRow
  refine post_ite (fun _ => post_error) fun _ => post_bind (initL_post _) fun m hm => post_ok (has_of_map ?_ hm)
  simp [Frame.labels, Function.comp_def]

theorem arrived_post {α : Type} {r : Res (Option α)} {P : α → Prop} (h : Post r fun o => ∀ a, o = some a → P a) : Post (arrived r) P := by
  intro a ha
  cases r with
  | error e => cases ha
  | ok o =>
    cases o with
    | none => cases ha
    | some b => cases ha; exact h _ rfl _ rfl

theorem order_post {ops : Ops V} {fuel : Nat} {f : Frame V} {cols : List Nat} {asc : List Bool} {wg : Bool} :
    Post (f.order ops fuel cols asc wg) fun o => ∀ p, o = some p → Has f.labels p.1 := by
  unfold Frame.order
  refine post_ite (fun _ => post_error) fun _ => post_bind' fun st => ?_
  match st with
  | none => exact post_ok (by rintro _ ⟨⟩)
  | some (idx, gs) => exact post_bind extractRow_post fun g hg => post_ok (by rintro _ ⟨⟩; exact hg)

theorem setLabels_post {f : Frame V} {ls : List String} (hl : ls.length = f.cols.length) : Post (f.setLabels ls) (Has ls) := by
  unfold Frame.setLabels
  refine post_bind (initL_post _) fun m hm => post_ok (has_of_map ?_ hm)
  simp only [Frame.labels, List.map_map]
  show (f.cols.zip ls).map (fun p => p.2) = ls
  exact List.map_snd_zip (by omega)

theorem sub_all_len {f : Frame V} : Post (f.sub 0 f.numRows (List.range f.numCols)) fun g => g.cols.length = f.numCols := by
  unfold Frame.sub
  refine post_ite (fun _ => post_error) fun _ => post_ite (fun _ => post_error) fun hb => post_ok ?_
  have : (List.range f.numCols).filterMap (fun i => f.cols[i]?) = f.cols := by
    rw [filterMap_range_getElem, Frame.numCols, List.take_length]
  rw [this]
  simp [initD_length, Frame.numCols]

theorem setColLabels_post {f : Frame V} {ls : List String} : Post (Ir.setColLabels f ls) (Has ls) := by
  unfold Ir.setColLabels
  refine post_ite (fun _ => post_error) fun h => post_bind sub_all_len fun g hg => setLabels_post ?_
  rw [hg]
  simpa using h

theorem setColLabelsPrefix_post {f : Frame V} {p : String} : Post (Labels.setColLabelsPrefix f p) (Has (f.labels.map (setPrefix p))) := by
  unfold Labels.setColLabelsPrefix
  refine post_bind sub_all_len fun g hg => setLabels_post ?_
  rw [hg]
  simp [Frame.labels, Frame.numCols]

/-! ### Joins -/

theorem setCell_post {f : Frame V} {vt : VTC} {c r : Nat} {v : V} : Post (f.setCell vt c r v) fun g => g.sig = f.sig := by
  unfold Frame.setCell Frame.getColumn
  cases hc : f.cols[c]? with
  | none => exact post_error
  | some col =>
    refine post_bind (P := fun x => x = col) (post_ite (fun _ => post_error) fun _ => post_ok rfl) fun x hx => ?_
    subst hx
    refine post_ite (fun _ => post_error) fun _ => ?_
    refine post_bind (P := fun b => b.size = x.data.size) ?_ fun b hb => post_ok ?_
    · unfold Buf.write
      exact post_ite (fun _ => post_ok (by simp)) fun _ => post_error
    · simp only [Frame.sig, Prod.mk.injEq, true_and]
      apply List.ext_getElem
      · simp
      · intro i h1 h2
        simp only [List.getElem_map, List.getElem_set]
        split
        · subst_vars
          have := (List.getElem?_eq_some_iff.1 hc).2
          simp [this, hb]
        · rfl

theorem copyCell_post {sup schema : List VTC} {arg : Frame V} {a b c d : Nat} {res : Frame V} :
    Post (copyCell sup schema arg a b c d res) fun g => g.sig = res.sig := by
  unfold copyCell
  refine post_foldlM (fun g : Frame V => g.sig = res.sig) _ _ rfl fun s vt hs => ?_
  refine post_ite (fun _ => ?_) fun _ => post_ok hs
  refine post_bind' fun v => post_mono setCell_post fun g hg => ?_
  rw [hg, hs]

theorem copyRow_post {sup schema : List VTC} {lhs rhs : Frame V} {l r row : Nat} {res : Frame V} :
    Post (copyRow sup schema lhs rhs l r row res) fun g => g.sig = res.sig := by
  unfold copyRow
  refine post_bind (P := fun g : Frame V => g.sig = res.sig) ?_ fun g hg => ?_
  · refine post_foldlM (fun g : Frame V => g.sig = res.sig) _ _ rfl fun s c hs => post_mono copyCell_post fun g hg => ?_
    rw [hg, hs]
  · refine post_foldlM (fun g : Frame V => g.sig = res.sig) _ _ hg fun s c hs => post_mono copyCell_post fun g hg => ?_
    rw [hg, hs]

theorem copyRows_post {sup schema : List VTC} {lhs rhs : Frame V} : ∀ (ps : List (Nat × Nat)) (st : Nat × Frame V),
    Post (copyRows sup schema lhs rhs ps st) fun st' => st'.2.sig = st.2.sig := by
  intro ps
  induction ps with
  | nil => intro st; exact post_ok rfl
  | cons p ps ih =>
    intro st
    obtain ⟨l, r⟩ := p
    unfold copyRows
    refine post_bind copyRow_post fun g hg => post_mono (ih _) fun st' h => ?_
    rw [h, ← hg]

theorem has_of_sig {ls : List String} {f g : Frame V} (h : g.sig = f.sig) (hf : Has ls f) : Has ls g :=
  ⟨(Frame.sig_labels h).trans hf.1, Frame.sig_LabelsOK h hf.2⟩

theorem two_labels_len (f g : Frame V) : (f.labels ++ g.labels).length = (f.schema ++ g.schema).length := by
  simp [Frame.labels, Frame.schema]

theorem cartesian_post {f g : Frame V} {junk : Nat → Nat → V} : Post (Rel.cartesian f g junk) (Has (f.labels ++ g.labels)) := by
  unfold Rel.cartesian
  refine post_bind (create_post (two_labels_len f g)) fun res hres => ?_
  refine post_bind (P := fun st : Nat × Frame V => st.2.sig = res.sig) ?_ fun st hst => post_ok (has_of_sig hst hres)
  refine post_foldlM (fun st : Nat × Frame V => st.2.sig = res.sig) _ _ rfl fun s l hs => post_mono (copyRows_post _ _) fun s' hs' => ?_
  rw [hs', hs]

theorem innerJoin_post [DecidableEq V] {f g : Frame V} {a b : String} {n : Option Nat} {junk : Nat → Nat → V} :
    Post (Rel.innerJoin f g a b n junk) (Has (f.labels ++ g.labels)) := by
  unfold Rel.innerJoin
  refine post_bind' fun c => post_bind' fun vtL => ?_
  refine post_bind (create_post (two_labels_len f g)) fun res hres => post_bind' fun h => ?_
  refine post_bind (P := fun st : Nat × Frame V => st.2.sig = res.sig) ?_ fun st hst => post_ok ?_
  · unfold probeHashLhs
    refine post_bind' fun c => post_bind' fun _ => ?_
    refine post_foldlM (fun st : Nat × Frame V => st.2.sig = res.sig) _ _ rfl fun s l hs => post_bind' fun k => ?_
    cases hashFind h k with
    | none => exact post_ok hs
    | some rows => exact post_mono (copyRows_post _ _) fun s' hs' => by rw [hs', hs]
  · have := has_of_sig hst hres
    exact this

theorem zip_labels {α : Type} {l : List α} {cols cols' : List (FCol V)} (hlen : l.length = cols.length)
    (h : List.Forall₂ (fun (p : α × FCol V) c => c.label = p.2.label) (l.zip cols) cols') : cols'.map (·.label) = cols.map (·.label) := by
  induction l generalizing cols cols' with
  | nil =>
    cases cols with
    | nil => cases h; rfl
    | cons => simp at hlen
  | cons a l ih =>
    cases cols with
    | nil => simp at hlen
    | cons c cols =>
      rw [List.zip_cons_cons] at h
      cases h with
      | cons h1 h2 =>
        rw [List.map_cons, List.map_cons, h1, ih (by simpa using hlen) h2]

theorem thetaJoin_post {cmp : CmpSem V} {f g : Frame V} {conds : List (String × String × CmpOp)} {junk : Nat → Nat → V} :
    Post (Rel.thetaJoin cmp f g conds junk) (Has (f.labels ++ g.labels)) := by
  unfold Rel.thetaJoin
  refine post_bind' fun eqs => post_bind' fun pos => ?_
  match pos with
  | none => exact post_error
  | some (pos, n) =>
    refine post_bind (create_post (two_labels_len f g)) fun res hres => ?_
    refine post_bind (post_mapM (R := fun p c => c.label = p.2.label) _ fun p _ => ?_) fun cols hcols => post_ok ?_
    · unfold writeColumn
      exact post_ite (fun _ => post_bind' fun b => post_ok rfl) fun _ => post_error
    · have h := zip_labels (by
        have := congrArg List.length hres.1
        simp only [Frame.labels, List.length_map, List.length_append] at this
        simp [this]) hcols
      have hl : Frame.labels { res with cols := cols } = f.labels ++ g.labels := by rw [← hres.1]; exact h
      exact has_of_map hl (by rw [← hres.1]; exact map_of_labelsOK hres.2)

theorem semiJoin_post [DecidableEq V] {f g : Frame V} {a b : String} {n : Option Nat} {junk : Nat → Nat → V} :
    Post (Rel.semiJoin f g a b n junk) fun r => Has [a] r.1 := by
  have hcol : ∀ (cl cr : Nat) (res : Option (Frame V)) (tid : Option (Nat × Buf Nat)), (∀ r, res = some r → r.cols.length = 1) →
      Post (semiJoinCol f g cl cr n junk res tid) fun st => st.1.cols.length = 1 := by
    intro cl cr res tid hres
    unfold semiJoinCol
    refine post_bind' fun hs => ?_
    have hfold : ∀ (hs : List V) (r : Frame V) (t : Nat × Buf Nat), r.cols.length = 1 → Post
        ((List.range f.numRows).foldlM (init := ((0 : Nat), r, t.2)) fun st i => do
          let v ← f.getCell .si64 cl i
          if v ∈ hs then do
            let r ← st.2.1.setCell .si64 0 st.1 v
            if t.1 ≤ st.1 then .error (.throw "rowIdx is out of bounds")
            else do
              let t ← st.2.2.write st.1 i
              .ok (st.1 + 1, r, t)
          else .ok st) fun st => st.2.1.cols.length = 1 := by
      intro hs r t hr
      refine post_foldlM (fun st : Nat × Frame V × Buf Nat => st.2.1.cols.length = 1) _ _ hr fun s i hs => post_bind' fun v => ?_
      refine post_ite (fun _ => ?_) fun _ => post_ok hs
      refine post_bind setCell_post fun r' hr' => post_ite (fun _ => post_error) fun _ => post_bind' fun t => post_ok ?_
      rw [Frame.sig_len hr']; exact hs
    cases res with
    | some r => exact post_bind (P := fun x => x = r) (post_ok rfl) fun x hx => post_bind (hfold _ x _ (hx ▸ hres r rfl)) fun st hst => post_ite (fun _ => post_error) fun _ => post_ok hst
    | none =>
      refine post_bind (P := fun r : Frame V => r.cols.length = 1) ?_ fun r hr =>
        post_bind (hfold _ r _ hr) fun st hst => post_ite (fun _ => post_error) fun _ => post_ok hst
      intro r hr
      have hc := C69_create_labels (n.getD f.numRows) [.si64] none junk (by rintro _ ⟨⟩)
      obtain ⟨f', h1, -, -, h4, h5⟩ := hc.1 (hc.2.2 rfl)
      have := h1.symm.trans hr
      cases this
      rw [← labels_len, h4]
      simp
  unfold Rel.semiJoin
  refine post_bind' fun cl => post_bind' fun vl => post_bind' fun cr => post_bind' fun vr => ?_
  refine post_ite (fun _ => ?_) fun _ => post_error
  refine post_bind (hcol cl cr none none (by rintro _ ⟨⟩)) fun st hst => ?_
  refine post_bind (hcol cl cr (some st.1) (some st.2) (by rintro _ ⟨⟩; exact hst)) fun st' hst' => ?_
  exact post_bind (setLabels_post (by rw [hst']; rfl)) fun r hr => post_ok hr

theorem groupJoin_post [DecidableEq V] {ops : Ops V} {ord : List (GJEntry V) → List (GJEntry V)} {f g : Frame V} {a b c : String} {junk : Nat → Nat → V} :
    Post (Rel.groupJoin ops ord f g a b c junk) fun r => Has [a, "SUM(" ++ c ++ ")"] r.1 := by
  unfold Rel.groupJoin
  refine post_bind' fun cl => post_bind' fun vl => post_bind' fun cr => post_bind' fun vr => post_bind' fun ca => post_bind' fun va => ?_
  refine post_ite (fun _ => ?_) fun _ => post_error
  refine post_bind (P := fun st => st.1.cols.length = 2) ?_ fun st hst => post_bind (setLabels_post (by rw [hst]; rfl)) fun r hr => post_ok hr
  unfold groupJoinCol
  refine post_bind' fun ht => post_bind' fun ht' => ?_
  refine post_bind (P := fun r : Frame V => r.cols.length = 2) ?_ fun r hr => ?_
  · intro r hr
    have hc := C69_create_labels ((ord ht').filter (·.found)).length [.si64, va] none junk (by rintro _ ⟨⟩)
    obtain ⟨f', h1, -, -, h4, h5⟩ := hc.1 (hc.2.2 rfl)
    have := h1.symm.trans hr
    cases this
    rw [← labels_len, h4]
    simp
  · refine post_bind (P := fun st : Nat × Frame V × Buf Nat => st.2.1.cols.length = 2) ?_ fun st hst => post_ok hst
    refine post_foldlM (fun st : Nat × Frame V × Buf Nat => st.2.1.cols.length = 2) _ _ hr fun s e hs => ?_
    refine post_ite (fun _ => ?_) fun _ => post_ok hs
    refine post_bind setCell_post fun r1 hr1 => post_bind setCell_post fun r2 hr2 => post_ite (fun _ => post_error) fun _ => post_bind' fun t => post_ok ?_
    rw [Frame.sig_len hr2, Frame.sig_len hr1]; exact hs

/-! ### Grouping -/

theorem forall₂_length {α β : Type} {R : α → β → Prop} {l : List α} {l' : List β} (h : List.Forall₂ R l l') : l'.length = l.length := h.length_eq.symm

theorem sub_len {f : Frame V} {rl ru : Nat} {idxs : List Nat} : Post (f.sub rl ru idxs) fun g => g.cols.length = idxs.length := by
  unfold Frame.sub
  refine post_ite (fun _ => post_error) fun _ => post_ite (fun _ => post_error) fun hb => post_ok ?_
  have hlen : (idxs.filterMap fun i => f.cols[i]?).length = idxs.length := by
    induction idxs with
    | nil => rfl
    | cons i is ih =>
      simp only [List.any_cons, Bool.or_eq_true, decide_eq_true_eq, not_or, Nat.not_le] at hb
      rw [List.filterMap_cons, List.getElem?_eq_getElem hb.1]
      simp [ih hb.2]
  simp [initD_length, hlen]

/-- The labels of the result of a grouping: the keys, and one label for every aggregation. -/
theorem group_post {ops : Ops V} {usable : Nat → Nat} {fuel : Nat} {f : Frame V} {keyCols : List String} {aggs : List (String × GFn)}
    {junk : Nat → Nat → V} {ks : List String}
    (hks : ks = if (starLabels f.labels (aggs.map (·.1)) keyCols).length = 0 then keyCols else starLabels f.labels (aggs.map (·.1)) keyCols)
    (hnum : (∀ k ∈ ks, k ∈ f.labels) →
      (if keyCols.any (fun k => (starOf f.labels (aggs.map (·.1)) k).isSome) then (starLabels f.labels (aggs.map (·.1)) keyCols).length + aggs.length
        else keyCols.length + aggs.length) = ks.length + aggs.length) (hf : f.LabelsOK) :
    Post (Rel.group ops usable fuel f keyCols aggs junk) fun o => ∀ g, o = some g →
      Has (ks ++ aggs.map fun a => a.2.name ++ "(" ++ a.1 ++ ")") g ∧ ∀ k ∈ ks, k ∈ f.labels := by
  unfold Rel.group
  dsimp only
  rw [← hks]
  refine post_bind (post_mapM (R := fun k i => f.labels[i]? = some k) _ fun k _ => getColumnIdx_post hf) fun idxs hidxs => ?_
  have hmem : ∀ k ∈ ks, k ∈ f.labels := by
    clear hnum hks
    induction hidxs with
    | nil => simp
    | cons h1 h2 ih =>
      intro k hk
      rcases List.mem_cons.1 hk with rfl | hk
      · exact List.mem_of_getElem? h1
      · exact ih k hk
  rw [hnum hmem]
  refine post_ite (fun _ => post_error) fun _ => post_bind' fun asc => ?_
  refine post_bind (post_mapM (R := fun _ _ => True) _ fun k _ => post_true) fun aidxs haidxs => ?_
  refine post_bind sub_len fun red hred => ?_
  have hl1 := forall₂_length hidxs
  have hl2 : aidxs.length = aggs.length := by
    have := forall₂_length haidxs
    rw [this, List.length_take, List.length_map]; omega
  rw [List.length_append, hl1, hl2] at hred
  refine post_bind (P := fun o : Option (Frame V × List (Nat × Nat)) => ∀ p, o = some p → p.1.cols.length = ks.length + aggs.length) ?_ fun st hst => ?_
  · unfold orderStage
    refine post_ite (fun _ => ?_) fun _ => post_ok (by rintro _ ⟨⟩; exact hred)
    refine post_mono order_post fun o ho p hp => ?_
    rw [← labels_len, (ho p hp).1, labels_len, hred]
  match st with
  | none => exact post_ok (by rintro _ ⟨⟩)
  | some (ordered, groups) =>
    have ho := hst _ rfl
    refine post_bind (create_post ?_) fun res hres => post_ite (fun _ => post_error) fun _ => ?_
    · simp only [List.length_append, List.length_map, List.length_zip]
      simp only at ho
      omega
    · refine post_bind (post_mapM (R := fun p c => c.label = p.1.1.label) _ fun p _ => post_bind' fun b => post_ok rfl) fun cols hcols => post_ok ?_
      rintro g ⟨⟩
      have hrl : res.cols.length = ks.length + aggs.length := by
        rw [← labels_len, hres.1]
        simp
      have h : cols.map (·.label) = res.labels := by
        have : ∀ {l : List ((FCol V × FCol V) × Option GFn)} {cols : List (FCol V)},
            List.Forall₂ (fun p c => c.label = p.1.1.label) l cols → cols.map (·.label) = (l.map (·.1.1)).map (·.label) := by
          intro l cols h
          induction h with
          | nil => rfl
          | cons h1 h2 ih => simp only [List.map_cons, h1, ih]
        rw [this hcols]
        simp only [Frame.labels]
        congr 1
        rw [show (fun p : (FCol V × FCol V) × Option GFn => p.1.1) = (fun q : FCol V × FCol V => q.1) ∘ (fun p => p.1) from rfl, ← List.map_map,
          List.map_fst_zip, List.map_fst_zip]
        · rw [hrl]; simp only at ho; omega
        · simp only at ho
          simp [hrl, ho]
      have hl : Frame.labels { res with cols := cols } = ks ++ aggs.map fun a => a.2.name ++ "(" ++ a.1 ++ ")" := by rw [← hres.1]; exact h
      exact ⟨has_of_map hl (by rw [← hres.1]; exact map_of_labelsOK hres.2), hmem⟩

end Verif.Labels
