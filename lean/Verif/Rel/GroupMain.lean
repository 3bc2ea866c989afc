/-
  The group kernel computes GROUP BY.
-/
import Verif.Rel.GroupProps

namespace Verif.Rel
open Verif

/-- The key labels of a grouping after expansion of `*` and `f.*` (see `C66_star_expansion`), one after the other. If some
    key is of this form, ordinary keys are ignored. -/
def effKeys (argLabels aggCols keyCols : List String) : List String :=
  if (keyCols.flatMap fun k => (starOf argLabels aggCols k).getD []).length = 0 then keyCols
  else keyCols.flatMap fun k => (starOf argLabels aggCols k).getD []

/-- `cs` are the columns of `f` with the labels `ls`. -/
def ColumnsFor (f : Frame V) (ls : List String) (cs : List (FCol V)) : Prop :=
  List.Forall₂ (fun l c => c ∈ f.cols ∧ c.label = l) ls cs

theorem columnsFor_idxs {f : Frame V} (hf : f.LabelsOK) {ls cs} (h : ColumnsFor f ls cs) :
    ∃ idxs, ls.mapM f.getColumnIdx = .ok idxs ∧ idxs.map (fun i => f.cols[i]?) = cs.map some := by
  induction h with
  | nil => exact ⟨[], rfl, rfl⟩
  | @cons l c ls cs hc _ ih =>
    obtain ⟨idxs, h1, h2⟩ := ih
    obtain ⟨i, hi, rfl⟩ := List.mem_iff_getElem.1 hc.1
    have hg : f.getColumnIdx l = .ok i := (hf l i).2 (by simp [Frame.labels, hi, hc.2])
    refine ⟨i :: idxs, ?_, by simp [h2, hi]⟩
    rw [List.mapM_cons, hg, h1]
    rfl

/-- The value of a call that returned. -/
def resGet (r : Res α) (d : α) : α := match r with | .ok a => a | .error _ => d

theorem resGet_ok {r : Res α} {d : α} (h : ∃ a, r = .ok a) : r = .ok (resGet r d) := by
  obtain ⟨a, rfl⟩ := h; rfl

/-- A column with another label. -/
def relabel (p : FCol V × String) : FCol V := { p.1 with label := p.2 }

theorem sub_full {f : Frame V} {idxs : List Nat} {cs : List (FCol V)} (h : idxs.map (fun i => f.cols[i]?) = cs.map some) :
    f.sub 0 f.numRows idxs = .ok ⟨f.numRows, (cs.zip (initD 0 (cs.map (·.label)) []).1).map relabel,
      (initD 0 (cs.map (·.label)) []).2⟩ := by
  unfold Frame.sub
  have h1 : (idxs.filterMap fun i => f.cols[i]?) = cs := by
    have : (idxs.filterMap fun i => f.cols[i]?) = (idxs.map fun i => f.cols[i]?).filterMap id := by
      rw [List.filterMap_map]; rfl
    rw [this, h, List.filterMap_map]; simp
  have h2 : (idxs.any fun i => decide (f.cols.length ≤ i)) = false := by
    rw [List.any_eq_false]
    intro i hi
    have : f.cols[i]? ∈ cs.map some := by rw [← h]; exact List.mem_map_of_mem hi
    obtain ⟨c, _, hc⟩ := List.mem_map.1 this
    have := (List.getElem?_eq_some_iff.1 hc.symm).1
    simp; omega
  rw [if_neg (by omega), h1, if_neg (by rw [h2]; simp)]
  simp only [Nat.sub_zero, Nat.zero_add]
  rfl

theorem filterMap_range_getElem (l : List α) (k : Nat) : ((List.range k).filterMap fun i => l[i]?) = l.take k := by
  induction k with
  | zero => simp
  | succ k ih =>
    rw [List.range_succ, List.filterMap_append, ih, List.take_add_one]
    cases h : l[k]? <;> simp [h]

theorem extractRow_ok {f : Frame V} {idx : List Nat} (hl : f.labels.Nodup) (hi : ∀ i ∈ idx, i < f.numRows) :
    ∃ m, f.extractRow idx = .ok ⟨idx.length,
      f.cols.map fun c => { c with data := ⟨idx.length + 7, fun r => c.data.data (idx.getD r 0)⟩ }, m⟩ := by
  unfold Frame.extractRow
  rw [if_neg (by
    simp only [List.any_eq_true, decide_eq_true_eq, not_exists, not_and]
    intro i h; have := hi i h; omega)]
  obtain ⟨m, hm, _⟩ := (initL_iff f.labels).1 hl
  rw [hm]
  exact ⟨m, rfl⟩

/-- The grouping of a frame by its first columns. -/
theorem order_ok {ops : Ops V} {f : Frame V} {k fuel : Nat} (hk : 0 < k) (hk' : k ≤ f.cols.length) (hfuel : f.numRows ≤ fuel)
    (hl : f.labels.Nodup) (hfix : ∀ c ∈ f.cols.take k, c.vt ≠ .fixedStr16)
    (hlaw : ∀ c ∈ f.cols.take k, (c.key ops).Lawful) :
    ∃ m segs gs, Frame.order ops fuel f (List.range k) (List.replicate k true) true = .ok (some
        (⟨f.numRows, f.cols.map fun c => { c with data := ⟨f.numRows + 7, fun r => c.data.data (segs.flatten.getD r 0)⟩ }, m⟩, gs)) ∧
      Segs f.numRows (((f.cols.take k).map (·.key ops)).map (·, true)) segs ∧ Rep true 0 segs gs ∧ ∀ s ∈ segs, s ≠ [] := by
  have hz : ((f.cols.take k).map (·.key ops)).zip (List.replicate k true) = ((f.cols.take k).map (·.key ops)).map (·, true) := by
    apply List.ext_getElem
    · simp
    · intro i h1 h2; simp
  obtain ⟨idx, gs, h1, segs, h2, h3, h4, h5⟩ := orderIdx_good f.numRows fuel hfuel
    (((f.cols.take k).map (·.key ops)).map (·, true)) (by
      intro h
      have := congrArg List.length h
      simp only [List.length_map, List.length_take, List.length_nil] at this; omega) (by
      intro p hp
      simp only [List.map_map, List.mem_map, Function.comp] at hp
      obtain ⟨c, hc, rfl⟩ := hp
      exact hlaw c hc) true
  have hlen : idx.length = f.numRows := by rw [h3, h2.perm.length_eq]; simp
  obtain ⟨m, hm⟩ := extractRow_ok (idx := idx) hl (by
    intro i hi
    rw [h3] at hi
    simpa using h2.perm.mem_iff.1 hi)
  refine ⟨m, segs, gs, ?_, h2, h4 rfl, h5⟩
  unfold Frame.order
  simp only [filterMap_range_getElem]
  rw [if_neg (by
    simp only [List.any_eq_true, decide_eq_true_eq, not_exists, not_and]
    exact fun c hc => hfix c hc), hz, h1, Res.ok_bind]
  dsimp only
  rw [hm, hlen, h3]
  rfl

theorem Segs.isGrouping {n : Nat} {keys : List Key} {segs : List (List Nat)} (h : Segs n (keys.map (·, true)) segs)
    (hne : ∀ s ∈ segs, s ≠ []) (hl : ∀ k ∈ keys, k.Lawful) : IsGrouping n keys segs where
  perm := h.perm
  nonempty := hne
  same := by
    intro s hs a ha b hb
    have hks : ∀ p ∈ keys.map (·, true), p.1.Lawful := by
      intro p hp
      obtain ⟨k, hk, rfl⟩ := List.mem_map.1 hp
      exact hl k hk
    have hp := h.within s hs
    rw [List.pairwise_iff_getElem] at hp
    obtain ⟨i, hi, rfl⟩ := List.mem_iff_getElem.1 ha
    obtain ⟨j, hj, rfl⟩ := List.mem_iff_getElem.1 hb
    rcases Nat.lt_trichotomy i j with hij | hij | hij
    · exact (hp i j hi hj hij).1
    · subst hij; exact fun p hp => (hks p hp).same_refl _
    · exact lexSame_symm hks (hp j i hj hi hij).1
  rowOrder := fun g hg => (h.within g hg).imp fun h => h.2
  ascending := h.across

/-- What each result column of a grouping holds for a group with the given rows. -/
def CellSpec (ops : Ops V) (c : FCol V) (rows : List Nat) (v : V) : Option GFn → Prop
  | none => rows.head?.map c.data.data = some v
  | some f => AggSpec ops c.vt (rows.map c.data.data) v f

/-- The aggregate function can be applied to the column. -/
def Supported (vt : VTC) : Option GFn → Prop
  | some .sum | some .avg => vt ≠ .str
  | _ => True

theorem aggregate_ok {ops : Ops V} {c : FCol V} {fn : Option GFn} {rows : List Nat} (hr : rows ≠ []) (hs : Supported c.vt fn)
    (hlaw : fn = some .min ∨ fn = some .max → (c.key ops).Lawful) :
    ∃ v, aggregate ops fn ((fn.map (GFn.resType c.vt)).getD c.vt) c.vt (rows.map c.data.data) = .ok v ∧
      CellSpec ops c rows v fn := by
  have hne : rows.map c.data.data ≠ [] := by simpa using hr
  obtain ⟨a, rs, rfl⟩ : ∃ a rs, rows = a :: rs := by
    cases rows with
    | nil => exact absurd rfl hr
    | cons a rs => exact ⟨a, rs, rfl⟩
  unfold aggregate
  match fn, hs, hlaw with
  | none, _, _ =>
    by_cases h : c.vt = .str
    · simp [h, deref, CellSpec]
    · simp [h, deref, CellSpec]
  | some .count, _, _ => simp [GFn.resType, CellSpec, AggSpec]
  | some .sum, hs, _ =>
    have h : c.vt ≠ .str := hs
    simp [GFn.resType, h, CellSpec, AggSpec]
  | some .avg, hs, _ =>
    have h : c.vt ≠ .str := hs
    simp [GFn.resType, h, CellSpec, AggSpec]
  | some .min, _, hlaw =>
    have hl := hlaw (.inl rfl)
    obtain ⟨m, h1, h2, h3⟩ := minElem_spec (lt := ops.lt c.vt) hl.irrefl hl.trans hl.ntrans hne
    by_cases h : c.vt = .str
    · rw [h] at h1 h3
      simp only [Option.map_some, GFn.resType, Option.getD_some, h, and_self, if_true, h1, deref]
      exact ⟨m, rfl, h2, by rw [h]; exact h3⟩
    · simp only [Option.map_some, GFn.resType, Option.getD_some, h, and_self, if_false, or_self, h1, deref]
      exact ⟨m, rfl, h2, h3⟩
  | some .max, _, hlaw =>
    have hl := hlaw (.inr rfl)
    obtain ⟨m, h1, h2, h3⟩ := maxElem_spec (lt := ops.lt c.vt) hl.irrefl hl.trans hl.ntrans hne
    by_cases h : c.vt = .str
    · rw [h] at h1 h3
      simp only [Option.map_some, GFn.resType, Option.getD_some, h, and_self, if_true, h1, deref]
      exact ⟨m, rfl, h2, by rw [h]; exact h3⟩
    · simp only [Option.map_some, GFn.resType, Option.getD_some, h, and_self, if_false, or_self, h1, deref]
      exact ⟨m, rfl, h2, h3⟩

/-- Everything after ordering: allocation of the result frame and the column-wise aggregation. -/
theorem finish_ok {ops : Ops V} {n : Nat} {cs : List (FCol V)} {fns : List (Option GFn)}
    {labels : List String} {ordered : Frame V} {segs : List (List Nat)} {gs : List (Nat × Nat)}
    {junk : Nat → Nat → V} (hfl : fns.length = cs.length) (hll : labels.length = cs.length) (hnd : labels.Nodup)
    (hol : ordered.cols.length = cs.length)
    (hocol : ∀ (j : Nat) (c : FCol V) (o : FCol V), cs[j]? = some c → ordered.cols[j]? = some o → o.vt = c.vt ∧
      n ≤ o.data.size ∧ ∀ r, r < n → o.data.data r = c.data.data (segs.flatten.getD r 0))
    (hsegs : segs.flatten.length = n) (hne : ∀ s ∈ segs, s ≠ [])
    (hr : aggRanges gs n = segRanges 0 segs)
    (hrows : ((n : Int) - ((gs.map fun g => (g.2 : Int) - g.1).sum - gs.length)).toNat = segs.length)
    (hfix : ∀ c ∈ cs, c.vt ≠ .fixedStr16)
    (hsup : ∀ p ∈ cs.zip fns, Supported p.1.vt p.2)
    (hlaw : ∀ p ∈ cs.zip fns, p.2 = some .min ∨ p.2 = some .max → (p.1.key ops).Lawful) :
    ∃ res : Frame V, (do
      let inGroups : Int := (gs.map fun g => (g.2 : Int) - g.1).sum
      let numRowsRes := ((n : Int) - (inGroups - gs.length)).toNat
      let schema := (ordered.cols.zip fns).map fun p => (p.2.map (GFn.resType p.1.vt)).getD p.1.vt
      let res ← Frame.create numRowsRes schema (some labels) junk
      if ordered.cols.any fun c => c.vt = .fixedStr16 then .error (.throw "unknown value type code")
      else do
      let cols ← ((res.cols.zip ordered.cols).zip fns).mapM fun p => do
        let b ← columnGroupAgg ops p.2 p.1.1.vt p.1.2.vt p.1.2.data gs n p.1.1.data
        .ok { p.1.1 with data := b }
      .ok (some { res with cols := cols })) = (.ok (some res) : Res (Option (Frame V))) ∧
      res.numRows = segs.length ∧ res.labels = labels ∧
      res.schema = (cs.zip fns).map (fun p => (p.2.map (GFn.resType p.1.vt)).getD p.1.vt) ∧ res.LabelsOK ∧ res.WF ∧
      ∀ j c fn, cs[j]? = some c → fns[j]? = some fn → ∀ g rows, segs[g]? = some rows →
        ∃ v, res.cell j g = some v ∧ CellSpec ops c rows v fn := by
  have hschema : (ordered.cols.zip fns).map (fun p => (p.2.map (GFn.resType p.1.vt)).getD p.1.vt)
      = (cs.zip fns).map (fun p => (p.2.map (GFn.resType p.1.vt)).getD p.1.vt) := by
    apply List.ext_getElem
    · simp [hol]
    · intro j h1 h2
      simp only [List.length_map, List.length_zip] at h1 h2
      simp only [List.getElem_map, List.getElem_zip]
      have := (hocol j _ _ (List.getElem?_eq_getElem (by omega)) (List.getElem?_eq_getElem (by omega))).1
      rw [this]
  have hsl : ((cs.zip fns).map (fun p => (p.2.map (GFn.resType p.1.vt)).getD p.1.vt)).length = cs.length := by simp [hfl]
  simp only [hrows, hschema]
  obtain ⟨m, hm, hmok⟩ := (initL_iff labels).1 hnd
  set schema := (cs.zip fns).map (fun p => (p.2.map (GFn.resType p.1.vt)).getD p.1.vt) with hsdef
  have hcreate : Frame.create segs.length schema (some labels) junk = .ok ⟨segs.length,
      (schema.zip labels).mapIdx fun i p => ⟨p.1, p.2, ⟨segs.length, junk i⟩⟩, m⟩ := by
    unfold Frame.create
    simp only [Option.getD_some, hm]
    rfl
  rw [hcreate, Res.ok_bind, if_neg (by
    simp only [List.any_eq_true, decide_eq_true_eq, not_exists, not_and]
    intro o ho
    obtain ⟨j, hj⟩ := List.mem_iff_getElem?.1 ho
    have hjl : j < cs.length := by have := (List.getElem?_eq_some_iff.1 hj).1; omega
    rw [(hocol j cs[j] o (List.getElem?_eq_getElem hjl) hj).1]
    exact hfix _ (List.getElem_mem _))]
  dsimp only
  set rcols := (schema.zip labels).mapIdx fun i p => (⟨p.1, p.2, ⟨segs.length, junk i⟩⟩ : FCol V) with hrc
  have hrl : rcols.length = cs.length := by simp [hrc, hsl, hll]
  -- each column succeeds
  have hcol : ∀ p ∈ (rcols.zip ordered.cols).zip fns, ∃ b : Buf V,
      columnGroupAgg ops p.2 p.1.1.vt p.1.2.vt p.1.2.data gs n p.1.1.data = .ok b ∧ b.size = segs.length ∧
        ∀ c : FCol V, (∀ r, r < n → p.1.2.data.data r = c.data.data (segs.flatten.getD r 0)) → p.1.2.vt = c.vt → Supported c.vt p.2 →
          p.1.1.vt = (p.2.map (GFn.resType c.vt)).getD c.vt → (p.2 = some .min ∨ p.2 = some .max → (c.key ops).Lawful) →
          ∀ g rows, segs[g]? = some rows → CellSpec ops c rows (b.data g) p.2 := by
    intro p hp
    obtain ⟨j, hj⟩ := List.mem_iff_getElem?.1 hp
    rw [List.getElem?_zip_eq_some, List.getElem?_zip_eq_some] at hj
    obtain ⟨⟨hj1, hj2⟩, hj3⟩ := hj
    have hjlt : j < cs.length := by have := (List.getElem?_eq_some_iff.1 hj1).1; omega
    obtain ⟨ho1, ho0, ho2⟩ := hocol j cs[j] p.1.2 (List.getElem?_eq_getElem hjlt) hj2
    have hzip : (cs[j], p.2) ∈ cs.zip fns := by
      refine List.mem_iff_getElem?.2 ⟨j, ?_⟩
      rw [List.getElem?_zip_eq_some]
      exact ⟨List.getElem?_eq_getElem hjlt, hj3⟩
    have hr1 : p.1.1.vt = (p.2.map (GFn.resType cs[j].vt)).getD cs[j].vt ∧ p.1.1.data.size = segs.length := by
      rw [hrc, List.getElem?_mapIdx] at hj1
      obtain ⟨q, hq, hq'⟩ := Option.map_eq_some_iff.1 hj1
      rw [List.getElem?_zip_eq_some] at hq
      rw [← hq']
      refine ⟨?_, rfl⟩
      have hq1 := hq.1
      rw [hsdef, List.getElem?_map] at hq1
      obtain ⟨z, hz, hz'⟩ := Option.map_eq_some_iff.1 hq1
      rw [List.getElem?_zip_eq_some] at hz
      have e1 : z.1 = cs[j] := by
        have := hz.1; rw [List.getElem?_eq_getElem hjlt] at this; simpa using this.symm
      have e2 : z.2 = p.2 := by have := hz.2; rw [hj3] at this; simpa using this.symm
      rw [← hz', e1, e2]
    -- general aggregation for this column
    have hagg : ∀ s ∈ segs, ∃ v, aggregate ops p.2 p.1.1.vt p.1.2.vt (s.map cs[j].data.data) = .ok v ∧ CellSpec ops cs[j] s v p.2 := by
      intro s hs
      rw [hr1.1, ho1]
      exact aggregate_ok (hne s hs) (hsup _ hzip) (hlaw _ hzip)
    let resF : List Nat → V := fun s =>
      resGet (aggregate ops p.2 p.1.1.vt p.1.2.vt (s.map cs[j].data.data)) (cs[j].data.data 0)
    have hresF : ∀ s ∈ segs, aggregate ops p.2 p.1.1.vt p.1.2.vt (s.map cs[j].data.data) = .ok (resF s) := by
      intro s hs
      obtain ⟨v, hv, _⟩ := hagg s hs
      exact resGet_ok ⟨v, hv⟩
    obtain ⟨b, hb1, hb2, hb3⟩ := columnGroupAgg_ok (ops := ops) (fn := p.2) (resT := p.1.1.vt) (argT := p.1.2.vt)
      (src := cs[j].data.data) (arg := p.1.2.data) (ss := segs) (gs := gs) (n := n) (out := p.1.1.data) resF hr
      (by intro r hr; rw [hsegs] at hr; exact ho2 r hr) (by rw [hsegs]; exact ho0) (by rw [hr1.2]) hresF
    refine ⟨b, hb1, by rw [hb2, hr1.2], ?_⟩
    intro c hd hvt hsupc hrt hlc g rows hg
    have hglt : g < segs.length := (List.getElem?_eq_some_iff.1 hg).1
    have hrows' : rows ∈ segs := List.mem_of_getElem? hg
    obtain ⟨v, hv, hv'⟩ := aggregate_ok (ops := ops) (c := c) (fn := p.2) (hne rows hrows') hsupc hlc
    have hsame : rows.map cs[j].data.data = rows.map c.data.data := by
      -- both describe the same array on the listed positions
      apply List.map_congr_left
      intro a ha
      have hfl : a ∈ segs.flatten := List.mem_flatten.2 ⟨rows, hrows', ha⟩
      obtain ⟨i, hi, rfl⟩ := List.mem_iff_getElem.1 hfl
      have := (ho2 i (by omega)).symm.trans (hd i (by omega))
      simp only [List.getD_eq_getElem?_getD] at this
      rw [List.getElem?_eq_getElem hi] at this
      exact this
    have hbg : b.data g = resF rows := by
      rw [hb3 g hglt, List.getD_eq_getElem?_getD, hg, Option.getD_some]
    have h2 := hresF rows hrows'
    rw [hsame, hrt, hvt, hv] at h2
    have h3 : v = resF rows := by injection h2
    rw [hbg, ← h3]; exact hv'
  -- choose the column arrays
  let pick : (FCol V × FCol V) × Option GFn → Buf V := fun p =>
    resGet (columnGroupAgg ops p.2 p.1.1.vt p.1.2.vt p.1.2.data gs n p.1.1.data) p.1.1.data
  have hpick : ∀ p ∈ (rcols.zip ordered.cols).zip fns,
      columnGroupAgg ops p.2 p.1.1.vt p.1.2.vt p.1.2.data gs n p.1.1.data = .ok (pick p) := by
    intro p hp
    obtain ⟨b, hb, _⟩ := hcol p hp
    exact resGet_ok ⟨b, hb⟩
  have hmap := mapM_ok (l := (rcols.zip ordered.cols).zip fns)
    (f := fun p => (do
        let b ← columnGroupAgg ops p.2 p.1.1.vt p.1.2.vt p.1.2.data gs n p.1.1.data
        .ok { p.1.1 with data := b } : Res (FCol V))) (g := fun p => { p.1.1 with data := pick p })
    (fun p hp => by rw [hpick p hp]; rfl)
  rw [hmap, Res.ok_bind]
  refine ⟨_, rfl, rfl, ?_, ?_, ?_, ?_, ?_⟩
  · -- labels
    simp only [Frame.labels, List.map_map, Function.comp_def]
    apply List.ext_getElem?
    intro j
    by_cases hj : j < cs.length
    · have e : ((rcols.zip ordered.cols).zip fns)[j]? = some ((rcols[j], ordered.cols[j]), fns[j]) := by
        rw [List.getElem?_eq_getElem (by simp; omega)]; simp
      rw [List.getElem?_map, e]
      simp only [Option.map_some]
      rw [List.getElem?_eq_getElem (by omega)]
      simp [hrc]
    · rw [List.getElem?_eq_none (by simp; omega), List.getElem?_eq_none (by omega)]
  · -- schema
    simp only [Frame.schema, List.map_map, Function.comp_def]
    apply List.ext_getElem?
    intro j
    by_cases hj : j < cs.length
    · have e : ((rcols.zip ordered.cols).zip fns)[j]? = some ((rcols[j], ordered.cols[j]), fns[j]) := by
        rw [List.getElem?_eq_getElem (by simp; omega)]; simp
      rw [List.getElem?_map, e]
      simp only [Option.map_some]
      rw [List.getElem?_eq_getElem (by omega)]
      simp [hrc]
    · rw [List.getElem?_eq_none (by simp; omega), List.getElem?_eq_none (by omega)]
  · apply labelsOK_of_map
    have hlab : (Frame.labels ⟨segs.length, ((rcols.zip ordered.cols).zip fns).map (fun p => { p.1.1 with data := pick p }), m⟩) = labels := by
      simp only [Frame.labels, List.map_map, Function.comp_def]
      apply List.ext_getElem?
      intro j
      by_cases hj : j < cs.length
      · have e : ((rcols.zip ordered.cols).zip fns)[j]? = some ((rcols[j], ordered.cols[j]), fns[j]) := by
          rw [List.getElem?_eq_getElem (by simp; omega)]; simp
        rw [List.getElem?_map, e]
        simp only [Option.map_some]
        rw [List.getElem?_eq_getElem (by omega)]
        simp [hrc]
      · rw [List.getElem?_eq_none (by simp; omega), List.getElem?_eq_none (by omega)]
    rw [hlab]; exact hmok
  · intro c hc
    obtain ⟨p, hp, rfl⟩ := List.mem_map.1 hc
    obtain ⟨b, hb, hb2, _⟩ := hcol p hp
    have := hpick p hp
    rw [hb] at this
    have e : b = pick p := by injection this
    show segs.length ≤ (pick p).size
    rw [← e, hb2]
  · intro j c fn hc hfn g rows hg
    have hj : j < cs.length := (List.getElem?_eq_some_iff.1 hc).1
    have e : ((rcols.zip ordered.cols).zip fns)[j]? = some ((rcols[j], ordered.cols[j]), fn) := by
      rw [List.getElem?_zip_eq_some, List.getElem?_zip_eq_some]
      exact ⟨⟨List.getElem?_eq_getElem (by omega), List.getElem?_eq_getElem (by omega)⟩, hfn⟩
    have hmem := List.mem_of_getElem? e
    obtain ⟨b, hb, hb2, hb3⟩ := hcol _ hmem
    have hpk := hpick _ hmem
    rw [hb] at hpk
    have heq : b = pick ((rcols[j], ordered.cols[j]), fn) := by injection hpk
    have hglt : g < segs.length := (List.getElem?_eq_some_iff.1 hg).1
    refine ⟨b.data g, ?_, ?_⟩
    · unfold Frame.cell
      simp only [hglt, if_true, List.getElem?_map, e, Option.map_some]
      rw [heq]
    · obtain ⟨ho1, _, ho2⟩ := hocol j c ordered.cols[j] hc (List.getElem?_eq_getElem (by omega))
      have hzip : (c, fn) ∈ cs.zip fns := by
        refine List.mem_iff_getElem?.2 ⟨j, ?_⟩
        rw [List.getElem?_zip_eq_some]
        exact ⟨hc, hfn⟩
      refine hb3 c ho2 ho1 (hsup _ hzip) ?_ (hlaw _ hzip) g rows hg
      have hcj : cs[j] = c := by rw [List.getElem?_eq_getElem hj] at hc; simpa using hc
      have hfj : fns[j]'(by omega) = fn := by rw [List.getElem?_eq_getElem (by omega)] at hfn; simpa using hfn
      simp [hrc, hsdef, hcj, hfj]

end Verif.Rel
