/-
  The columnar rewriting of operations on frames: selecting rows, joins and grouping (C182–C186).
-/
import Verif.Columnar.Thms
import Verif.Rel.FrameBytesThms
import Verif.Rel.JoinThms
import Verif.Rel.SemiThms
import Verif.Col.Group

namespace Verif.Columnar
open Verif Verif.Dense Verif.Rel

variable {V β : Type}

/-! ### Specification -/

/-- `g` consists of the rows `q 0, …, q (n-1)` of `f`. -/
structure RowsOf (f : Frame V) (n : Nat) (q : Nat → Nat) (g : Frame V) : Prop where
  rows : g.numRows = n
  schema : g.schema = f.schema
  labels : g.labels = f.labels
  cells : ∀ c r, r < n → g.cell c r = f.cell c (q r)
  lookup : g.LabelsOK

/-- A frame that the pass can handle: labels are found, no label is a wildcard, the column arrays are large enough, and there is
at least one column and none of type `fixedStr16`. -/
structure Usable (f : Frame V) : Prop where
  wf : f.WF
  lookup : f.LabelsOK
  plain : ∀ l ∈ f.labels, colPart l ≠ "*"
  types : ∀ t ∈ f.schema, t ≠ .fixedStr16
  nonempty : f.cols ≠ []

/-- The frame of cells `f` and the frame of bytes `b` show the same. -/
structure Represents (f : Frame (List β)) (b : BFrame β) : Prop where
  rows : f.numRows = b.numRows
  labels : f.labels = b.labels
  schema : f.schema = b.schema
  cells : ∀ c r, f.cell c r = b.cell c r

/-! ### Columns of a frame -/

theorem keyColumn_ok {f : Frame V} (wf : f.WF) (lk : f.LabelsOK) {i : Nat} {c : FCol V} (hi : f.cols[i]? = some c)
    (hp : colPart c.label ≠ "*") :
    ∃ k, keyColumn f c.label = .ok (c.vt, k) ∧ ColIs k f.numRows c.data.data := by
  have hl : f.labels[i]? = some c.label := by simp [Frame.labels, hi]
  have hx := (lk c.label i).2 hl
  have hs := sub_eq (f := f) (rl := 0) (ru := f.numRows) (idxs := [i]) (cs := [c]) (by simp [hi]) (by omega) (by omega) (Or.inr rfl)
  unfold keyColumn extractColLabel
  rw [if_neg hp, hx, Res.ok_bind, hs, Res.ok_bind]
  refine ⟨_, rfl, ?_, rfl, ?_⟩
  · have := wf c (List.mem_of_getElem? hi)
    unfold Col.Column.WF
    simp only
    omega
  · intro r _
    simp [Col.Column.at]

/-- Element-wise relation between the columns of a frame and the projected columns. -/
def Projected (n : Nat) (q : Nat → Nat) (c : FCol V) (p : VTC × Col.Column V) : Prop :=
  p.1 = c.vt ∧ ColIs p.2 n (fun r => c.data.data (q r))

theorem projectAll_ok {f : Frame V} (wf : f.WF) (lk : f.LabelsOK) (pos : Col.Column Int) (n : Nat) (q : Nat → Nat)
    (hpos : ColIs pos n (fun r => (q r : Int))) (hq : ∀ r, r < n → q r < f.numRows) (junk : Nat → V) :
    ∀ cs : List (FCol V), (∀ c ∈ cs, c ∈ f.cols ∧ colPart c.label ≠ "*") →
      Res.Ok (projectAll f pos junk (cs.map (·.label))) (fun ps => List.Forall₂ (Projected n q) cs ps) := by
  intro cs
  induction cs with
  | nil => intro _; exact ⟨_, rfl, .nil⟩
  | cons c cs ih =>
    intro h
    obtain ⟨hc, hp⟩ := h c (by simp)
    obtain ⟨i, hi⟩ := List.mem_iff_getElem?.1 hc
    obtain ⟨k, hk, kw, kn, kv⟩ := keyColumn_ok wf lk hi hp
    obtain ⟨pw, pn, pv⟩ := hpos
    have hpr : Res.Ok (Col.project k pos junk) (fun p => ColIs p n (fun r => c.data.data (q r))) := by
      refine ((Col.C29_project k pos kw pw junk).1 ?_).mono ?_
      · intro r hr
        have := hq r (by omega)
        have e : pos.at r = (q r : Int) := pv r (by omega)
        rw [e]
        exact ⟨by omega, by simp; omega⟩
      · rintro p ⟨p1, p2, p3⟩
        refine ⟨p1, p2.trans pn, fun r hr => ?_⟩
        rw [p3 r (by omega), pv r hr, Int.toNat_natCast, kv _ (hq r hr)]
    unfold keyColumn at hk
    rw [List.map_cons, projectAll]
    cases hg : extractColLabel f c.label with
    | error e => rw [hg] at hk; cases hk
    | ok g =>
      rw [hg, Res.ok_bind] at hk
      rw [Res.ok_bind, hk, Res.ok_bind]
      refine hpr.bind fun p hp' => ?_
      refine (ih (fun c' hc' => h c' (by simp [hc']))).bind fun ps hps => ?_
      exact Res.ok_iff.2 (.cons ⟨rfl, hp'⟩ hps)

theorem forall2_get {R : α → γ → Prop} {l : List α} {m : List γ} (h : List.Forall₂ R l m) {j : Nat} {a : α} (ha : l[j]? = some a) :
    ∃ b, m[j]? = some b ∧ R a b := by
  induction h generalizing j with
  | nil => simp at ha
  | cons hab _ ih =>
    cases j with
    | zero => simp at ha; subst ha; exact ⟨_, rfl, hab⟩
    | succ j => simpa using ih (by simpa using ha)

/-- A frame made of projected columns of several frames. -/
theorem ofMats_projected (cs : List (FCol V)) (ps : List (VTC × Col.Column V)) (n : Nat) (Q : FCol V → VTC × Col.Column V → Prop)
    (hQ : ∀ c p, Q c p → p.1 = c.vt ∧ p.2.numRows = n) (h : List.Forall₂ Q cs ps) (hne : cs ≠ [])
    (hvt : ∀ c ∈ cs, c.vt ≠ .fixedStr16) (hn : (cs.map (·.label)).Nodup) :
    Res.Ok (Frame.ofMats (ps.map toColMat) (some (cs.map (·.label)))) (fun g => g.numRows = n ∧ g.schema = cs.map (·.vt) ∧
      g.labels = cs.map (·.label) ∧ g.LabelsOK ∧
      ∀ (j : Nat) c, cs[j]? = some c → ∃ p, Q c p ∧ ps[j]? = some p ∧ g.cols[j]? = some ⟨c.vt, c.label, p.2.vals⟩) := by
  obtain ⟨m, hm, hok⟩ := (initL_iff _).1 hn
  have hlen : cs.length = ps.length := h.length_eq
  have hall : ∀ p ∈ ps, p.1 ≠ .fixedStr16 ∧ p.2.numRows = n := by
    clear hlen hm hok hne hn
    induction h with
    | nil => simp
    | cons hab _ ih =>
      intro p hp
      rcases List.mem_cons.1 hp with rfl | hp
      · exact ⟨by rw [(hQ _ _ hab).1]; exact hvt _ (by simp), (hQ _ _ hab).2⟩
      · exact ih (fun c hc => hvt c (by simp [hc])) p hp
  have hsch : List.map (fun x : (VTC × Col.Column V) × FCol V => x.1.1) (ps.zip cs) = cs.map (·.vt) := by
    clear hall hlen hm hok hne hn hvt
    induction h with
    | nil => rfl
    | cons hab _ ih => simp only [List.zip_cons_cons, List.map_cons, (hQ _ _ hab).1]; rw [ih]
  have hz : (ps.map toColMat).zip (cs.map (·.label)) = (ps.zip cs).map fun x => (toColMat x.1, x.2.label) := by
    rw [List.zip_map]; rfl
  cases ps with
  | nil => simp at hlen; exact absurd hlen hne
  | cons p0 ps' =>
    set ps := p0 :: ps' with hps
    have hcols : (((ps.map toColMat).zip (cs.map (·.label))).map fun p : ColMat V × String => (⟨p.1.vt, p.2, p.1.data⟩ : FCol V)) =
        (ps.zip cs).map fun x => ⟨x.1.1, x.2.label, x.1.2.vals⟩ := by
      rw [hz, List.map_map]; rfl
    have hg : Frame.ofMats (ps.map toColMat) (some (cs.map (·.label))) = .ok ⟨n, (ps.zip cs).map fun x => ⟨x.1.1, x.2.label, x.1.2.vals⟩, m⟩ := by
      have h0 : (toColMat p0).numRows = n := (hall p0 (by simp [hps])).2
      have a1 : ((ps.map toColMat).any fun m => decide (m.numCols ≠ 1)) = false := by
        rw [List.any_eq_false]; intro x hx; obtain ⟨y, _, rfl⟩ := List.mem_map.1 hx; simp [toColMat]
      have a2 : ((ps.map toColMat).any fun m => decide (m.numRows ≠ (toColMat p0).numRows)) = false := by
        rw [List.any_eq_false]; intro x hx; obtain ⟨y, hy, rfl⟩ := List.mem_map.1 hx
        have := (hall y hy).2
        rw [h0]; simp [toColMat, this]
      have a3 : ((ps.map toColMat).any fun m => decide (m.rowSkip ≠ 1)) = false := by
        rw [List.any_eq_false]; intro x hx; obtain ⟨y, _, rfl⟩ := List.mem_map.1 hx; simp [toColMat]
      have a4 : ((ps.map toColMat).any fun m => decide (m.vt = .fixedStr16)) = false := by
        rw [List.any_eq_false]; intro x hx; obtain ⟨y, hy, rfl⟩ := List.mem_map.1 hx; simp [toColMat, (hall y hy).1]
      rw [← hcols]
      show Frame.ofMats (toColMat p0 :: ps'.map toColMat) _ = _
      unfold Frame.ofMats
      simp only
      rw [show toColMat p0 :: ps'.map toColMat = ps.map toColMat from rfl, a1, a2, a3, a4]
      simp only [Bool.false_eq_true, if_false, Option.getD_some, hm, Res.ok_bind, h0]
    rw [hg, Res.ok_iff]
    have hlab : Frame.labels (⟨n, (ps.zip cs).map fun x => ⟨x.1.1, x.2.label, x.1.2.vals⟩, m⟩ : Frame V) = cs.map (·.label) := by
      unfold Frame.labels
      simp only [List.map_map]
      have := List.map_snd_zip (l₁ := ps) (l₂ := cs) (by omega)
      conv_rhs => rw [← this]
      rw [List.map_map]; rfl
    refine ⟨rfl, ?_, hlab, labelsOK_of_map (by rw [hlab]; exact hok), ?_⟩
    · unfold Frame.schema
      simp only [List.map_map]
      exact hsch
    · intro j c hj
      obtain ⟨p, hp, hq⟩ := forall2_get h hj
      refine ⟨p, hq, hp, ?_⟩
      have hzz : (ps.zip cs)[j]? = some (p, c) := List.getElem?_zip_eq_some.2 ⟨hp, hj⟩
      simp only [List.getElem?_map, hzz, Option.map_some, (hQ _ _ hq).1]

/-! ### Selecting rows -/

/-- The rewritten selection of rows, given positions that exist. -/
theorem rowsColumnar_ok {f : Frame V} (u : Usable f) (pos : Col.Column Int) (n : Nat) (q : Nat → Nat)
    (hpos : ColIs pos n (fun r => (q r : Int))) (hq : ∀ r, r < n → q r < f.numRows) (junk : Nat → V) :
    Res.Ok (rowsColumnar f f.labels pos junk) (RowsOf f n q) := by
  unfold rowsColumnar
  refine (projectAll_ok u.wf u.lookup pos n q hpos hq junk f.cols fun c hc =>
    ⟨hc, u.plain _ (List.mem_map_of_mem hc)⟩).bind fun ps hps => ?_
  refine (ofMats_projected f.cols ps n _ (fun c p h => ⟨h.1, h.2.2.1⟩) hps u.nonempty
    (fun c hc => u.types _ (List.mem_map_of_mem hc)) u.lookup.nodup).mono ?_
  rintro g ⟨g1, g2, g3, g4, g5⟩
  refine ⟨g1, g2, g3, fun c r hr => ?_, g4⟩
  unfold Frame.cell
  rw [g1, if_pos hr, if_pos (hq r hr)]
  cases hc : f.cols[c]? with
  | none =>
    have hl : g.cols.length = f.cols.length := by
      have := congrArg List.length g2
      simpa [Frame.schema] using this
    have : g.cols[c]? = none := by
      rw [List.getElem?_eq_none_iff] at hc ⊢; omega
    rw [this]; rfl
  | some col =>
    obtain ⟨p, hp, -, hgc⟩ := g5 c col hc
    rw [hgc]
    simp only [Option.map_some, Option.some.injEq]
    exact hp.2.2.2 r hr

/-- A position that does not exist makes the rewritten selection throw. -/
theorem rowsColumnar_throws {f : Frame V} (u : Usable f) (pos : Col.Column Int) (n : Nat) (v : Nat → Int)
    (hpos : ColIs pos n v) (hbad : ∃ r, r < n ∧ ¬ (0 ≤ v r ∧ (v r).toNat < f.numRows)) (junk : Nat → V) :
    Res.Throws (rowsColumnar f f.labels pos junk) := by
  obtain ⟨pw, pn, pv⟩ := hpos
  obtain ⟨r, hr, hb⟩ := hbad
  cases hcs : f.cols with
  | nil => exact absurd hcs u.nonempty
  | cons c cs =>
    have hi : f.cols[0]? = some c := by rw [hcs]; rfl
    obtain ⟨k, hk, kw, kn, kv⟩ := keyColumn_ok u.wf u.lookup hi (u.plain _ (by simp [Frame.labels, hcs]))
    have ht : Res.Throws (Col.project k pos junk) := by
      refine (Col.C29_project k pos kw pw junk).2 ⟨r, by omega, ?_⟩
      rw [pv r hr, kn]; exact hb
    unfold rowsColumnar
    apply Res.throws_bind
    unfold keyColumn at hk
    rw [show f.labels = c.label :: cs.map (·.label) by simp [Frame.labels, hcs], projectAll]
    cases hg : extractColLabel f c.label with
    | error e => rw [hg] at hk; cases hk
    | ok g =>
      rw [hg, Res.ok_bind] at hk
      rw [Res.ok_bind, hk, Res.ok_bind]
      exact Res.throws_bind ht

theorem represents_rows {f : Frame (List β)} {b gb : BFrame β} {g : Frame (List β)} {q : List Nat} (rep : Represents f b)
    (hg : RowsOf f q.length (fun r => q.getD r 0) g) (hb : gb.IsRowsOf b q) : Represents g gb := by
  obtain ⟨b1, b2, b3, b4⟩ := hb
  refine ⟨hg.rows.trans b3.symm, ?_, ?_, ?_⟩
  · rw [hg.labels, b1]; exact rep.labels
  · rw [hg.schema, b2]; exact rep.schema
  · intro c r
    by_cases hr : r < q.length
    · rw [hg.cells c r hr, b4 c r hr]; exact rep.cells _ _
    · rw [show g.cell c r = none by unfold Frame.cell; rw [hg.rows, if_neg hr],
        show gb.cell c r = none by unfold BFrame.cell; rw [b3, if_neg hr]]

theorem cast_positions {sel : DM Int} {s : List Int} (hsel : IsPositions sel s) (j : Nat → Int) :
    Res.Ok (castToColumn sel j) (fun c => ColIs c s.length (fun r => s.getD r 0)) :=
  castToColumn_ok sel _ hsel.1 rfl j

theorem usable_types {f : Frame (List β)} {b : BFrame β} (rep : Represents f b) (u : Usable f) :
    (∀ c ∈ b.cols, c.vt ≠ .fixedStr16) ∧ b.cols ≠ [] ∧ b.labels.Nodup := by
  refine ⟨fun c hc => u.types _ (by rw [rep.schema]; exact List.mem_map_of_mem hc), ?_, rep.labels ▸ u.lookup.nodup⟩
  intro h
  have := congrArg List.length rep.schema
  simp [Frame.schema, BFrame.schema, h] at this
  exact u.nonempty this

/-- **C182 (filter).** Filtering the rows of a frame by a bitmap of zeros and ones gives the same frame, whether with the kernel for
frames or with the columnar operations that the compiler replaces it with. -/
theorem C182_filterRow (f : Frame (List β)) (b : BFrame β) (rep : Represents f b) (u : Usable f) (sel : DM Int) (s : List Int)
    (hsel : IsPositions sel s) (hlen : s.length = f.numRows) (h01 : ∀ v ∈ s, v = 0 ∨ v = 1)
    (hload : ∀ c ∈ b.cols, ∀ r, r < b.numRows → s.getD r 0 ≠ 0 → c.Loadable r)
    (junk : Nat → Nat → β) (j1 : Nat → Nat) (j2 : Nat → List β) :
    Res.Ok (filterRowB junk b sel) (fun gb => Res.Ok (filterRowColumnar f f.labels sel j1 j2) (fun g => Represents g gb ∧ g.LabelsOK)) := by
  obtain ⟨h1, h2, h3⟩ := usable_types rep u
  refine (C174_filterRow junk b h3 h2 h1 sel s hsel (hlen.trans rep.rows) hload).mono ?_
  rintro gb ⟨hgb, -, -⟩
  obtain ⟨c, hc, cw, cl⟩ := bitmapToPosList_cast (1 : Int) sel _ hsel.1 rfl j1
  have hl : c.toList = positions b.numRows (fun r => s.getD r 0 ≠ 0) := by
    rw [cl, ← rep.rows, ← hlen]
    unfold positions
    apply List.filter_congr
    intro r hr
    simp only [List.mem_range] at hr
    rcases h01 (s.getD r 0) (by rw [List.getD_eq_getElem _ _ hr]; exact List.getElem_mem hr) with e | e <;> simp only [e] <;> rfl
  unfold filterRowColumnar
  cases hp : Shape.bitmapToPosList 1 sel j1 with
  | error e => rw [hp] at hc; cases hc
  | ok px =>
    rw [hp, Res.ok_bind] at hc
    rw [Res.ok_bind, hc, Res.ok_bind]
    have hcol := colIs_of_toList 0 cw hl
    have hpos : ColIs (intCol c) (positions b.numRows (fun r => s.getD r 0 ≠ 0)).length
        (fun r => (((positions b.numRows fun r => s.getD r 0 ≠ 0).getD r 0 : Nat) : Int)) :=
      ⟨hcol.1, hcol.2.1, fun r hr => by
        have := hcol.2.2 r hr
        simp only [Col.Column.at, intCol] at this ⊢
        rw [this]⟩
    refine (rowsColumnar_ok u (intCol c) _ _ hpos ?_ j2).mono fun g hg => ⟨represents_rows rep hg hgb, hg.lookup⟩
    intro r hr
    rw [List.getD_eq_getElem _ _ hr]
    have := List.getElem_mem hr
    simp only [positions, List.mem_filter, List.mem_range] at this
    rw [rep.rows]; exact this.1

/-- **C182 (extract).** Extracting rows of a frame at positions counted from the beginning gives the same frame, whether with the
kernel for frames or with the columnar operations; and both reject a position beyond the last row. -/
theorem C182_extractRow (f : Frame (List β)) (b : BFrame β) (rep : Represents f b) (u : Usable f) (sel : DM Int) (s : List Int)
    (hsel : IsPositions sel s) (h0 : ∀ v ∈ s, 0 ≤ v) (hload : ∀ c ∈ b.cols, ∀ r, r < b.numRows → (r : Int) ∈ s → c.Loadable r)
    (junk : Nat → Nat → β) (j1 : Nat → Int) (j2 : Nat → List β) :
    ((∀ v ∈ s, v < f.numRows) → Res.Ok (extractRowB junk b sel) (fun gb =>
      Res.Ok (extractRowColumnar f f.labels sel j1 j2) (fun g => Represents g gb ∧ g.LabelsOK))) ∧
    ((∃ v ∈ s, (f.numRows : Int) ≤ v) → Res.Throws (extractRowB junk b sel) ∧ Res.Throws (extractRowColumnar f f.labels sel j1 j2)) := by
  obtain ⟨t1, t2, t3⟩ := usable_types rep u
  have hk := C174_extractRow junk b t3 t1 sel s hsel (by
    intro c hc v hv r hr
    have := h0 v hv
    have hv' : v = r ∧ r < b.numRows := by unfold Addresses at hr; omega
    exact hload c hc r hv'.2 (by rw [← hv'.1]; exact hv))
  obtain ⟨c, hc, cw, cn, cv⟩ := cast_positions hsel j1
  unfold extractRowColumnar
  rw [hc, Res.ok_bind]
  constructor
  · intro hs
    have hget : ∀ i, i < s.length → 0 ≤ s.getD i 0 ∧ s.getD i 0 < f.numRows := fun i hi => by
      rw [List.getD_eq_getElem _ _ hi]; exact ⟨h0 _ (List.getElem_mem hi), hs _ (List.getElem_mem hi)⟩
    have hq : ∀ i, i < s.length → (s.map Int.toNat).getD i 0 = (s.getD i 0).toNat := fun i hi => by
      rw [List.getD_eq_getElem _ _ (by simpa using hi), List.getD_eq_getElem _ _ hi, List.getElem_map]
    refine (hk.1 (s.map Int.toNat) (by simp) ?_).mono ?_
    · intro i hi
      rw [hq i hi]
      have := hget i hi
      have := rep.rows
      unfold Addresses; omega
    · rintro gb ⟨hgb, -, -⟩
      have hpos : ColIs c (s.map Int.toNat).length (fun r => (((s.map Int.toNat).getD r 0 : Nat) : Int)) := by
        refine ⟨cw, by simpa using cn, fun r hr => ?_⟩
        simp only [List.length_map] at hr
        rw [cv r hr]
        simp only [hq r hr]
        have := hget r hr
        omega
      refine (rowsColumnar_ok u c _ _ hpos ?_ j2).mono fun g hg => ⟨represents_rows rep hg hgb, hg.lookup⟩
      intro r hr
      simp only [List.length_map] at hr
      rw [hq r hr]
      have := hget r hr
      omega
  · rintro ⟨v, hv, hbig⟩
    refine ⟨hk.2 ⟨v, hv, fun i hi => ?_⟩, ?_⟩
    · have := rep.rows
      unfold Addresses at hi; omega
    · exact rowsColumnar_throws u c s.length (fun r => s.getD r 0) ⟨cw, cn, cv⟩ (by
        obtain ⟨r, hr, e⟩ := List.getElem_of_mem hv
        exact ⟨r, hr, by rw [List.getD_eq_getElem _ _ hr, e]; omega⟩) j2

/-! ### Where the rewritten selection differs -/

/-- **C183 (refuted: values other than zero and one).** A bitmap without a single one selects no row after the rewriting, however many
non-zero values it has; the kernel selects the rows with non-zero values. -/
theorem C183_nonzero_values_partial (f : Frame (List β)) (b : BFrame β) (rep : Represents f b) (u : Usable f) (sel : DM Int) (s : List Int)
    (hsel : IsPositions sel s) (hlen : s.length = f.numRows) (h1 : ∀ v ∈ s, v ≠ 1)
    (hload : ∀ c ∈ b.cols, ∀ r, r < b.numRows → s.getD r 0 ≠ 0 → c.Loadable r)
    (junk : Nat → Nat → β) (j1 : Nat → Nat) (j2 : Nat → List β) :
    Res.Ok (filterRowColumnar f f.labels sel j1 j2) (fun g => g.numRows = 0) ∧
    Res.Ok (filterRowB junk b sel) (fun gb => gb.numRows = (positions b.numRows fun r => s.getD r 0 ≠ 0).length) := by
  obtain ⟨t1, t2, t3⟩ := usable_types rep u
  refine ⟨?_, (C174_filterRow junk b t3 t2 t1 sel s hsel (hlen.trans rep.rows) hload).mono fun gb h => h.1.2.2.1⟩
  obtain ⟨c, hc, cw, cl⟩ := bitmapToPosList_cast (1 : Int) sel _ hsel.1 rfl j1
  have hl : c.toList = [] := by
    rw [cl]
    unfold positions
    rw [List.filter_eq_nil_iff]
    intro r hr
    simp only [List.mem_range] at hr
    have := h1 (s.getD r 0) (by rw [List.getD_eq_getElem _ _ hr]; exact List.getElem_mem hr)
    simpa using this
  unfold filterRowColumnar
  cases hp : Shape.bitmapToPosList 1 sel j1 with
  | error e => rw [hp] at hc; cases hc
  | ok px =>
    rw [hp, Res.ok_bind] at hc
    rw [Res.ok_bind, hc, Res.ok_bind]
    have hcol := colIs_of_toList 0 cw hl
    exact (rowsColumnar_ok u (intCol c) 0 (fun _ => 0) ⟨hcol.1, hcol.2.1, fun r hr => absurd hr (by omega)⟩ (fun r hr => absurd hr (by omega)) j2).mono
      fun g hg => hg.rows

/-- **C183 (refuted: number of entries).** The kernel rejects a bitmap that is shorter than the frame; after the rewriting it is
accepted. -/
theorem C183_short_bitmap_partial (f : Frame (List β)) (b : BFrame β) (rep : Represents f b) (u : Usable f) (sel : DM Int) (s : List Int)
    (hsel : IsPositions sel s) (hlen : s.length < f.numRows) (junk : Nat → Nat → β) (j1 : Nat → Nat) (j2 : Nat → List β) :
    Res.Throws (filterRowB junk b sel) ∧
    Res.Ok (filterRowColumnar f f.labels sel j1 j2) (fun g => g.numRows = (positions s.length fun r => s.getD r 0 = 1).length) := by
  refine ⟨C174_filterRow_invalid junk b sel (Or.inl ?_), ?_⟩
  · have := rep.rows
    have h : sel.numRows = s.length := hsel.1.rows
    omega
  · obtain ⟨c, hc, cw, cl⟩ := bitmapToPosList_cast (1 : Int) sel _ hsel.1 rfl j1
    unfold filterRowColumnar
    cases hp : Shape.bitmapToPosList 1 sel j1 with
    | error e => rw [hp] at hc; cases hc
    | ok px =>
      rw [hp, Res.ok_bind] at hc
      rw [Res.ok_bind, hc, Res.ok_bind]
      have hcol := colIs_of_toList 0 cw cl
      refine (rowsColumnar_ok u (intCol c) _ (fun r => (positions s.length fun r => s.getD r 0 = 1).getD r 0) ⟨hcol.1, hcol.2.1, fun r hr => ?_⟩
        ?_ j2).mono fun g hg => hg.rows
      · have := hcol.2.2 r hr
        simp only [Col.Column.at, intCol] at this ⊢
        rw [this]
      · intro r hr
        have hr' : r < (positions s.length fun r => decide (s.getD r 0 = 1)).length := hr
        rw [List.getD_eq_getElem _ _ hr']
        have := List.getElem_mem hr'
        simp only [positions, List.mem_filter, List.mem_range] at this
        have := this.1
        simp only [positions]
        omega

/-- **C183 (refuted: negative positions).** The kernel counts negative positions from the end; after the rewriting they make the
extraction throw. -/
theorem C183_negative_positions_partial (f : Frame (List β)) (b : BFrame β) (rep : Represents f b) (u : Usable f) (sel : DM Int) (s : List Int)
    (hsel : IsPositions sel s) (hneg : ∃ v ∈ s, v < 0) (q : List Nat) (hq : q.length = s.length)
    (hs : ∀ i, i < s.length → Addresses (s.getD i 0) f.numRows (q.getD i 0))
    (hload : ∀ c ∈ b.cols, ∀ r, r < b.numRows → c.Loadable r)
    (junk : Nat → Nat → β) (j1 : Nat → Int) (j2 : Nat → List β) :
    Res.Ok (extractRowB junk b sel) (fun gb => gb.IsRowsOf b q) ∧ Res.Throws (extractRowColumnar f f.labels sel j1 j2) := by
  obtain ⟨t1, t2, t3⟩ := usable_types rep u
  constructor
  · refine ((C174_extractRow junk b t3 t1 sel s hsel (fun c hc v hv r hr => hload c hc r (by unfold Addresses at hr; omega))).1 q hq ?_).mono
      fun gb h => h.1
    rw [← rep.rows]; exact hs
  · obtain ⟨c, hc, hcol⟩ := cast_positions hsel j1
    unfold extractRowColumnar
    rw [hc, Res.ok_bind]
    obtain ⟨v, hv, hlt⟩ := hneg
    obtain ⟨r, hr, e⟩ := List.getElem_of_mem hv
    exact rowsColumnar_throws u c _ _ hcol ⟨r, hr, by rw [List.getD_eq_getElem _ _ hr, e]; omega⟩ j2

/-! ### Joins -/

/-- All value types. -/
def allTypes : List VTC := [.si8, .si32, .si64, .ui8, .ui32, .ui64, .f32, .f64, .str, .fixedStr16]

theorem posCol {c : Col.Column Nat} {l : List Nat} (w : c.WF) (h : c.toList = l) :
    ColIs (intCol c) l.length (fun r => ((l.getD r 0 : Nat) : Int)) := by
  have hcol := colIs_of_toList 0 w h
  refine ⟨hcol.1, hcol.2.1, fun r hr => ?_⟩
  have := hcol.2.2 r hr
  simp only [Col.Column.at, intCol] at this ⊢
  rw [this]

theorem matching_eq [DecidableEq V] {lhs rhs : Frame V} {cl cr : Nat} {a b : FCol V} (ha : lhs.cols[cl]? = some a)
    (hb : rhs.cols[cr]? = some b) {kl kr : Col.Column V} (hl : ColIs kl lhs.numRows a.data.data) (hr : ColIs kr rhs.numRows b.data.data) :
    Col.matching kl kr = equalPairs lhs rhs cl cr := by
  unfold Col.matching equalPairs
  rw [hl.2.1, hr.2.1]
  rw [List.flatMap_def, List.flatMap_def]
  congr 1
  apply List.map_congr_left
  intro l h1
  congr 1
  apply List.filter_congr
  intro r h2
  simp only [List.mem_range] at h1 h2
  rw [hl.2.2 l h1, hr.2.2 r h2, cell_of_col ha h1, cell_of_col hb h2]
  simp only [Option.some.injEq, decide_eq_decide]
  exact eq_comm

/-- **C184.** If no key occurs twice in the right frame, the rewritten inner join gives exactly the pairs of rows with equal keys, in
the order of the left rows, with all columns of both frames: what the kernel for frames gives (C72), here for columns of every value
type but `fixedStr16` and key columns of every value type. -/
theorem C184_inner_join [DecidableEq V] (lhs rhs : Frame V) (ul : Usable lhs) (ur : Usable rhs) (hn : (lhs.labels ++ rhs.labels).Nodup)
    (lhsOn rhsOn : String) (cl cr : Nat) (hcl : lhs.labels[cl]? = some lhsOn) (hcr : rhs.labels[cr]? = some rhsOn)
    (huniq : ∀ p q, p < rhs.numRows → q < rhs.numRows → rhs.cell cr p = rhs.cell cr q → p = q)
    (hint : Option Nat) (hh : ∀ n, hint = some n → (equalPairs lhs rhs cl cr).length ≤ n) (j1 : Nat → Nat) (j2 : Nat → V) :
    Res.Ok (innerJoinColumnar lhs rhs lhs.labels rhs.labels lhsOn rhsOn hint j1 j2)
      (JoinResult allTypes lhs rhs (equalPairs lhs rhs cl cr)) := by
  obtain ⟨a, ha, la⟩ : ∃ a, lhs.cols[cl]? = some a ∧ a.label = lhsOn := by
    simpa [Frame.labels] using hcl
  obtain ⟨b, hb, lb⟩ : ∃ b, rhs.cols[cr]? = some b ∧ b.label = rhsOn := by
    simpa [Frame.labels] using hcr
  obtain ⟨kl, hkl, kl'⟩ := keyColumn_ok ul.wf ul.lookup ha (ul.plain _ (List.mem_map_of_mem (List.mem_of_getElem? ha)))
  obtain ⟨kr, hkr, kr'⟩ := keyColumn_ok ur.wf ur.lookup hb (ur.plain _ (List.mem_map_of_mem (List.mem_of_getElem? hb)))
  rw [la] at hkl
  rw [lb] at hkr
  have hm := matching_eq ha hb kl' kr'
  have hj := Col.C31_join kl kr kl'.1 kr'.1 (by
    intro p q hp hq e
    rw [kr'.2.1] at hp hq
    rw [kr'.2.2 p hp, kr'.2.2 q hq] at e
    exact huniq p q hp hq (by rw [cell_of_col hb hp, cell_of_col hb hq, e])) hint j1 j1 (by rw [hm]; exact hh)
  rw [hm] at hj
  unfold innerJoinColumnar
  rw [hkl, Res.ok_bind, hkr, Res.ok_bind]
  refine hj.bind ?_
  rintro ⟨c1, c2⟩ ⟨w1, w2, t1, t2⟩
  simp only at w1 w2 t1 t2 ⊢
  set P := equalPairs lhs rhs cl cr with hP
  have hPin : ∀ p ∈ P, p.1 < lhs.numRows ∧ p.2 < rhs.numRows := by
    intro p hp
    simp only [hP, equalPairs, List.mem_flatMap, List.mem_map, List.mem_filter, List.mem_range] at hp
    obtain ⟨l, h1, r, ⟨h2, _⟩, rfl⟩ := hp
    exact ⟨h1, h2⟩
  have g1 : ∀ r, r < P.length → (P.map Prod.fst).getD r 0 < lhs.numRows := fun r hr => by
    rw [List.getD_eq_getElem _ _ (by simpa using hr), List.getElem_map]; exact (hPin _ (List.getElem_mem hr)).1
  have g2 : ∀ r, r < P.length → (P.map Prod.snd).getD r 0 < rhs.numRows := fun r hr => by
    rw [List.getD_eq_getElem _ _ (by simpa using hr), List.getElem_map]; exact (hPin _ (List.getElem_mem hr)).2
  have p1 := posCol w1 t1
  have p2 := posCol w2 t2
  rw [List.length_map] at p1 p2
  refine (projectAll_ok ul.wf ul.lookup _ _ _ p1 g1 j2 lhs.cols fun c hc => ⟨hc, ul.plain _ (List.mem_map_of_mem hc)⟩).bind fun ps hps => ?_
  refine (projectAll_ok ur.wf ur.lookup _ _ _ p2 g2 j2 rhs.cols fun c hc => ⟨hc, ur.plain _ (List.mem_map_of_mem hc)⟩).bind fun qs hqs => ?_
  have hlab : lhs.labels ++ rhs.labels = (lhs.cols ++ rhs.cols).map (·.label) := by simp [Frame.labels]
  rw [hlab] at hn ⊢
  have hps' : List.Forall₂ (fun (c : FCol V) (p : VTC × Col.Column V) => p.1 = c.vt ∧ p.2.numRows = P.length ∧ p.2.WF) lhs.cols ps :=
    hps.imp fun _ _ h => ⟨h.1, h.2.2.1, h.2.1⟩
  have hqs' : List.Forall₂ (fun (c : FCol V) (p : VTC × Col.Column V) => p.1 = c.vt ∧ p.2.numRows = P.length ∧ p.2.WF) rhs.cols qs :=
    hqs.imp fun _ _ h => ⟨h.1, h.2.2.1, h.2.1⟩
  refine (ofMats_projected (lhs.cols ++ rhs.cols) (ps ++ qs) P.length _ (fun c p h => ⟨h.1, h.2.1⟩)
    (List.rel_append hps' hqs') (by simp [ul.nonempty]) (by
      intro c hc
      rcases List.mem_append.1 hc with h | h
      · exact ul.types _ (List.mem_map_of_mem h)
      · exact ur.types _ (List.mem_map_of_mem h)) hn).mono ?_
  rintro g ⟨k1, k2, k3, k4, k5⟩
  have hlen : g.cols.length = lhs.cols.length + rhs.cols.length := by
    have := congrArg List.length k2
    simpa [Frame.schema] using this
  refine ⟨k1, by rw [k2]; simp [Frame.schema], by rw [k3]; simp [Frame.labels], k4, ?_, ?_, ?_⟩
  · intro col hcol
    obtain ⟨j, hj⟩ := List.mem_iff_getElem?.1 hcol
    have hjlt := (List.getElem?_eq_some_iff.1 hj).1
    obtain ⟨p, hp, -, hgc⟩ := k5 j _ (List.getElem?_eq_getElem (l := lhs.cols ++ rhs.cols) (i := j) (by simp; omega))
    rw [hj] at hgc
    injection hgc with hgc
    rw [hgc, k1, ← hp.2.1]
    exact hp.2.2
  · intro k pr hk c vt hvt _
    have hklt := (List.getElem?_eq_some_iff.1 hk).1
    obtain ⟨col, hcol, -⟩ : ∃ col, lhs.cols[c]? = some col ∧ col.vt = vt := by simpa [Frame.schema] using hvt
    have hclt := (List.getElem?_eq_some_iff.1 hcol).1
    obtain ⟨p, -, hp, hgc⟩ := k5 c col (by rw [List.getElem?_append_left hclt]; exact hcol)
    obtain ⟨p', hp', hpr⟩ := forall2_get hps hcol
    have : p' = p := by
      rw [List.getElem?_append_left (by rw [← hps.length_eq]; exact hclt)] at hp
      rw [hp'] at hp; injection hp
    subst this
    have e : p'.2.at k = col.data.data ((P.map Prod.fst).getD k 0) := hpr.2.2.2 k hklt
    have ek : (P.map Prod.fst).getD k 0 = pr.1 := by
      rw [List.getD_eq_getElem?_getD, List.getElem?_map, hk]; rfl
    rw [ek] at e
    unfold Frame.cell
    rw [k1, if_pos hklt, hgc, if_pos (hPin pr (List.mem_of_getElem? hk)).1, hcol]
    simp only [Option.map_some, Option.some.injEq]
    exact e
  · intro k pr hk c vt hvt _
    have hklt := (List.getElem?_eq_some_iff.1 hk).1
    obtain ⟨col, hcol, -⟩ : ∃ col, rhs.cols[c]? = some col ∧ col.vt = vt := by simpa [Frame.schema] using hvt
    have hclt := (List.getElem?_eq_some_iff.1 hcol).1
    obtain ⟨p, -, hp, hgc⟩ := k5 (lhs.cols.length + c) col (by
      rw [List.getElem?_append_right (by omega), show lhs.cols.length + c - lhs.cols.length = c by omega]; exact hcol)
    obtain ⟨p', hp', hpr⟩ := forall2_get hqs hcol
    have : p' = p := by
      rw [List.getElem?_append_right (by rw [← hps.length_eq]; omega), ← hps.length_eq,
        show lhs.cols.length + c - lhs.cols.length = c by omega] at hp
      rw [hp'] at hp; injection hp
    subst this
    have e : p'.2.at k = col.data.data ((P.map Prod.snd).getD k 0) := hpr.2.2.2 k hklt
    have ek : (P.map Prod.snd).getD k 0 = pr.2 := by
      rw [List.getD_eq_getElem?_getD, List.getElem?_map, hk]; rfl
    rw [ek] at e
    unfold Frame.cell
    rw [k1, if_pos hklt, show lhs.schema.length = lhs.cols.length by simp [Frame.schema], hgc,
      if_pos (hPin pr (List.mem_of_getElem? hk)).2, hcol]
    simp only [Option.map_some, Option.some.injEq]
    exact e

/-- **C187 (refuted: repeated keys).** If a key occurs twice in the right frame, the rewritten join has only one of the two rows of
the kernel. -/
theorem C187_repeated_keys_partial :
    let lhs : Frame Nat := ⟨1, [⟨.si64, "a", ⟨1, fun _ => 7⟩⟩], [("a", 0)]⟩
    let rhs : Frame Nat := ⟨2, [⟨.si64, "b", ⟨2, fun _ => 7⟩⟩], [("b", 0)]⟩
    Res.Ok (innerJoinColumnar lhs rhs lhs.labels rhs.labels "a" "b" none (fun _ => 0) (fun _ => 0)) (fun g => g.numRows = 1) ∧
    Res.Ok (innerJoin lhs rhs "a" "b" none (fun _ _ => 0)) (fun g => g.numRows = 2) := by
  intro lhs rhs
  exact ⟨⟨_, rfl, rfl⟩, ⟨_, rfl, rfl⟩⟩

theorem semiRows_eq [DecidableEq V] {lhs rhs : Frame V} {cl cr : Nat} {a b : FCol V} (ha : lhs.cols[cl]? = some a)
    (hb : rhs.cols[cr]? = some b) {kl kr : Col.Column V} (hl : ColIs kl lhs.numRows a.data.data) (hr : ColIs kr rhs.numRows b.data.data) :
    positions kl.numRows (Col.hasPartner kl kr) = semiRows lhs rhs cl cr := by
  unfold positions semiRows Col.hasPartner
  rw [hl.2.1, hr.2.1]
  apply List.filter_congr
  intro l h1
  simp only [List.mem_range] at h1
  rw [Bool.eq_iff_iff, List.any_eq_true, List.any_eq_true]
  constructor
  · rintro ⟨r, h2, h3⟩
    refine ⟨r, h2, ?_⟩
    simp only [List.mem_range] at h2
    rw [hl.2.2 l h1, hr.2.2 r h2] at h3
    rw [cell_of_col ha h1, cell_of_col hb h2]
    simpa [eq_comm] using h3
  · rintro ⟨r, h2, h3⟩
    refine ⟨r, h2, ?_⟩
    simp only [List.mem_range] at h2
    rw [hl.2.2 l h1, hr.2.2 r h2]
    rw [cell_of_col ha h1, cell_of_col hb h2] at h3
    simpa [eq_comm] using h3

/-- **C185.** The rewritten semi join gives exactly the rows of the left frame whose key occurs in the right frame, in their order,
and their positions: the same rows and positions as the kernel for frames (C76). -/
theorem C185_semi_join [DecidableEq V] (lhs rhs : Frame V) (ul : Usable lhs) (ur : Usable rhs)
    (lhsOn rhsOn : String) (cl cr : Nat) (hcl : lhs.labels[cl]? = some lhsOn) (hcr : rhs.labels[cr]? = some rhsOn)
    (hint : Option Nat) (hh : ∀ n, hint = some n → (semiRows lhs rhs cl cr).length ≤ n) (j1 : Nat → Nat) (j2 : Nat → V) :
    Res.Ok (semiJoinColumnar lhs rhs lhs.labels lhsOn rhsOn hint j1 j2) (fun g =>
      RowsOf lhs (semiRows lhs rhs cl cr).length (fun k => (semiRows lhs rhs cl cr).getD k 0) g.1 ∧
      g.2.Is ⟨(semiRows lhs rhs cl cr).length, 1, fun k _ => (semiRows lhs rhs cl cr).getD k 0⟩) := by
  obtain ⟨a, ha, la⟩ : ∃ a, lhs.cols[cl]? = some a ∧ a.label = lhsOn := by
    simpa [Frame.labels] using hcl
  obtain ⟨b, hb, lb⟩ : ∃ b, rhs.cols[cr]? = some b ∧ b.label = rhsOn := by
    simpa [Frame.labels] using hcr
  obtain ⟨kl, hkl, kl'⟩ := keyColumn_ok ul.wf ul.lookup ha (ul.plain _ (List.mem_map_of_mem (List.mem_of_getElem? ha)))
  obtain ⟨kr, hkr, kr'⟩ := keyColumn_ok ur.wf ur.lookup hb (ur.plain _ (List.mem_map_of_mem (List.mem_of_getElem? hb)))
  rw [la] at hkl
  rw [lb] at hkr
  have hm := semiRows_eq ha hb kl' kr'
  have hj := Col.C31_semiJoin kl kr kl'.1 kr'.1 hint j1 (by rw [hm]; exact hh)
  rw [hm] at hj
  unfold semiJoinColumnar
  rw [hkl, Res.ok_bind, hkr, Res.ok_bind]
  refine hj.bind ?_
  rintro c ⟨w, t⟩
  refine (rowsColumnar_ok ul (intCol c) _ _ (posCol w t) (fun r hr => ?_) j2).bind fun g hg => Res.ok_iff.2 ⟨hg, ?_⟩
  · rw [List.getD_eq_getElem _ _ hr]
    have := List.getElem_mem hr
    simp only [semiRows, List.mem_filter, List.mem_range] at this
    exact this.1
  · exact castToMat_is (colIs_of_toList 0 w t)

/-- **C188 (refuted: columns).** The kernel's result has the key column only, the rewritten one all columns of the left frame: they differ
for every left frame with more than one column. -/
theorem C188_columns_partial [DecidableEq V] (lhs rhs : Frame V) (ul : Usable lhs) (ur : Usable rhs)
    (lhsOn rhsOn : String) (cl cr : Nat) (hcl : lhs.labels[cl]? = some lhsOn) (hcr : rhs.labels[cr]? = some rhsOn)
    (h1 : lhs.schema[cl]? = some .si64) (h2 : rhs.schema[cr]? = some .si64) (hcols : 1 < lhs.cols.length)
    (j1 : Nat → Nat) (j2 : Nat → V) (junk : Nat → Nat → V) :
    Res.Ok (semiJoinColumnar lhs rhs lhs.labels lhsOn rhsOn none j1 j2) (fun g =>
      Res.Ok (semiJoin lhs rhs lhsOn rhsOn none junk) (fun k => k.1.labels = [lhsOn] ∧ g.1.labels = lhs.labels ∧ g.1.labels ≠ k.1.labels)) := by
  refine (C185_semi_join lhs rhs ul ur lhsOn rhsOn cl cr hcl hcr none (by simp) j1 j2).mono ?_
  rintro g ⟨hg, -⟩
  obtain ⟨res, tid, hk, hr⟩ := ((C76_semi_join lhs rhs lhsOn rhsOn none junk ul.wf ur.wf ul.lookup ur.lookup).1 cl cr hcl hcr h1 h2).1 (by simp)
  refine ⟨_, hk, hr.labels, hg.labels, ?_⟩
  rw [hr.labels, hg.labels]
  intro e
  have := congrArg List.length e
  simp [Frame.labels] at this
  omega

end Verif.Columnar
