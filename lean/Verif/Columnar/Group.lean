/-
  The columnar rewriting of grouping with SUM (C186).
-/
import Verif.Columnar.Frames
import Verif.Rel.GroupThms

namespace Verif.Columnar
open Verif Verif.Dense Verif.Rel

variable {V κ : Type}

/-! ### Specification -/

/-- `gs` groups the rows `0 … n-1` by key: every row is in exactly one group, no group is empty, the rows of a group are listed in
order and have the same key, and rows of different groups have different keys. Nothing is said about the order of the groups. -/
structure GroupsBy (n : Nat) (key : Nat → κ) (gs : List (List Nat)) : Prop where
  perm : gs.flatten.Perm (List.range n)
  nonempty : ∀ g ∈ gs, g ≠ []
  rowOrder : ∀ g ∈ gs, g.Pairwise (· < ·)
  same : ∀ g ∈ gs, ∀ a ∈ g, ∀ b ∈ g, key a = key b
  distinct : gs.Pairwise fun g h => ∀ a ∈ g, ∀ b ∈ h, key a ≠ key b

/-- The values in the key columns of a row. -/
def keyOf (keys : List (FCol V)) (r : Nat) : List V := keys.map fun c => c.data.data r

/-- `res` has one row per group of `gs`, with the keys of the group and, for each column in `aggd`, the sum of its values in the
group, added in the order of the rows. -/
structure SumResult (ops : Ops V) (keys aggd : List (FCol V)) (gs : List (List Nat)) (res : Frame V) : Prop where
  rows : res.numRows = gs.length
  schema : res.schema = keys.map (·.vt) ++ aggd.map (·.vt)
  labels : res.labels = keys.map (·.label) ++ aggd.map fun c => "SUM(" ++ c.label ++ ")"
  lookup : res.LabelsOK
  keyCells : ∀ (j : Nat) c, keys[j]? = some c → ∀ (g : Nat) rs, gs[g]? = some rs → res.cell j g = rs.head?.map c.data.data
  sumCells : ∀ (j : Nat) c, aggd[j]? = some c → ∀ (g : Nat) rs, gs[g]? = some rs →
    res.cell (keys.length + j) g = some ((rs.map c.data.data).foldl (ops.add c.vt) (ops.zero c.vt))

/-! ### Groupings are unique up to the order of the groups -/

theorem GroupsBy.group_eq [DecidableEq κ] {n : Nat} {key : Nat → κ} {gs : List (List Nat)} (h : GroupsBy n key gs) {g : List Nat}
    (hg : g ∈ gs) {a : Nat} (ha : a ∈ g) : g = positions n (fun r => key r = key a) := by
  have lt : ∀ {x g'}, g' ∈ gs → x ∈ g' → x < n := fun {x g'} hg' hx => List.mem_range.1 (h.perm.mem_iff.1 (List.mem_flatten.2 ⟨g', hg', hx⟩))
  refine List.Perm.eq_of_pairwise (le := (· < ·)) (fun x y _ _ h1 h2 => by omega) (h.rowOrder g hg)
    (List.Pairwise.filter _ List.pairwise_lt_range) ?_
  have hnd : (positions n fun r => key r = key a).Nodup := List.nodup_range.filter _
  rw [List.perm_ext_iff_of_nodup ((h.rowOrder g hg).imp fun h => Nat.ne_of_lt h) hnd]
  intro b
  unfold positions
  simp only [List.mem_filter, List.mem_range, decide_eq_true_eq]
  constructor
  · intro hb; exact ⟨lt hg hb, h.same g hg b hb a ha⟩
  · rintro ⟨hb, he⟩
    obtain ⟨g', hg', hb'⟩ := List.mem_flatten.1 (h.perm.mem_iff.2 (List.mem_range.2 hb))
    by_contra hne
    have hgg : g' ≠ g := fun e => hne (e ▸ hb')
    have hp := List.pairwise_iff_getElem.1 h.distinct
    obtain ⟨i, hi, ei⟩ := List.getElem_of_mem hg'
    obtain ⟨j, hj, ej⟩ := List.getElem_of_mem hg
    rcases Nat.lt_trichotomy i j with hij | hij | hij
    · exact hp i j hi hj hij b (ei ▸ hb') a (ej ▸ ha) he
    · subst hij; exact hgg (ei.symm.trans ej)
    · exact hp j i hj hi hij a (ej ▸ ha) b (ei ▸ hb') he.symm

theorem GroupsBy.nodup {n : Nat} {key : Nat → κ} {gs : List (List Nat)} (h : GroupsBy n key gs) : gs.Nodup := by
  have h1 := h.distinct
  have h2 := h.nonempty
  clear h
  induction gs with
  | nil => exact List.nodup_nil
  | cons g gs ih =>
    rw [List.pairwise_cons] at h1
    refine List.nodup_cons.2 ⟨fun hm => ?_, ih h1.2 fun g' hg' => h2 g' (by simp [hg'])⟩
    obtain ⟨a, ha⟩ := List.exists_mem_of_ne_nil _ (h2 g (by simp))
    exact h1.1 g hm a ha a ha rfl

/-- Two groupings of the same rows by the same key have the same groups. -/
theorem GroupsBy.unique [DecidableEq κ] {n : Nat} {key : Nat → κ} {gs hs : List (List Nat)} (h : GroupsBy n key gs)
    (h' : GroupsBy n key hs) : gs.Perm hs := by
  rw [List.perm_ext_iff_of_nodup h.nodup h'.nodup]
  have one : ∀ {gs hs : List (List Nat)}, GroupsBy n key gs → GroupsBy n key hs → ∀ g, g ∈ gs → g ∈ hs := by
    intro gs hs h h' g hg
    obtain ⟨a, ha⟩ := List.exists_mem_of_ne_nil _ (h.nonempty g hg)
    have : a ∈ hs.flatten := h'.perm.mem_iff.2 (h.perm.mem_iff.1 (List.mem_flatten.2 ⟨g, hg, ha⟩))
    obtain ⟨g', hg', ha'⟩ := List.mem_flatten.1 this
    rw [h.group_eq hg ha, ← h'.group_eq hg' ha']
    exact hg'
  exact fun g => ⟨one h h' g, one h' h g⟩

/-! ### The groups of the columnar operations -/

theorem groupsOf_groupsBy [DecidableEq κ] {n : Nat} {key : Nat → κ} {ids reprs : Col.Column Nat} (h : Col.GroupsOf n key ids reprs) :
    GroupsBy n key (reprs.toList.map fun p => positions n (fun r => key r = key p)) := by
  have hmem : ∀ p, p ∈ reprs.toList ↔ p < n ∧ ∀ q, q < p → key q ≠ key p := by
    intro p; rw [h.firsts, positions, List.mem_filter, List.mem_range, Col.isFirst_iff]
  have hsorted : reprs.toList.Pairwise (· < ·) := by
    rw [h.firsts]; exact List.Pairwise.filter _ List.pairwise_lt_range
  have hdist : (reprs.toList.map fun p => positions n (fun r => key r = key p)).Pairwise fun g h => ∀ a ∈ g, ∀ b ∈ h, key a ≠ key b := by
    rw [List.pairwise_map]
    refine hsorted.imp_of_mem ?_
    intro p q hp hq hlt a ha b hb
    simp only [positions, List.mem_filter, decide_eq_true_eq] at ha hb
    rw [ha.2, hb.2]
    exact ((hmem q).1 hq).2 p hlt
  refine ⟨?_, ?_, ?_, ?_, hdist⟩
  · rw [List.perm_ext_iff_of_nodup ?_ List.nodup_range]
    · intro r
      simp only [List.mem_flatten, List.mem_map, List.mem_range]
      constructor
      · rintro ⟨_, ⟨p, _, rfl⟩, hr⟩
        simp only [positions, List.mem_filter, List.mem_range] at hr
        exact hr.1
      · intro hr
        refine ⟨_, ⟨reprs.at (ids.at r), ?_, rfl⟩, ?_⟩
        · unfold Col.Column.toList Buf.toList
          exact List.mem_map.2 ⟨_, List.mem_range.2 (h.id_lt r hr), rfl⟩
        · simp only [positions, List.mem_filter, List.mem_range, decide_eq_true_eq]
          exact ⟨hr, (h.repr r hr).1.symm⟩
    · rw [List.nodup_flatten]
      constructor
      · intro l hl
        obtain ⟨p, _, rfl⟩ := List.mem_map.1 hl
        exact List.nodup_range.filter _
      · exact hdist.imp fun hd a ha hb => hd a ha a hb rfl
  · intro g hg
    obtain ⟨p, hp, rfl⟩ := List.mem_map.1 hg
    intro he
    have : p ∈ positions n (fun r => key r = key p) := by
      simp only [positions, List.mem_filter, List.mem_range, decide_eq_true_eq, and_true]
      exact ((hmem p).1 hp).1
    rw [he] at this; cases this
  · intro g hg
    obtain ⟨p, _, rfl⟩ := List.mem_map.1 hg
    exact List.Pairwise.filter _ List.pairwise_lt_range
  · intro g hg a ha b hb
    obtain ⟨p, _, rfl⟩ := List.mem_map.1 hg
    simp only [positions, List.mem_filter, decide_eq_true_eq] at ha hb
    rw [ha.2, hb.2]

/-- The id of a row is `g` iff it has the key of the representative of group `g`. -/
theorem groupsOf_id [DecidableEq κ] {n : Nat} {key : Nat → κ} {ids reprs : Col.Column Nat} (h : Col.GroupsOf n key ids reprs)
    {g : Nat} (hg : g < reprs.numRows) {r : Nat} (hr : r < n) : ids.at r = g ↔ key r = key (reprs.at g) := by
  have hl : reprs.toList.length = reprs.numRows := by simp [Col.Column.toList]
  have hat : ∀ i (hi : i < reprs.numRows), reprs.toList[i]'(by omega) = reprs.at i := by
    intro i hi; simp [Col.Column.toList, Buf.toList, Col.Column.at]
  have hsorted : reprs.toList.Pairwise (· < ·) := by
    rw [h.firsts]; exact List.Pairwise.filter _ List.pairwise_lt_range
  have hmem : reprs.at g ∈ reprs.toList := by rw [← hat g hg]; exact List.getElem_mem _
  rw [h.firsts, positions, List.mem_filter, List.mem_range, Col.isFirst_iff] at hmem
  obtain ⟨hp, hfirst⟩ := hmem
  have hid : ids.at (reprs.at g) = g := by
    have h1 := h.id_lt _ hp
    obtain ⟨h2, h3⟩ := h.repr _ hp
    have h4 : reprs.at (ids.at (reprs.at g)) = reprs.at g := by
      rcases Nat.lt_or_ge (reprs.at (ids.at (reprs.at g))) (reprs.at g) with hlt | hge
      · exact absurd h2 (hfirst _ hlt)
      · omega
    rw [List.pairwise_iff_getElem] at hsorted
    rcases Nat.lt_trichotomy (ids.at (reprs.at g)) g with hlt | he | hgt
    · have := hsorted _ _ (by omega) (by omega) hlt
      rw [hat _ h1, hat _ hg] at this; omega
    · exact he
    · have := hsorted _ _ (by omega) (by omega) hgt
      rw [hat _ h1, hat _ hg] at this; omega
  rw [← h.same r _ hr hp, hid]

/-! ### The theorems -/

theorem mapM_forall2 {α β : Type} {f : α → Res β} {R : α → β → Prop} : ∀ {l : List α}, (∀ x ∈ l, Res.Ok (f x) (R x)) →
    Res.Ok (l.mapM f) (fun m => List.Forall₂ R l m) := by
  intro l
  induction l with
  | nil => intro _; exact ⟨[], rfl, .nil⟩
  | cons x l ih =>
    intro h
    rw [List.mapM_cons]
    refine (h x (by simp)).bind fun b hb => ?_
    refine (ih fun y hy => h y (by simp [hy])).bind fun bs hbs => ?_
    exact Res.ok_iff.2 (.cons hb hbs)

/-- Element-wise relation between columns of a frame and the columns extracted from it. -/
def Extracted (n : Nat) (c : FCol V) (p : VTC × Col.Column V) : Prop := p.1 = c.vt ∧ ColIs p.2 n c.data.data

theorem keyColumns_ok {f : Frame V} (wf : f.WF) (lk : f.LabelsOK) : ∀ (cs : List (FCol V)), (∀ c ∈ cs, c ∈ f.cols ∧ colPart c.label ≠ "*") →
    Res.Ok ((cs.map (·.label)).mapM (keyColumn f)) (fun ps => List.Forall₂ (Extracted f.numRows) cs ps) := by
  intro cs h
  have e : (cs.map (·.label)).mapM (keyColumn f) = cs.mapM fun c => keyColumn f c.label := by
    rw [List.mapM_map]; rfl
  rw [e]
  refine mapM_forall2 fun c hc => ?_
  obtain ⟨i, hi⟩ := List.mem_iff_getElem?.1 (h c hc).1
  obtain ⟨k, hk, hk'⟩ := keyColumn_ok wf lk hi (h c hc).2
  rw [hk]
  exact Res.ok_iff.2 ⟨rfl, hk'⟩

/-- **C186 (what the columnar operations compute).** Grouping with SUM after the rewriting returns one row per combination of key
values, in the order in which the combinations first occur, with the keys of the group and the sums of the group's values added in row order. -/
theorem C186_group [DecidableEq V] (ops : Ops V) (f : Frame V) (wf : f.WF) (lk : f.LabelsOK) (keyLabels aggLabels : List String)
    (keys aggd : List (FCol V)) (hkeys : ColumnsFor f keyLabels keys) (haggd : ColumnsFor f aggLabels aggd) (hne : keyLabels ≠ [])
    (hplain : ∀ l ∈ keyLabels ++ aggLabels, colPart l ≠ "*") (hvt : ∀ c ∈ keys ++ aggd, c.vt ≠ .fixedStr16)
    (hnd : (keyLabels ++ aggLabels.map fun l => "SUM(" ++ l ++ ")").Nodup) (j : Nat → Nat) (junk : Nat → V) :
    ∃ gs, GroupsBy f.numRows (keyOf keys) gs ∧ (gs.Pairwise fun g h => ∀ a, g.head? = some a → ∀ b, h.head? = some b → a < b) ∧
      Res.Ok (groupColumnar ops f keyLabels aggLabels j junk) (SumResult ops keys aggd gs) := by
  have hkl := labels_of_columnsFor hkeys
  have hal := labels_of_columnsFor haggd
  have hkm : ∀ c ∈ keys, c ∈ f.cols ∧ colPart c.label ≠ "*" := fun c hc =>
    ⟨mem_of_columnsFor hkeys hc, hplain _ (by rw [← hkl]; simp; exact Or.inl ⟨c, hc, rfl⟩)⟩
  have ham : ∀ c ∈ aggd, c ∈ f.cols ∧ colPart c.label ≠ "*" := fun c hc =>
    ⟨mem_of_columnsFor haggd hc, hplain _ (by rw [← hal]; simp; exact Or.inr ⟨c, hc, rfl⟩)⟩
  have hall := keyColumns_ok wf lk keys hkm
  subst hkl hal
  obtain ⟨k0, ks, hk0⟩ : ∃ k0 ks, keys = k0 :: ks := by
    cases keys with
    | nil => exact absurd rfl hne
    | cons k0 ks => exact ⟨k0, ks, rfl⟩
  obtain ⟨ps, hps, hrel⟩ := hall
  have hrel0 := hrel
  rw [hk0] at hps hrel
  rw [List.map_cons, List.mapM_cons] at hps
  cases hrel with
  | cons hp0 hrest =>
  rename_i p0 ps
  have hsplit : keyColumn f k0.label = .ok p0 ∧ (ks.map (·.label)).mapM (keyColumn f) = .ok ps := by
    cases h1 : keyColumn f k0.label with
    | error e => rw [h1] at hps; cases hps
    | ok a =>
      rw [h1, Res.ok_bind] at hps
      cases h2 : (ks.map (·.label)).mapM (keyColumn f) with
      | error e => rw [h2] at hps; cases hps
      | ok b =>
        rw [h2, Res.ok_bind] at hps
        injection hps with hps
        injection hps with e1 e2
        exact ⟨by rw [e1], by rw [e2]⟩
  have hcw : ∀ c ∈ p0.2 :: ps.map (·.2), c.WF ∧ c.numRows = f.numRows := by
    have : ∀ p ∈ p0 :: ps, p.2.WF ∧ p.2.numRows = f.numRows := by
      intro p hp
      obtain ⟨i, hi⟩ := List.mem_iff_getElem?.1 hp
      have hlen := hrel0.length_eq
      have hi' : i < (p0 :: ps).length := (List.getElem?_eq_some_iff.1 hi).1
      obtain ⟨p', hp', hE⟩ := forall2_get hrel0 (List.getElem?_eq_getElem (show i < keys.length by omega))
      rw [hi] at hp'; injection hp' with hp'; subst hp'
      exact ⟨hE.2.1, hE.2.2.1⟩
    intro c hc
    rw [← List.map_cons (f := fun x : VTC × Col.Column V => x.2)] at hc
    obtain ⟨p, hp, rfl⟩ := List.mem_map.1 hc
    exact this p hp
  obtain ⟨⟨ids, reprs⟩, hg, hG⟩ := Col.C32_groupBy f.numRows p0.2 (ps.map (·.2)) hcw j j
  simp only at hG
  have hkey : ∀ r, r < f.numRows → ((p0.2 :: ps.map (·.2)).map fun c => c.at r) = keyOf keys r := by
    intro r hr
    rw [← List.map_cons (f := fun x : VTC × Col.Column V => x.2), List.map_map]
    unfold keyOf
    clear hG hg hcw hsplit hps hne hvt hnd hplain hkm hkeys
    revert hrel0
    generalize p0 :: ps = qs
    intro hrel0
    clear hk0
    induction hrel0 with
    | nil => rfl
    | cons h _ ih => simp only [List.map_cons, Function.comp, ← ih]; rw [h.2.2.2 r hr]
  have hG' : Col.GroupsOf f.numRows (keyOf keys) ids reprs := hG.congr fun r s hr hs => by rw [hkey r hr, hkey s hs]
  clear hG hkey
  have hrl : reprs.toList.length = reprs.numRows := by simp [Col.Column.toList]
  have hrat : ∀ i (hi : i < reprs.numRows), reprs.toList[i]? = some (reprs.at i) := by
    intro i hi; simp [Col.Column.toList, Buf.toList, Col.Column.at, hi]
  have hlt : ∀ i, i < reprs.numRows → reprs.at i < f.numRows ∧ ∀ q, q < reprs.at i → keyOf keys q ≠ keyOf keys (reprs.at i) := by
    intro i hi
    have := List.mem_of_getElem? (hrat i hi)
    rw [hG'.firsts, positions, List.mem_filter, List.mem_range, Col.isFirst_iff] at this
    exact this
  -- the first row of a group is its representative
  have hhead : ∀ i, i < reprs.numRows → (positions f.numRows fun r => keyOf keys r = keyOf keys (reprs.at i)).head? = some (reprs.at i) := by
    intro i hi
    obtain ⟨l1, l2⟩ := hlt i hi
    unfold positions
    rw [List.head?_filter, List.find?_eq_some_iff_getElem]
    refine ⟨by simp, reprs.at i, by simpa using l1, by simp, fun q hq => ?_⟩
    have := l2 q hq
    simpa using this
  refine ⟨reprs.toList.map fun p => positions f.numRows (fun r => keyOf keys r = keyOf keys p), groupsOf_groupsBy hG', ?_, ?_⟩
  · rw [List.pairwise_map, List.pairwise_iff_getElem]
    intro a b ha hb hab x hx y hy
    have ea : reprs.toList[a] = reprs.at a := by
      have := hrat a (by omega); rw [List.getElem?_eq_getElem ha] at this; exact Option.some.inj this
    have eb : reprs.toList[b] = reprs.at b := by
      have := hrat b (by omega); rw [List.getElem?_eq_getElem hb] at this; exact Option.some.inj this
    rw [ea, hhead a (by omega)] at hx
    rw [eb, hhead b (by omega)] at hy
    injection hx with hx
    injection hy with hy
    have hs : reprs.toList.Pairwise (· < ·) := by
      rw [hG'.firsts]; exact List.Pairwise.filter _ List.pairwise_lt_range
    have := List.pairwise_iff_getElem.1 hs a b ha hb hab
    rw [ea, eb] at this
    omega
  · have hklab : keys.map (·.label) = k0.label :: ks.map (·.label) := by rw [hk0]; rfl
    rw [hklab]
    unfold groupColumnar
    simp only
    rw [hsplit.1, Res.ok_bind, hsplit.2, Res.ok_bind, hg, Res.ok_bind]
    -- keys
    have hposc : ColIs (intCol reprs) reprs.numRows (fun r => (reprs.at r : Int)) := ⟨hG'.reprsWF, rfl, fun r _ => rfl⟩
    have hkc : Res.Ok ((p0 :: ps).mapM fun c => do
        let p ← Col.project c.2 (intCol reprs) junk
        .ok (c.1, p)) (fun qs => List.Forall₂ (Projected reprs.numRows reprs.at) keys qs) := by
      have h1 : ∀ {cs : List (FCol V)} {qs : List (VTC × Col.Column V)}, List.Forall₂ (Extracted f.numRows) cs qs →
          Res.Ok (qs.mapM fun c => do
            let p ← Col.project c.2 (intCol reprs) junk
            .ok (c.1, p)) (fun os => List.Forall₂ (Projected reprs.numRows reprs.at) cs os) := by
        intro cs qs h
        induction h with
        | nil => exact ⟨[], rfl, .nil⟩
        | @cons c q cs qs h _ ih =>
          rw [List.mapM_cons]
          have hpr : Res.Ok (do
              let p ← Col.project q.2 (intCol reprs) junk
              .ok (q.1, p)) (Projected reprs.numRows reprs.at c) := by
            refine ((Col.C29_project q.2 (intCol reprs) h.2.1 hG'.reprsWF junk).1 ?_).bind ?_
            · intro r hr
              have := (hlt r hr).1
              have e : (intCol reprs).at r = (reprs.at r : Int) := rfl
              have e2 := h.2.2.1
              rw [e]
              exact ⟨by omega, by simp; omega⟩
            · rintro p ⟨p1, p2, p3⟩
              refine Res.ok_iff.2 ⟨h.1, p1, p2, fun r hr => ?_⟩
              rw [p3 r hr]
              have e : (intCol reprs).at r = (reprs.at r : Int) := rfl
              rw [e, Int.toNat_natCast]
              exact h.2.2.2 _ (hlt r hr).1
          refine hpr.bind fun o ho => ?_
          refine ih.bind fun os hos => ?_
          exact Res.ok_iff.2 (.cons ho hos)
      exact h1 hrel0
    refine hkc.bind fun kc hkc => ?_
    -- aggregates
    set Agg : FCol V → VTC × Col.Column V → Prop := fun c p => p.1 = c.vt ∧ ColIs p.2 reprs.numRows (fun g =>
      ((positions f.numRows fun r => keyOf keys r = keyOf keys (reprs.at g)).map c.data.data).foldl (ops.add c.vt) (ops.zero c.vt)) with hAgg
    have hac : Res.Ok ((aggd.map (·.label)).mapM fun l => do
        let c ← keyColumn f l
        let a ← Col.aggGrp (ops.add c.1) (ops.zero c.1) c.2 (intCol ids) reprs.numRows
        .ok (c.1, a)) (fun qs => List.Forall₂ Agg aggd qs) := by
      rw [List.mapM_map]
      refine mapM_forall2 fun c hc => ?_
      obtain ⟨i, hi⟩ := List.mem_iff_getElem?.1 (ham c hc).1
      obtain ⟨k, hk, kw, kn, kv⟩ := keyColumn_ok wf lk hi (ham c hc).2
      simp only [Function.comp]
      rw [hk, Res.ok_bind]
      refine ((Col.C33_aggGrp (ops.add c.vt) (ops.zero c.vt) k (intCol ids) kw hG'.idsWF reprs.numRows).1 ?_ ?_).bind ?_
      · rw [kn]; exact hG'.rows.symm
      · intro r hr
        have hr' : r < f.numRows := by have := hG'.rows; simp only [intCol] at hr; omega
        have := hG'.id_lt r hr'
        have e : (intCol ids).at r = (ids.at r : Int) := rfl
        rw [e]; omega
      · rintro a ⟨a1, a2, a3⟩
        refine Res.ok_iff.2 ⟨rfl, a1, a2, fun g hg => ?_⟩
        rw [a3 g hg, Col.groupFold]
        show _ = List.foldl _ _ (List.map _ _)
        rw [List.foldl_map]
        have e : (positions k.numRows fun r => (intCol ids).at r = (g : Int)) =
            positions f.numRows fun r => keyOf keys r = keyOf keys (reprs.at g) := by
          rw [kn]
          unfold positions
          apply List.filter_congr
          intro r hr
          have hr := List.mem_range.1 hr
          have := groupsOf_id hG' hg hr
          have e : (intCol ids).at r = (ids.at r : Int) := rfl
          rw [e, decide_eq_decide, ← this]
          omega
        rw [e]
        have : ∀ (l : List Nat) (z : V), (∀ r ∈ l, r < f.numRows) → l.foldl (fun a r => ops.add c.vt a (k.at r)) z =
            l.foldl (fun a r => ops.add c.vt a (c.data.data r)) z := by
          intro l
          induction l with
          | nil => intro z _; rfl
          | cons r l ih =>
            intro z h
            simp only [List.foldl_cons]
            rw [kv r (h r (by simp)), ih _ fun r hr => h r (by simp [hr])]
        exact this _ _ fun r hr => by
          simp only [positions, List.mem_filter, List.mem_range] at hr; exact hr.1
    refine hac.bind fun ac hac => ?_
    -- the frame
    set aggd' : List (FCol V) := aggd.map fun c => { c with label := "SUM(" ++ c.label ++ ")" } with haggd'
    have hac' : List.Forall₂ (fun (c : FCol V) (p : VTC × Col.Column V) => p.1 = c.vt ∧ p.2.numRows = reprs.numRows) aggd' ac := by
      rw [haggd', List.forall₂_map_left_iff]
      exact hac.imp fun c p h => ⟨h.1, h.2.2.1⟩
    have hkc' : List.Forall₂ (fun (c : FCol V) (p : VTC × Col.Column V) => p.1 = c.vt ∧ p.2.numRows = reprs.numRows) keys kc :=
      hkc.imp fun c p h => ⟨h.1, h.2.2.1⟩
    have hlabs : k0.label :: ks.map (·.label) ++ (aggd.map (·.label)).map (fun l => "SUM(" ++ l ++ ")") = (keys ++ aggd').map (·.label) := by
      rw [← hklab, List.map_append, haggd', List.map_map, List.map_map]; rfl
    have hfin := ofMats_projected (keys ++ aggd') (kc ++ ac) reprs.numRows _ (fun c p h => h) (List.rel_append hkc' hac')
      (by rw [hk0]; simp) (by
        intro c hc
        rcases List.mem_append.1 hc with hc | hc
        · exact hvt c (by simp [hc])
        · rw [haggd'] at hc
          obtain ⟨c', hc', rfl⟩ := List.mem_map.1 hc
          exact hvt c' (by simp [hc'])) (by
        rw [← hlabs, ← hklab]; exact hnd)
    rw [hlabs]
    have hgs : ∀ g rs, (reprs.toList.map fun p => positions f.numRows (fun r => keyOf keys r = keyOf keys p))[g]? = some rs →
        g < reprs.numRows ∧ rs = positions f.numRows (fun r => keyOf keys r = keyOf keys (reprs.at g)) := by
      intro g rs h
      rw [List.getElem?_map] at h
      have hlt : g < reprs.numRows := by
        by_contra hge
        rw [List.getElem?_eq_none (by omega)] at h; cases h
      rw [hrat g hlt] at h
      exact ⟨hlt, (Option.some.inj h).symm⟩
    refine hfin.mono ?_
    rintro res ⟨r1, r2, r3, r4, r5⟩
    refine ⟨by rw [r1, List.length_map, hrl], ?_, ?_, r4, ?_, ?_⟩
    · rw [r2, List.map_append, haggd', List.map_map]; rfl
    · rw [r3, List.map_append, haggd', List.map_map]; rfl
    · intro i c hc g rs hg
      obtain ⟨hg1, rfl⟩ := hgs g rs hg
      have hi : i < keys.length := (List.getElem?_eq_some_iff.1 hc).1
      obtain ⟨p, -, hp, hres⟩ := r5 i c (by rw [List.getElem?_append_left hi]; exact hc)
      obtain ⟨p', hp', hP⟩ := forall2_get hkc hc
      rw [List.getElem?_append_left (by rw [← hkc.length_eq]; exact hi), hp'] at hp
      injection hp with hp
      subst hp
      rw [cell_of_col hres (by omega), hhead g hg1]
      simp only [Option.map_some, Option.some.injEq]
      exact hP.2.2.2 g hg1
    · intro i c hc g rs hg
      obtain ⟨hg1, rfl⟩ := hgs g rs hg
      obtain ⟨p, -, hp, hres⟩ := r5 (keys.length + i) { c with label := "SUM(" ++ c.label ++ ")" } (by
        rw [List.getElem?_append_right (by omega), Nat.add_sub_cancel_left, haggd', List.getElem?_map, hc]; rfl)
      obtain ⟨p', hp', hP⟩ := forall2_get hac hc
      rw [List.getElem?_append_right (by rw [← hkc.length_eq]; omega), ← hkc.length_eq, Nat.add_sub_cancel_left, hp'] at hp
      injection hp with hp
      subst hp
      rw [cell_of_col hres (by omega)]
      simp only [Option.some.injEq]
      exact hP.2.2.2 g hg1

theorem lexSame_iff {ops : Ops V} {keys : List (FCol V)} (hne : ∀ c ∈ keys, ∀ a b, ops.ne c.vt a b = false ↔ a = b) (a b : Nat) :
    LexSame ((keys.map (·.key ops)).map (·, true)) a b ↔ keyOf keys a = keyOf keys b := by
  unfold LexSame keyOf
  rw [List.map_inj_left]
  constructor
  · intro h c hc
    have := h (c.key ops, true) (by simp; exact ⟨c, hc, rfl⟩)
    exact (hne c hc _ _).1 this
  · intro h p hp
    simp only [List.map_map, List.mem_map, Function.comp] at hp
    obtain ⟨c, hc, rfl⟩ := hp
    exact (hne c hc _ _).2 (h c hc)

theorem lexBefore_ne {ops : Ops V} {keys : List (FCol V)} (hlaw : ∀ c ∈ keys, (c.key ops).Lawful) {a b : Nat}
    (h : LexBefore ((keys.map (·.key ops)).map (·, true)) a b) : keyOf keys a ≠ keyOf keys b := by
  induction keys with
  | nil => exact absurd h id
  | cons c cs ih =>
    intro e
    unfold keyOf at e
    rw [List.map_cons, List.map_cons, List.cons.injEq] at e
    simp only [List.map_cons, LexBefore] at h
    rcases h with h | h
    · have hl := (hlaw c (by simp)).irrefl (c.data.data b)
      unfold Rel.Before at h
      simp only [if_true] at h
      have h' : (c.key ops).lt (c.data.data a) (c.data.data b) = true := h
      rw [e.1] at h'
      have h' : (c.key ops).lt (c.data.data b) (c.data.data b) = true := h'
      rw [h'] at hl
      cases hl
    · exact ih (fun c hc => hlaw c (by simp [hc])) h.2 e.2

/-- **C186 (same result as the kernel).** Grouping by ordinary key columns with SUM returns the same rows, whether with the kernel for
frames or with the columnar operations: both have one row per group of rows with the same keys, and the groups are the same up to their
order: that of the keys with the kernel, that of the first rows with the columnar operations. The hypotheses are those of `C66_group_by`, and that values of key columns are different iff `!=` says so. -/
theorem C186_same_rows [DecidableEq V] (ops : Ops V) (usable : Nat → Nat) (f : Frame V) (wf : f.WF) (lk : f.LabelsOK)
    (keyLabels aggLabels : List String) (keys aggd : List (FCol V)) (hkeys : ColumnsFor f keyLabels keys) (haggd : ColumnsFor f aggLabels aggd)
    (hne : keyLabels ≠ []) (hplain : ∀ l ∈ keyLabels ++ aggLabels, colPart l ≠ "*")
    (hvt : ∀ c ∈ keys ++ aggd, c.vt ≠ .fixedStr16) (hstr : ∀ c ∈ aggd, c.vt ≠ .str)
    (hlaw : ∀ c ∈ keys, (c.key ops).Lawful) (hneq : ∀ c ∈ keys, ∀ a b, ops.ne c.vt a b = false ↔ a = b)
    (hnd : (keyLabels ++ aggLabels.map fun l => "SUM(" ++ l ++ ")").Nodup)
    (hdef : ∀ l ∈ keyLabels ++ aggLabels, ∀ k, l ≠ defaultLabel k) (husable : keyLabels.length ≤ usable 0)
    (j : Nat → Nat) (junk : Nat → V) (junk2 : Nat → Nat → V) :
    ∃ gs ks : List (List Nat), ∃ resK, gs.Perm ks ∧ GroupsBy f.numRows (keyOf keys) gs ∧
      (gs.Pairwise fun g h => ∀ a, g.head? = some a → ∀ b, h.head? = some b → a < b) ∧ IsGrouping f.numRows (keys.map (·.key ops)) ks ∧
      Res.Ok (groupColumnar ops f keyLabels aggLabels j junk) (SumResult ops keys aggd gs) ∧
      group ops usable f.numRows f keyLabels (aggLabels.map (·, .sum)) junk2 = .ok (some resK) ∧ SumResult ops keys aggd ks resK := by
  obtain ⟨gs, hgs, hfirst, hres⟩ := C186_group ops f wf lk keyLabels aggLabels keys aggd hkeys haggd hne hplain hvt hnd j junk
  have hkl := labels_of_columnsFor hkeys
  have hal := labels_of_columnsFor haggd
  have hmap : (aggLabels.map (·, GFn.sum)).map (·.1) = aggLabels := by
    rw [List.map_map]; exact List.map_id' _
  have hstar : ∀ k ∈ keyLabels, starOf f.labels aggLabels k = none := by
    intro k hk
    have h1 := hplain k (by simp [hk])
    unfold starOf
    rw [if_neg ?_, if_neg h1]
    rintro rfl
    exact h1 (by decide)
  have hsl : starLabels f.labels aggLabels keyLabels = [] := by
    unfold starLabels
    rw [List.flatMap_eq_nil_iff]
    intro k hk
    rw [hstar k hk]; rfl
  have heff : effKeys f.labels aggLabels keyLabels = keyLabels := by
    show (if (starLabels f.labels aggLabels keyLabels).length = 0 then keyLabels else starLabels f.labels aggLabels keyLabels) = keyLabels
    rw [hsl]; rfl
  have hlab : ∀ l, aggLabel (l, GFn.sum) = "SUM(" ++ l ++ ")" := by
    intro l
    have : "SUM" ++ "(" = "SUM(" := by decide
    unfold aggLabel
    simp only [GFn.name]
    rw [this]
  have hzip : aggd.zip (aggLabels.map (·, GFn.sum)) = aggd.map fun c => (c, c.label, GFn.sum) := by
    rw [← hal, List.map_map]
    have := List.zip_map' (f := fun c : FCol V => c) (g := fun c : FCol V => (c.label, GFn.sum)) (l := aggd)
    rw [List.map_id'] at this
    exact this
  have hK := C66_group_by ops usable f keyLabels (aggLabels.map (·, .sum)) junk2 keys aggd wf lk
    (by
      rw [hmap]
      rintro ⟨k, hk, h⟩
      rw [hstar k hk] at h; cases h)
    (by rw [hmap, heff]; exact hkeys) (by rw [hmap]; exact haggd) hvt
    (by
      rw [hzip]
      intro p hp _
      obtain ⟨c, hc, rfl⟩ := List.mem_map.1 hp
      exact hstr c hc)
    hlaw
    (by
      rw [hzip]
      intro p hp h
      obtain ⟨c, hc, rfl⟩ := List.mem_map.1 hp
      rcases h with h | h <;> cases h)
    (by
      rw [hmap, heff, List.map_map]
      have e : (aggLabel ∘ fun x => (x, GFn.sum)) = fun l => "SUM(" ++ l ++ ")" := by funext l; exact hlab l
      rw [e]; exact hnd)
    (Or.inr (by rw [hmap, heff]; exact hdef)) (by rw [hmap, heff, hsl]; exact husable)
    (Or.inl (by rintro rfl; rw [← hkl] at hne; exact hne rfl)) f.numRows (Nat.le_refl _)
  obtain ⟨resK, ks, k1, k2, k3, k4, k5, k6, -, k7, k8⟩ := hK
  have hks : GroupsBy f.numRows (keyOf keys) ks := by
    refine ⟨k2.perm, k2.nonempty, k2.rowOrder, ?_, ?_⟩
    · intro g hg a ha b hb
      exact (lexSame_iff hneq a b).1 (k2.same g hg a ha b hb)
    · exact k2.ascending.imp fun h a ha b hb => lexBefore_ne hlaw (h a ha b hb)
  refine ⟨gs, ks, resK, hgs.unique hks, hgs, hfirst, k2, hres, k1, k3, ?_, ?_, k6, k7, ?_⟩
  · rw [k5, hzip, List.map_map]
    congr 1
  · rw [k4, hmap, heff, hkl, List.map_map]
    congr 1
    rw [← hal, List.map_map]
    apply List.map_congr_left
    intro c _
    exact hlab c.label
  · intro i c hc g rs hg
    have ha : (aggLabels.map (·, GFn.sum))[i]? = some (c.label, .sum) := by
      rw [← hal, List.getElem?_map, List.getElem?_map, hc]; rfl
    obtain ⟨v, hv, hs⟩ := k8 i c c.label .sum hc ha g rs hg
    rw [hv]
    exact congrArg some hs

/-! ### Where the rewritten grouping differs -/

/-- **C189 (refuted: order).** The kernel sorts the groups by their keys; after the rewriting they are in the order of their first rows.
Whenever there is a key column and a row with a smaller key than the first row, the two results have different keys in their first rows. -/
theorem C189_order_partial [DecidableEq V] (ops : Ops V) (usable : Nat → Nat) (f : Frame V) (wf : f.WF) (lk : f.LabelsOK)
    (k : FCol V) (hk : k ∈ f.cols) (aggLabels : List String) (aggd : List (FCol V)) (haggd : ColumnsFor f aggLabels aggd)
    (hplain : ∀ l ∈ k.label :: aggLabels, colPart l ≠ "*")
    (hvt : ∀ c ∈ k :: aggd, c.vt ≠ .fixedStr16) (hstr : ∀ c ∈ aggd, c.vt ≠ .str)
    (hlaw : (k.key ops).Lawful) (hneq : ∀ a b, ops.ne k.vt a b = false ↔ a = b)
    (hnd : (k.label :: aggLabels.map fun l => "SUM(" ++ l ++ ")").Nodup)
    (hdef : ∀ l ∈ k.label :: aggLabels, ∀ i, l ≠ defaultLabel i) (husable : 1 ≤ usable 0)
    (r : Nat) (hr : r < f.numRows) (hlt : ops.lt k.vt (k.data.data r) (k.data.data 0) = true)
    (j : Nat → Nat) (junk : Nat → V) (junk2 : Nat → Nat → V) :
    Res.Ok (groupColumnar ops f [k.label] aggLabels j junk) fun res => res.cell 0 0 = some (k.data.data 0) ∧
      ∃ resK, group ops usable f.numRows f [k.label] (aggLabels.map (·, .sum)) junk2 = .ok (some resK) ∧
        ∃ v, resK.cell 0 0 = some v ∧ v ≠ k.data.data 0 := by
  obtain ⟨gs, ks, resK, hperm, hgs, hfirst, hK, hres, hk1, hk2⟩ := C186_same_rows ops usable f wf lk [k.label] aggLabels [k] aggd
    (.cons ⟨hk, rfl⟩ .nil) haggd (by simp) hplain hvt hstr (by simpa using hlaw) (by simpa using hneq) hnd hdef husable j junk junk2
  have h0 : 0 < f.numRows := by omega
  have hcons : ∀ {hs : List (List Nat)}, GroupsBy f.numRows (keyOf [k]) hs → ∃ a g hs', hs = (a :: g) :: hs' := by
    intro hs h
    cases hs with
    | nil =>
      have := h.perm.mem_iff.2 (List.mem_range.2 h0)
      simp at this
    | cons g hs =>
      cases g with
      | nil => exact absurd rfl (h.nonempty [] (by simp))
      | cons a g => exact ⟨a, g, hs, rfl⟩
  refine hres.mono fun res hres => ⟨?_, resK, hk1, ?_⟩
  · obtain ⟨a, g, gs', rfl⟩ := hcons hgs
    have := hres.keyCells 0 k rfl 0 (a :: g) rfl
    rw [this]
    simp only [List.head?_cons, Option.map_some, Option.some.injEq]
    have hm := hgs.perm.mem_iff.2 (List.mem_range.2 h0)
    obtain ⟨g', hg', h0g⟩ := List.mem_flatten.1 hm
    rcases List.mem_cons.1 hg' with rfl | hg'
    · have hs := hgs.rowOrder _ (List.mem_cons_self)
      rcases List.mem_cons.1 h0g with rfl | h0g
      · rfl
      · have := (List.pairwise_cons.1 hs).1 0 h0g
        omega
    · cases g' with
      | nil => cases h0g
      | cons b g' =>
        have := (List.pairwise_cons.1 hfirst).1 _ hg' a rfl b rfl
        have hs := hgs.rowOrder (b :: g') (by simp [hg'])
        rcases List.mem_cons.1 h0g with rfl | h0g
        · omega
        · have := (List.pairwise_cons.1 hs).1 0 h0g
          omega
  · have hne : ks ≠ [] := by
      rintro rfl
      have := hK.perm.mem_iff.2 (List.mem_range.2 h0)
      simp at this
    obtain ⟨g, ks', rfl⟩ := List.exists_cons_of_ne_nil hne
    obtain ⟨a, g, rfl⟩ := List.exists_cons_of_ne_nil (hK.nonempty g (by simp))
    refine ⟨k.data.data a, hk2.keyCells 0 k rfl 0 (a :: g) rfl, fun e => ?_⟩
    have hirr : ∀ v, ops.lt k.vt v v = false := hlaw.irrefl
    obtain ⟨g', hg', hrg⟩ := List.mem_flatten.1 (hK.perm.mem_iff.2 (List.mem_range.2 hr))
    rcases List.mem_cons.1 hg' with rfl | hg'
    · have := (lexSame_iff (ops := ops) (keys := [k]) (by simpa using hneq) r a).1 (hK.same _ (by simp) r hrg a (by simp))
      simp only [keyOf, List.map_cons, List.map_nil, List.cons.injEq, and_true] at this
      rw [this, e, hirr] at hlt
      cases hlt
    · have := (List.pairwise_cons.1 hK.ascending).1 g' hg' a (by simp) r hrg
      simp only [List.map_cons, List.map_nil, LexBefore, and_false, or_false] at this
      have hb : ops.lt k.vt (k.data.data a) (k.data.data r) = true := this
      rw [e] at hb
      have := hlaw.trans _ _ _ hb hlt
      have h2 : ops.lt k.vt (k.data.data 0) (k.data.data 0) = true := this
      rw [hirr] at h2
      cases h2

/-- **C189 (refuted: no keys).** Without key columns the kernel returns a single group; the rewriting accesses the first of no labels. -/
theorem C189_no_keys_partial [DecidableEq V] (ops : Ops V) (f : Frame V) (aggs : List String) (j : Nat → Nat) (junk : Nat → V) :
    Res.IsUB (groupColumnar ops f [] aggs j junk) := ⟨_, rfl⟩

/-- **C189 (refuted: wildcards).** With the key `*` the kernel groups by all columns that are not aggregated; after the rewriting the key is
looked for as the frame name `*`, and without one the query throws. -/
theorem C189_star_partial [DecidableEq V] (ops : Ops V) (f : Frame V) (h : ∀ l ∈ f.labels, framePart l ≠ "*") (ks aggs : List String)
    (j : Nat → Nat) (junk : Nat → V) : Res.Throws (groupColumnar ops f ("*" :: ks) aggs j junk) := by
  have hf : (f.labels.filter fun k => framePart k = framePart "*") = [] := by
    rw [List.filter_eq_nil_iff]
    intro l hl
    have : framePart "*" = "*" := by decide
    rw [this]
    simpa using h l hl
  have hs := sub_eq (f := f) (rl := 0) (ru := f.numRows) (idxs := []) (cs := []) (by simp) (by omega) (by omega) (Or.inr rfl)
  unfold groupColumnar
  simp only
  apply Res.throws_bind
  unfold keyColumn extractColLabel
  rw [if_pos (by decide), hf, List.mapM_nil]
  show Res.Throws (Frame.sub f 0 f.numRows [] >>= frameToColumn)
  rw [hs, Res.ok_bind]
  exact ⟨_, rfl⟩

end Verif.Columnar
