/-
  The group kernel: main theorem (C66) and its failures (C67).
-/
import Verif.Rel.GroupMain

namespace Verif.Rel
open Verif

theorem numColsRes_eq {argLabels aggCols keyCols : List String}
    (hstar : (∃ k ∈ keyCols, (starOf argLabels aggCols k).isSome) → starLabels argLabels aggCols keyCols ≠ []) (m : Nat) :
    (if (keyCols.any fun k => (starOf argLabels aggCols k).isSome) = true then (starLabels argLabels aggCols keyCols).length + m
      else keyCols.length + m) = (effKeys argLabels aggCols keyCols).length + m := by
  show _ = (if (starLabels argLabels aggCols keyCols).length = 0 then keyCols else starLabels argLabels aggCols keyCols).length + m
  by_cases h : (keyCols.any fun k => (starOf argLabels aggCols k).isSome) = true
  · rw [if_pos h]
    have : starLabels argLabels aggCols keyCols ≠ [] := hstar (by simpa using h)
    rw [if_neg (by simpa using this)]
  · rw [if_neg h]
    have : starLabels argLabels aggCols keyCols = [] := by
      unfold starLabels
      rw [List.flatMap_eq_nil_iff]
      intro k hk
      have : (starOf argLabels aggCols k).isSome = false := by
        cases hs : (starOf argLabels aggCols k).isSome
        · rfl
        · exact absurd (List.any_eq_true.2 ⟨k, hk, hs⟩) h
      simp only [Option.isSome_eq_false_iff, Option.isNone_iff_eq_none] at this
      simp [this]
    rw [this]; simp

theorem labels_of_columnsFor {f : Frame V} {ls cs} (h : ColumnsFor f ls cs) : cs.map (·.label) = ls := by
  induction h with
  | nil => rfl
  | cons hc _ ih => simp [hc.2, ih]

theorem mem_of_columnsFor {f : Frame V} {ls cs} (h : ColumnsFor f ls cs) {c : FCol V} (hc : c ∈ cs) : c ∈ f.cols := by
  induction h with
  | nil => simp at hc
  | cons h _ ih =>
    rcases List.mem_cons.1 hc with rfl | hc
    · exact h.1
    · exact ih hc

/-- The label of an aggregated column in the result. -/
def aggLabel (a : String × GFn) : String := a.2.name ++ "(" ++ a.1 ++ ")"

/-- **GROUP BY.** Grouping a frame by key columns (with `*` and `f.*` expanded) and aggregating other columns returns a
    frame with one row per distinct combination of key values, in ascending lexicographic key order; key columns show
    the keys of the group and aggregate columns the aggregate of the group's values in row order. Without keys there is
    one group with all rows. Hypotheses: all columns exist and have supported types, key columns (and columns under MIN and
    MAX) are totally ordered (no NaN), the labels of the result are distinct, and the array `ascending` is large enough
    (see `C67_group_heap_overflow_partial`). -/
theorem C66_group_by (ops : Ops V) (usable : Nat → Nat) (arg : Frame V) (keyCols : List String) (aggs : List (String × GFn))
    (junk : Nat → Nat → V) (keys aggd : List (FCol V))
    (hwf : arg.WF) (hlab : arg.LabelsOK)
    (hstar : (∃ k ∈ keyCols, (starOf arg.labels (aggs.map (·.1)) k).isSome) → starLabels arg.labels (aggs.map (·.1)) keyCols ≠ [])
    (hkeys : ColumnsFor arg (effKeys arg.labels (aggs.map (·.1)) keyCols) keys) (haggd : ColumnsFor arg (aggs.map (·.1)) aggd)
    (hfix : ∀ c ∈ keys ++ aggd, c.vt ≠ .fixedStr16)
    (hsup : ∀ p ∈ aggd.zip aggs, p.2.2 = .sum ∨ p.2.2 = .avg → p.1.vt ≠ .str)
    (hklaw : ∀ c ∈ keys, (c.key ops).Lawful)
    (halaw : ∀ p ∈ aggd.zip aggs, p.2.2 = .min ∨ p.2.2 = .max → (p.1.key ops).Lawful)
    (hres : (effKeys arg.labels (aggs.map (·.1)) keyCols ++ aggs.map aggLabel).Nodup)
    (hdup : (effKeys arg.labels (aggs.map (·.1)) keyCols ++ aggs.map (·.1)).Nodup ∨
      ∀ l ∈ effKeys arg.labels (aggs.map (·.1)) keyCols ++ aggs.map (·.1), ∀ k, l ≠ defaultLabel k)
    (hasc : (effKeys arg.labels (aggs.map (·.1)) keyCols).length ≤ usable (starLabels arg.labels (aggs.map (·.1)) keyCols).length)
    (hrows : keys ≠ [] ∨ 0 < arg.numRows) (fuel : Nat) (hfuel : arg.numRows ≤ fuel) :
    ∃ (res : Frame V) (groups : List (List Nat)), group ops usable fuel arg keyCols aggs junk = .ok (some res) ∧
      IsGrouping arg.numRows (keys.map (·.key ops)) groups ∧
      res.numRows = groups.length ∧
      res.labels = effKeys arg.labels (aggs.map (·.1)) keyCols ++ aggs.map aggLabel ∧
      res.schema = keys.map (·.vt) ++ (aggd.zip aggs).map (fun p => AggType p.1.vt p.2.2) ∧ res.LabelsOK ∧ res.WF ∧
      (∀ j c, keys[j]? = some c → ∀ g rows, groups[g]? = some rows → res.cell j g = rows.head?.map c.data.data) ∧
      (∀ j c l f, aggd[j]? = some c → aggs[j]? = some (l, f) → ∀ g rows, groups[g]? = some rows →
        ∃ v, res.cell (keys.length + j) g = some v ∧ AggSpec ops c.vt (rows.map c.data.data) v f) := by
  set aggCols := aggs.map (·.1) with haggCols
  set K := effKeys arg.labels aggCols keyCols with hK
  set cs := keys ++ aggd with hcs
  have hKlen : keys.length = K.length := hkeys.length_eq.symm
  have hAlen : aggd.length = aggs.length := by have := haggd.length_eq; simp [haggCols] at this; exact this.symm
  obtain ⟨ki, hki, hki'⟩ := columnsFor_idxs hlab hkeys
  obtain ⟨ai, hai, hai'⟩ := columnsFor_idxs hlab haggd
  have hsub := sub_full (f := arg) (idxs := ki ++ ai) (cs := cs) (by rw [List.map_append, hki', hai', hcs, List.map_append])
  have hcl : cs.map (·.label) = K ++ aggCols := by
    rw [hcs, List.map_append, labels_of_columnsFor hkeys, labels_of_columnsFor haggd]
  set ls := (initD 0 (cs.map (·.label)) []).1 with hls
  have hlslen : ls.length = cs.length := by rw [hls, initD_length, List.length_map]
  have hlsnd : ls.Nodup := by
    have h0 : MapOK ([] : List (String × Nat)) ([] : List String) := by intro l i; simp [lookupLabel]
    rcases hdup with h | h
    · have := (initD_nodup (cs.map (·.label)) [] [] h0 (by simpa [hcl] using h)).1
      rw [hls]
      simp only [List.length_nil] at this
      rw [this, hcl]; exact h
    · have := mapOK_nodup (initD_ok (cs.map (·.label)) [] [] h0 (by rw [hcl]; exact h) (by simp))
      simpa [hls] using this
  -- lists of functions and labels
  set fns : List (Option GFn) := K.map (fun _ => none) ++ aggs.map (fun a => some a.2) with hfns
  set labels := K ++ aggs.map (fun a => a.2.name ++ "(" ++ a.1 ++ ")") with hlabels
  have hcslen : cs.length = K.length + aggs.length := by rw [hcs, List.length_append, hKlen, hAlen]
  have hfl : fns.length = cs.length := by rw [hcslen, hfns]; simp
  have hll : labels.length = cs.length := by rw [hcslen, hlabels]; simp
  have hzip : cs.zip fns = keys.zip (K.map fun _ => none) ++ aggd.zip (aggs.map fun a => some a.2) := by
    rw [hcs, hfns, List.zip_append (by simp [hKlen])]
  have hsup' : ∀ p ∈ cs.zip fns, Supported p.1.vt p.2 := by
    rw [hzip]
    intro p hp
    rcases List.mem_append.1 hp with hp | hp
    · have := (List.of_mem_zip hp).2
      obtain ⟨_, _, he⟩ := List.mem_map.1 this
      rw [← he]; trivial
    · rw [List.zip_map_right] at hp
      obtain ⟨q, hq, rfl⟩ := List.mem_map.1 hp
      have := hsup q hq
      show Supported q.1.vt (some q.2.2)
      cases hq2 : q.2.2 with
      | sum => exact this (.inl hq2)
      | avg => exact this (.inr hq2)
      | _ => trivial
  have hlaw' : ∀ p ∈ cs.zip fns, p.2 = some .min ∨ p.2 = some .max → (p.1.key ops).Lawful := by
    rw [hzip]
    intro p hp hmm
    rcases List.mem_append.1 hp with hp | hp
    · have := (List.of_mem_zip hp).2
      obtain ⟨_, _, he⟩ := List.mem_map.1 this
      rw [← he] at hmm; simp at hmm
    · rw [List.zip_map_right] at hp
      obtain ⟨q, hq, rfl⟩ := List.mem_map.1 hp
      exact halaw q hq (by simpa using hmm)
  have hcwf : ∀ c ∈ cs, arg.numRows ≤ c.data.size := by
    intro c hc
    rcases List.mem_append.1 hc with h | h
    · exact hwf _ (mem_of_columnsFor hkeys h)
    · exact hwf _ (mem_of_columnsFor haggd h)
  -- the ordered frame and its groups
  have hstage : ∃ (ordered : Frame V) (gs : List (Nat × Nat)) (segs : List (List Nat)),
      orderStage ops fuel ⟨arg.numRows, (cs.zip ls).map relabel, (initD 0 (cs.map (·.label)) []).2⟩ K.length arg.numRows
        (List.replicate K.length true) = .ok (some (ordered, gs)) ∧
      ordered.cols.length = cs.length ∧
      (∀ (j : Nat) (c : FCol V) (o : FCol V), cs[j]? = some c → ordered.cols[j]? = some o → o.vt = c.vt ∧
        arg.numRows ≤ o.data.size ∧ ∀ r, r < arg.numRows → o.data.data r = c.data.data (segs.flatten.getD r 0)) ∧ segs.flatten.length = arg.numRows ∧ (∀ s ∈ segs, s ≠ []) ∧
      aggRanges gs arg.numRows = segRanges 0 segs ∧
      ((arg.numRows : Int) - ((gs.map fun g => (g.2 : Int) - g.1).sum - gs.length)).toNat = segs.length ∧
      IsGrouping arg.numRows (keys.map (·.key ops)) segs := by
    unfold orderStage
    by_cases hk : 0 < K.length
    · rw [if_pos hk]
      have htake : (((cs.zip ls).map relabel).take K.length).map (·.key ops) = keys.map (·.key ops) := by
        apply List.ext_getElem
        · simp [hlslen, hcslen, hKlen]
        · intro i h1 h2
          simp only [List.length_map] at h2
          simp only [List.getElem_map, List.getElem_take, List.getElem_zip]
          have : cs[i]'(by rw [hcslen]; omega) = keys[i] := by
            simp only [hcs]
            rw [List.getElem_append_left h2]
          rw [this]
          rfl
      have hmem : ∀ c ∈ ((cs.zip ls).map relabel).take K.length, ∃ c' ∈ keys, c.vt = c'.vt ∧ c.key ops = c'.key ops := by
        intro c hc
        obtain ⟨i, hi, rfl⟩ := List.mem_iff_getElem.1 hc
        have hi' : i < keys.length := by simp at hi; omega
        refine ⟨keys[i], List.getElem_mem _, ?_⟩
        simp only [List.getElem_take, List.getElem_map, List.getElem_zip]
        have : cs[i]'(by rw [hcslen]; omega) = keys[i] := by
          simp only [hcs]
          rw [List.getElem_append_left hi']
        rw [this]
        exact ⟨rfl, rfl⟩
      obtain ⟨m, segs, gs, h1, h2, h3, h4⟩ := order_ok (ops := ops) (k := K.length) (fuel := fuel)
        (f := ⟨arg.numRows, (cs.zip ls).map relabel, (initD 0 (cs.map (·.label)) []).2⟩) hk (by simp [hlslen, hcslen]) hfuel
        (by
          have : Frame.labels (⟨arg.numRows, (cs.zip ls).map relabel, (initD 0 (cs.map (·.label)) []).2⟩ : Frame V) = ls := by
            simp only [Frame.labels, List.map_map]
            show (cs.zip ls).map (fun p => p.2) = ls
            exact List.map_snd_zip (by omega)
          rw [this]; exact hlsnd)
        (by
          intro c hc
          obtain ⟨c', hc', he, _⟩ := hmem c hc
          rw [he]; exact hfix c' (List.mem_append_left _ hc'))
        (by
          intro c hc
          obtain ⟨c', hc', _, he⟩ := hmem c hc
          rw [he]; exact hklaw c' hc')
      simp only [htake] at h2
      have hlen : segs.flatten.length = arg.numRows := by rw [h2.perm.length_eq]; simp
      refine ⟨_, gs, segs, h1, by simp [hlslen], ?_, hlen, h4, ?_, ?_, ?_⟩
      · intro j c o hc ho
        simp only [List.map_map, List.getElem?_map] at ho
        obtain ⟨p, hp, rfl⟩ := Option.map_eq_some_iff.1 ho
        rw [List.getElem?_zip_eq_some, hc] at hp
        have : c = p.1 := by simpa using hp.1
        subst this
        exact ⟨rfl, by show arg.numRows ≤ arg.numRows + 7; omega, fun r _ => rfl⟩
      · rw [aggRanges_eq]
        have := rangesFrom_rep h3 h4
        rw [Nat.zero_add, hlen] at this
        exact this
      · have := rep_count h3 h4
        rw [hlen] at this
        rw [this]; simp
      · exact h2.isGrouping h4 (by
          intro k hk
          obtain ⟨c, hc, rfl⟩ := List.mem_map.1 hk
          exact hklaw c hc)
    · rw [if_neg hk]
      have hkn : keys = [] := List.length_eq_zero_iff.1 (by omega)
      have hn : 0 < arg.numRows := by
        rcases hrows with h | h
        · exact absurd hkn h
        · exact h
      refine ⟨_, _, [List.range arg.numRows], rfl, by simp [hlslen], ?_, by simp, ?_, ?_, ?_, ?_⟩
      · intro j c o hc ho
        simp only [List.getElem?_map] at ho
        obtain ⟨p, hp, rfl⟩ := Option.map_eq_some_iff.1 ho
        rw [List.getElem?_zip_eq_some, hc] at hp
        have : c = p.1 := by simpa using hp.1
        subst this
        refine ⟨rfl, show arg.numRows ≤ p.1.data.size from hcwf p.1 (List.mem_of_getElem? hc), fun r hr => ?_⟩
        simp [relabel, List.getD_eq_getElem?_getD, hr]
      · intro s hs
        simp only [List.mem_singleton] at hs
        subst hs
        intro h
        have := congrArg List.length h
        simp at this; omega
      · simp [aggRanges, midRanges, segRanges, singles_self]
      · simp only [List.map_cons, List.map_nil, List.sum_cons, List.sum_nil, List.length_cons, List.length_nil]
        omega
      · rw [hkn]
        refine ⟨by simp, ?_, ?_, ?_, by simp⟩
        · intro g hg
          simp only [List.mem_singleton] at hg
          subst hg
          intro h
          have := congrArg List.length h
          simp at this; omega
        · intro g _ a _ b _ p hp; simp at hp
        · intro g hg
          simp only [List.mem_singleton] at hg
          subst hg
          exact List.pairwise_lt_range
  obtain ⟨ordered, gs, segs, hst, hol, hocol, hsl, hsne, hranges, hnum, hgrp⟩ := hstage
  obtain ⟨res, hfin, hr1, hr2, hr3, hr4, hr5, hr6⟩ := finish_ok (ops := ops) (n := arg.numRows) (cs := cs) (fns := fns)
    (labels := labels) (ordered := ordered) (segs := segs) (gs := gs) (junk := junk) hfl hll hres hol hocol hsl hsne hranges hnum
    hfix hsup' hlaw'
  refine ⟨res, segs, ?_, hgrp, hr1, hr2, ?_, hr4, hr5, ?_, ?_⟩
  · unfold group
    simp only [← haggCols]
    rw [numColsRes_eq hstar]
    have hKdef : (if (starLabels arg.labels aggCols keyCols).length = 0 then keyCols else starLabels arg.labels aggCols keyCols) = K := rfl
    rw [hKdef, ← hK, hki, Res.ok_bind, if_neg (by omega)]
    unfold fillAscending
    rw [if_pos hasc, Res.ok_bind, Nat.add_sub_cancel_left, List.take_of_length_le (by simp [haggCols]), hai, Res.ok_bind, hsub,
      Res.ok_bind, hst, Res.ok_bind]
    exact hfin
  · rw [hr3, hzip, List.map_append]
    congr 1
    · apply List.ext_getElem
      · simp [hKlen]
      · intro i h1 h2; simp
    · rw [List.zip_map_right, List.map_map]
      refine List.map_congr_left fun p _ => ?_
      show GFn.resType p.1.vt p.2.2 = AggType p.1.vt p.2.2
      cases p.2.2 <;> rfl
  · intro j c hc g rows hg
    have hj : j < keys.length := (List.getElem?_eq_some_iff.1 hc).1
    obtain ⟨v, hv, hv'⟩ := hr6 j c none (by rw [hcs, List.getElem?_append_left hj]; exact hc) (by
      rw [hfns, List.getElem?_append_left (by simp; omega)]
      simp [show j < K.length by omega]) g rows hg
    rw [hv, ← hv']
  · intro j c l f hc hf g rows hg
    exact hr6 (keys.length + j) c (some f) (by
        rw [hcs, List.getElem?_append_right (by omega), Nat.add_sub_cancel_left]; exact hc) (by
        rw [hfns, List.getElem?_append_right (by simp; omega)]
        simp [hKlen, hf]) g rows hg

/-! ## Meaning of `*` and `f.*` -/

theorem takeWhile_append_dot {l r : List Char} (h : '.' ∉ l) : (l ++ '.' :: r).takeWhile (· ≠ '.') = l := by
  induction l with
  | nil => simp
  | cons a l ih =>
    simp only [List.mem_cons, not_or] at h
    have ha : decide (a ≠ '.') = true := by simpa using fun h' => h.1 h'.symm
    rw [List.cons_append, List.takeWhile_cons, ha, if_pos rfl, ih h.2]

theorem dropWhile_append_dot {l r : List Char} (h : '.' ∉ l) : (l ++ '.' :: r).dropWhile (· ≠ '.') = '.' :: r := by
  induction l with
  | nil => simp
  | cons a l ih =>
    simp only [List.mem_cons, not_or] at h
    have ha : decide (a ≠ '.') = true := by simpa using fun h' => h.1 h'.symm
    rw [List.cons_append, List.dropWhile_cons, ha, if_pos rfl, ih h.2]

theorem split_dot (l : List Char) : '.' ∉ l ∨ ∃ a b, l = a ++ '.' :: b ∧ '.' ∉ a := by
  induction l with
  | nil => simp
  | cons c l ih =>
    by_cases hc : c = '.'
    · subst hc; exact .inr ⟨[], l, rfl, by simp⟩
    · rcases ih with h | ⟨a, b, rfl, h⟩
      · exact .inl (by simp [h]; exact fun h' => hc h'.symm)
      · exact .inr ⟨c :: a, b, rfl, by simp [h]; exact fun h' => hc h'.symm⟩

theorem no_dot_takeWhile {l : List Char} (h : '.' ∉ l) : l.takeWhile (· ≠ '.') = l ∧ l.dropWhile (· ≠ '.') = [] := by
  induction l with
  | nil => simp
  | cons a l ih =>
    simp only [List.mem_cons, not_or] at h
    have ha : decide (a ≠ '.') = true := by simpa using fun h' => h.1 h'.symm
    rw [List.takeWhile_cons, List.dropWhile_cons, ha, if_pos rfl, if_pos rfl, (ih h.2).1, (ih h.2).2]
    exact ⟨rfl, rfl⟩

/-- The part of a label before its first dot is `f` (a name without dots) if the label is `f` or `f.…`. -/
theorem framePart_eq_iff {f : String} (hf : '.' ∉ f.toList) (l : String) : framePart l = f ↔ l = f ∨ ∃ c, l = f ++ "." ++ c := by
  unfold framePart
  constructor
  · intro h
    rcases split_dot l.toList with hl | ⟨a, b, hab, ha⟩
    · rw [(no_dot_takeWhile hl).1, String.ofList_toList] at h
      exact .inl h
    · rw [hab, takeWhile_append_dot ha] at h
      right
      refine ⟨String.ofList b, ?_⟩
      apply String.toList_injective
      rw [hab, ← h]
      simp
  · rintro (rfl | ⟨c, rfl⟩)
    · rw [(no_dot_takeWhile hf).1, String.ofList_toList]
    · simp only [String.toList_append]
      rw [show f.toList ++ ".".toList ++ c.toList = f.toList ++ '.' :: c.toList by simp, takeWhile_append_dot hf,
        String.ofList_toList]

/-- **Key labels.** `*` stands for all columns that are not aggregated, `f.*` for all columns whose label is `f` or begins with
    `f.`; any other key label is ordinary and stands for itself. -/
theorem C66_star_expansion (argLabels aggCols : List String) :
    starOf argLabels aggCols "*" = some (argLabels.filter fun l => decide (l ∉ aggCols)) ∧
    (∀ f : String, '.' ∉ f.toList → ∃ ls, starOf argLabels aggCols (f ++ ".*") = some ls ∧ ls.Sublist argLabels ∧
      ∀ l, l ∈ ls ↔ l ∈ argLabels ∧ (l = f ∨ ∃ c, l = f ++ "." ++ c)) ∧
    (∀ k, k ≠ "*" → (∀ f : String, '.' ∉ f.toList → k ≠ f ++ ".*") → starOf argLabels aggCols k = none) := by
  refine ⟨?_, ?_, ?_⟩
  · simp [starOf]
  · intro f hf
    have hk : (f ++ ".*").toList = f.toList ++ '.' :: ['*'] := by simp
    have hne : f ++ ".*" ≠ "*" := by
      intro h
      have := congrArg (fun s => s.toList.length) h
      simp at this
    have hcol : colPart (f ++ ".*") = "*" := by
      unfold colPart
      rw [hk, dropWhile_append_dot hf]
    have hframe : framePart (f ++ ".*") = f := by
      unfold framePart
      rw [hk, takeWhile_append_dot hf, String.ofList_toList]
    unfold starOf
    rw [if_neg hne, if_pos hcol, hframe]
    refine ⟨_, rfl, List.filter_sublist, ?_⟩
    intro l
    rw [List.mem_filter, decide_eq_true_eq, eq_comm, framePart_eq_iff hf]
  · intro k hk hf
    unfold starOf
    rw [if_neg hk, if_neg]
    intro hc
    unfold colPart at hc
    rcases split_dot k.toList with hl | ⟨a, b, hab, ha⟩
    · rw [(no_dot_takeWhile hl).2] at hc
      exact hk hc
    · rw [hab, dropWhile_append_dot ha] at hc
      have hb : b = ['*'] := by
        have := congrArg String.toList hc
        simpa using this
      refine hf (String.ofList a) (by simpa using ha) ?_
      apply String.toList_injective
      rw [hab, hb]
      simp

/-! ## Failures (C67) -/

/-- Grouping by ordinary (not `*` or `f.*`) existing columns writes past the end of the array `ascending`, which has
    `starLabels.size() == 0` elements. -/
theorem C67_group_heap_overflow_partial (ops : Ops V) (arg : Frame V) (keyCols : List String) (aggs : List (String × GFn))
    (junk : Nat → Nat → V) (keys : List (FCol V)) (fuel : Nat) (hlab : arg.LabelsOK) (hne : keyCols ≠ [])
    (hord : ∀ k ∈ keyCols, starOf arg.labels (aggs.map (·.1)) k = none) (hkeys : ColumnsFor arg keyCols keys) :
    Res.IsUB (group ops (fun k => k) fuel arg keyCols aggs junk) := by
  have hstar : starLabels arg.labels (aggs.map (·.1)) keyCols = [] := by
    unfold starLabels
    rw [List.flatMap_eq_nil_iff]
    intro k hk
    rw [hord k hk]; rfl
  have hany : (keyCols.any fun k => (starOf arg.labels (aggs.map (·.1)) k).isSome) = false := by
    rw [List.any_eq_false]
    intro k hk
    rw [hord k hk]; simp
  obtain ⟨ki, hki, _⟩ := columnsFor_idxs hlab hkeys
  refine ⟨"ascending[i] out of bounds", ?_⟩
  unfold group
  simp only [hstar, hany, List.length_nil, if_true, hki, Res.ok_bind, Bool.false_eq_true, if_false]
  rw [if_neg (by omega)]
  have : 0 < keyCols.length := List.length_pos_iff.2 hne
  unfold fillAscending
  rw [if_neg (by omega)]
  rfl

/-- SUM, AVG and COUNT over strings do not fail but yield the first string of the group (COUNT only if the result type is
    also a string, which `group` never requests). -/
theorem C67_group_sum_of_strings_partial (ops : Ops V) (v : V) (vs : List V) :
    aggregate ops (some .sum) (GFn.resType .str .sum) .str (v :: vs) = .ok v := rfl

/-- MIN (or MAX) over all rows (no grouping) of a frame with no rows dereferences the end iterator. -/
theorem C67_group_min_of_nothing_partial (ops : Ops V) (usable : Nat → Nat) (arg : Frame V) (l : String) (f : GFn)
    (hf : f = .min ∨ f = .max) (junk : Nat → Nat → V) (c : FCol V) (hlab : arg.LabelsOK) (h0 : arg.numRows = 0)
    (hc : c ∈ arg.cols) (hl : c.label = l) (hfix : c.vt ≠ .fixedStr16) (fuel : Nat) :
    Res.IsUB (group ops usable fuel arg [] [(l, f)] junk) := by
  obtain ⟨ai, hai, hai'⟩ := columnsFor_idxs hlab (show ColumnsFor arg [l] [c] from .cons ⟨hc, hl⟩ .nil)
  have hsub := sub_full (f := arg) (idxs := ai) (cs := [c]) hai'
  refine ⟨"dereference of the end iterator", ?_⟩
  unfold group
  have hstar : starLabels arg.labels ([(l, f)].map (·.1)) [] = [] := rfl
  simp only [hstar, List.any_nil, Bool.false_eq_true, if_false, List.length_nil, if_true, List.length_cons,
    List.mapM_nil, List.nil_append]
  rw [show (pure [] : Res (List Nat)) = .ok [] from rfl, Res.ok_bind, if_neg (by omega)]
  unfold fillAscending
  rw [if_pos (by omega), Res.ok_bind]
  simp only [List.map_cons, List.map_nil, Nat.zero_add, Nat.sub_zero, List.take_succ_cons, List.take_zero, hai, Res.ok_bind]
  rw [List.nil_append, hsub, Res.ok_bind]
  have hst : ∀ r : Frame V, orderStage ops fuel r 0 arg.numRows (List.replicate 0 true) = .ok (some (r, [(0, arg.numRows)])) := fun _ => rfl
  rw [hst, Res.ok_bind]
  obtain ⟨vt, lab, dat⟩ := c
  simp only [h0]
  rcases hf with rfl | rfl <;> cases vt <;> first | rfl | exact absurd rfl hfix

/-- Grouping by the column with the default label `col_1` and aggregating that same column throws (the duplicate column is
    given the label `col_1` again), whatever the allocator does. -/
theorem C67_group_default_label_partial (ops : Ops V) (usable : Nat → Nat) (arg : Frame V) (f : GFn) (junk : Nat → Nat → V)
    (c : FCol V) (hlab : arg.LabelsOK) (hc : c ∈ arg.cols) (hl : c.label = defaultLabel 1) (hfix : c.vt ≠ .fixedStr16)
    (hlaw : (c.key ops).Lawful) (hu : 1 ≤ usable 0) (fuel : Nat) (hf : arg.numRows ≤ fuel) :
    Res.Throws (group ops usable fuel arg [defaultLabel 1] [(defaultLabel 1, f)] junk) := by
  have hso : starOf arg.labels ([(defaultLabel 1, f)].map (·.1)) (defaultLabel 1) = none := by
    unfold starOf
    rw [if_neg (by decide), if_neg (by decide)]
  have hstar : starLabels arg.labels ([(defaultLabel 1, f)].map (·.1)) [defaultLabel 1] = [] := by
    simp only [starLabels, List.flatMap_cons, List.flatMap_nil, hso]; rfl
  obtain ⟨ai, hai, hai'⟩ := columnsFor_idxs hlab (show ColumnsFor arg [defaultLabel 1] [c] from .cons ⟨hc, hl⟩ .nil)
  have hsub := sub_full (f := arg) (idxs := ai ++ ai) (cs := [c, c]) (by rw [List.map_append, hai']; rfl)
  have hd : initD 0 ([c, c].map (·.label)) [] =
      ([defaultLabel 1, defaultLabel 1], [(defaultLabel 1, 1), (defaultLabel 1, 0)]) := by
    simp [initD, hl, lookupLabel, List.lookup]
  rw [hd] at hsub
  have hord : Res.Throws (Frame.order ops fuel ⟨arg.numRows, ([c, c].zip [defaultLabel 1, defaultLabel 1]).map relabel,
      [(defaultLabel 1, 1), (defaultLabel 1, 0)]⟩ (List.range 1) (List.replicate 1 true) true) := by
    obtain ⟨idx, gs, h1, segs, h2, h3, _, _⟩ := orderIdx_good arg.numRows fuel hf [(c.key ops, true)] (by simp)
      (by intro p hp; simp at hp; subst hp; exact hlaw) true
    unfold Frame.order
    simp only [show List.range 1 = [0] from rfl, List.filterMap_cons, List.zip_cons_cons, List.zip_nil_right, List.map_cons,
      List.map_nil, List.getElem?_cons_zero, List.filterMap_nil, List.any_cons, List.any_nil, Bool.or_false, decide_eq_true_eq]
    rw [if_neg (show ¬ (relabel (c, defaultLabel 1)).vt = .fixedStr16 from hfix)]
    have h1' : orderIdx fuel arg.numRows [((relabel (c, defaultLabel 1)).key ops, true)] true = .ok (some (idx, gs)) := h1
    simp only [List.replicate_one, List.zip_cons_cons, List.zip_nil_right, h1', Res.ok_bind]
    refine Res.throws_bind ?_
    unfold Frame.extractRow
    rw [if_neg (by
      simp only [List.any_eq_true, decide_eq_true_eq, not_exists, not_and]
      intro i hi
      rw [h3] at hi
      have := h2.perm.mem_iff.1 hi
      simp at this
      omega)]
    refine Res.throws_bind ?_
    exact (initL_iff _).2 (by simp [Frame.labels, relabel])
  unfold group
  simp only [hstar, List.any_cons, List.any_nil, hso, Option.isSome_none, Bool.or_false, Bool.false_eq_true, if_false,
    List.length_nil, if_true, hai, Res.ok_bind, List.length_cons]
  rw [if_neg (by omega)]
  unfold fillAscending
  rw [if_pos (by omega), Res.ok_bind]
  simp only [Nat.zero_add, Nat.add_sub_cancel_left, List.map_cons, List.map_nil, List.take_succ_cons, List.take_zero, hai, Res.ok_bind, hsub]
  unfold orderStage
  rw [if_pos (by omega)]
  exact Res.throws_bind hord

/-! ## Examples -/

/-- Cells as integers. -/
def intOps : Ops Int where
  lt := fun _ a b => decide (a < b)
  ne := fun _ a b => decide (a ≠ b)
  ofCount := fun n => n
  zero := fun _ => 0
  add := fun _ a b => a + b
  addD := fun _ a b => a + b
  zeroD := 0
  divD := fun a n => a / n

theorem intOps_lawful (c : FCol Int) : (c.key intOps).Lawful where
  irrefl := fun (a : Int) => decide_eq_false (Int.lt_irrefl a)
  trans := by
    intro (a : Int) (b : Int) (c : Int) h h'
    exact decide_eq_true (Int.lt_trans (of_decide_eq_true h) (of_decide_eq_true h'))
  ntrans := by
    intro (a : Int) (b : Int) (c : Int) h h'
    have h1 := of_decide_eq_false h
    have h2 := of_decide_eq_false h'
    exact decide_eq_false (fun h3 : a < c => by omega)
  ne_iff := by
    intro (a : Int) (b : Int)
    show decide (a ≠ b) = false ↔ decide (a < b) = false ∧ decide (b < a) = false
    simp only [decide_eq_false_iff_not]
    omega

/-- Three rows, two columns. -/
def exF : Frame Int := ⟨3, [⟨.si64, "f.k", Buf.ofList [7, 3, 7]⟩, ⟨.si64, "f.v", Buf.ofList [1, 2, 4]⟩], [("f.v", 1), ("f.k", 0)]⟩

theorem exF_labels : exF.LabelsOK := by
  refine labelsOK_of_map ?_
  intro l i
  by_cases h1 : l = "f.v"
  · subst h1
    match i with
    | 0 => decide
    | 1 => decide
    | i + 2 => simp [exF, Frame.labels, lookupLabel, List.lookup]
  · by_cases h2 : l = "f.k"
    · subst h2
      match i with
      | 0 => decide
      | 1 => decide
      | i + 2 => simp [exF, Frame.labels, lookupLabel, List.lookup]
    · have e1 : (l == "f.v") = false := by simpa using h1
      have e2 : (l == "f.k") = false := by simpa using h2
      match i with
      | 0 => simp [exF, Frame.labels, lookupLabel, List.lookup, e1, e2]; exact fun h => h2 h.symm
      | 1 => simp [exF, Frame.labels, lookupLabel, List.lookup, e1, e2]; exact fun h => h1 h.symm
      | i + 2 => simp [exF, Frame.labels, lookupLabel, List.lookup, e1, e2]

/-- `exF` grouped by `f.k`, with SUM and MAX of `f.v`, meets the hypotheses of `C66_group_by`. -/
example : ∃ (res : Frame Int) (groups : List (List Nat)),
    group intOps (fun k => k + 24) 3 exF ["f.k"] [("f.v", .sum), ("f.v", .max)] (fun _ _ => 0) = .ok (some res) ∧
      IsGrouping 3 ([⟨.si64, "f.k", Buf.ofList [7, 3, 7]⟩].map (fun c : FCol Int => c.key intOps)) groups ∧
      res.labels = ["f.k", "SUM(f.v)", "MAX(f.v)"] := by
  obtain ⟨res, groups, h1, h2, _, h3, _⟩ := C66_group_by intOps (fun k => k + 24) exF ["f.k"] [("f.v", .sum), ("f.v", .max)] (fun _ _ => 0)
    [⟨.si64, "f.k", Buf.ofList [7, 3, 7]⟩] [⟨.si64, "f.v", Buf.ofList [1, 2, 4]⟩, ⟨.si64, "f.v", Buf.ofList [1, 2, 4]⟩]
    (by intro c hc; simp [exF] at hc; rcases hc with rfl | rfl <;> simp [exF, Buf.ofList])
    exF_labels (by
      rintro ⟨k, hk, h⟩
      simp only [List.mem_singleton] at hk
      subst hk
      exact absurd h (by decide))
    (by
      have : effKeys exF.labels ([("f.v", GFn.sum), ("f.v", .max)].map (·.1)) ["f.k"] = ["f.k"] := by decide
      rw [this]
      exact .cons ⟨by simp [exF], rfl⟩ .nil)
    (.cons ⟨by simp [exF], rfl⟩ (.cons ⟨by simp [exF], rfl⟩ .nil))
    (by intro c hc; simp at hc; rcases hc with rfl | rfl | rfl <;> simp)
    (by intro p hp _; simp at hp; rcases hp with rfl | rfl <;> simp)
    (fun c _ => intOps_lawful c) (fun p _ _ => intOps_lawful p.1)
    (by decide +kernel) (.inr (by
      have : effKeys exF.labels ([("f.v", GFn.sum), ("f.v", .max)].map (·.1)) ["f.k"] = ["f.k"] := by decide
      rw [this]
      intro l hl k hk
      have h0 := congrArg (fun s => s.toList.head?) hk
      simp [defaultLabel] at h0 hl
      rcases hl with rfl | rfl <;> simp at h0))
    (by decide) (.inl (by simp)) 3 (by simp [exF])
  refine ⟨res, groups, h1, h2, ?_⟩
  rw [h3]; decide +kernel

end Verif.Rel
