/-
  Inferred frame labels are the labels at run time (C226), and where they are not (C227-C229).
-/
import Verif.Labels.Kernels
import Verif.Rel.GroupThms

namespace Verif.Labels
open Verif Verif.Rel Verif.Ir Verif.Res
variable {V : Type}

theorem starOf_of_wild {argLabels aggCols : List String} {k : String} (h : WildKey k) :
    (starOf argLabels aggCols k).isSome ∧ (k ≠ "*" → colPart k = "*") := by
  rcases h with rfl | ⟨p, rfl, hp⟩
  · exact ⟨by simp [starOf], fun h => absurd rfl h⟩
  · have hcol : colPart (p ++ ".*") = "*" := by
      unfold colPart
      rw [show (p ++ ".*").toList = p.toList ++ '.' :: ['*'] by simp, dropWhile_append_dot hp]
    refine ⟨?_, fun _ => hcol⟩
    unfold starOf
    by_cases he : p ++ ".*" = "*"
    · simp [he]
    · simp [he, hcol]

theorem starOf_of_not_wild {argLabels aggCols : List String} {k : String} (h : ¬ WildKey k) : k ≠ "*" ∧ colPart k ≠ "*" := by
  refine ⟨fun he => h (.inl he), fun hc => h ?_⟩
  by_cases hk : k = "*"
  · exact .inl hk
  · by_contra hno
    have := (C66_star_expansion argLabels aggCols).2.2 k hk (fun f hf he => hno (.inr ⟨f, he, hf⟩))
    unfold starOf at this
    rw [if_neg hk, if_pos hc] at this
    cases this

/-- No wildcard among the keys: nothing to expand. -/
theorem plain_keys {ls : List String} {keyCols : List String} {aggCols : List String} (h : ∀ k ∈ keyCols, ¬ WildKey k) :
    starLabels ls aggCols keyCols = [] ∧ (keyCols.any fun k => (starOf ls aggCols k).isSome) = false := by
  have hno : ∀ k ∈ keyCols, starOf ls aggCols k = none := by
    intro k hk
    have := starOf_of_not_wild (argLabels := ls) (aggCols := aggCols) (h k hk)
    unfold starOf
    rw [if_neg this.1, if_neg this.2]
  constructor
  · unfold starLabels
    rw [List.flatMap_eq_nil_iff]
    intro k hk
    rw [hno k hk]; rfl
  · rw [List.any_eq_false]
    intro k hk
    rw [hno k hk]; simp

theorem mapM_infer_plain {src : Option (List String)} : ∀ {keyCols : List String}, (∀ k ∈ keyCols, ¬ WildKey k) →
    keyCols.mapM (inferGroupKey src) = .ok (keyCols.map fun k => [k]) := by
  intro keyCols
  induction keyCols with
  | nil => intro _; rfl
  | cons k ks ih =>
    intro h
    have hk := starOf_of_not_wild (argLabels := []) (aggCols := []) (h k (by simp))
    rw [List.mapM_cons, ih fun x hx => h x (by simp [hx])]
    unfold inferGroupKey
    rw [if_neg hk.1, if_neg hk.2]
    rfl

theorem mapM_infer_wild {ls aggCols : List String} : ∀ {keyCols : List String}, (∀ k ∈ keyCols, WildKey k) →
    ("*" ∈ keyCols → ∀ x ∈ aggCols, x ∉ ls) →
    keyCols.mapM (inferGroupKey (some ls)) = .ok (keyCols.map fun k => (starOf ls aggCols k).getD []) := by
  intro keyCols
  induction keyCols with
  | nil => intro _ _; rfl
  | cons k ks ih =>
    intro h hs
    have hk := (starOf_of_wild (argLabels := ls) (aggCols := aggCols) (h k (by simp))).2
    rw [List.mapM_cons, ih (fun x hx => h x (by simp [hx])) (fun hx => hs (by simp [hx]))]
    have : inferGroupKey (some ls) k = .ok ((starOf ls aggCols k).getD []) := by
      unfold inferGroupKey starOf
      by_cases he : k = "*"
      · rw [if_pos he, if_pos he]
        simp only [deref, Option.getD_some, Except.ok.injEq]
        symm
        rw [List.filter_eq_self]
        intro a ha
        simp only [Bool.not_eq_true', List.contains_eq_mem, decide_eq_false_iff_not]
        exact fun hm => hs (by simp [he]) a hm ha
      · rw [if_neg he, if_neg he, if_pos (hk he), if_pos (hk he)]
        simp only [deref, Res.ok_bind, Option.getD_some, Except.ok.injEq]
        refine List.filter_congr fun a _ => ?_
        simp [eq_comm]
    rw [this]
    rfl

theorem flatten_singletons {α : Type} (l : List α) : (l.map fun k => [k]).flatten = l := by
  induction l with
  | nil => rfl
  | cons k ks ih => simp [ih]

theorem group_agree {ops : Ops V} {usable : Nat → Nat} {fuel : Nat} {f : Frame V} {keyCols : List String} {aggs : List (String × GFn)}
    {junk : Nat → Nat → V} {src known : Option (List String)} (hf : f.LabelsOK) (hs : Agree src f.labels)
    (hp : (∀ k ∈ keyCols, ¬ WildKey k) ∨ ((∀ k ∈ keyCols, WildKey k) ∧ ("*" ∈ keyCols → ∀ ls, src = some ls → ∀ x ∈ aggs, x.1 ∉ ls)))
    (hi : inferGroup src keyCols aggs = .ok known) :
    Post (Rel.group ops usable fuel f keyCols aggs junk) fun o => ∀ g, o = some g → g.LabelsOK ∧ Agree known g.labels := by
  -- grouping without wildcards
  have plain : (∀ k ∈ keyCols, ¬ WildKey k) → Post (Rel.group ops usable fuel f keyCols aggs junk) fun o => ∀ g, o = some g →
      g.LabelsOK ∧ Agree known g.labels := by
    intro hp
    have hstar := plain_keys (ls := f.labels) (aggCols := aggs.map (·.1)) hp
    refine post_mono (group_post (ks := keyCols) (by rw [hstar.1]; rfl) (fun _ => by rw [hstar.2]; simp) hf) fun o ho g hg => ?_
    obtain ⟨⟨h1, h2⟩, -⟩ := ho g hg
    refine ⟨h2, ?_⟩
    unfold inferGroup at hi
    rw [mapM_infer_plain hp] at hi
    cases hi
    rintro ls ⟨⟩
    rw [h1]
    congr 1
    exact flatten_singletons keyCols
  rcases hp with hp | ⟨hp, hstar⟩
  · exact plain hp
  · by_cases hk : keyCols = []
    · subst hk; exact plain (by simp)
    · -- the labels are known, as some wildcard was expanded
      cases src with
      | none =>
        exfalso
        obtain ⟨k, ks, rfl⟩ := List.exists_cons_of_ne_nil hk
        have hw := (starOf_of_wild (argLabels := []) (aggCols := []) (hp k (by simp))).2
        unfold inferGroup at hi
        rw [List.mapM_cons] at hi
        have : inferGroupKey none k = .error (.ub "labels of the frame are a null pointer") := by
          unfold inferGroupKey
          by_cases he : k = "*"
          · rw [if_pos he]; rfl
          · rw [if_neg he, if_pos (hw he)]; rfl
        rw [this] at hi
        cases hi
      | some ls =>
        have hls : ls = f.labels := hs ls rfl
        subst hls
        have hns : "*" ∈ keyCols → ∀ x ∈ aggs.map (·.1), x ∉ f.labels := by
          intro h x hx
          obtain ⟨a, ha, rfl⟩ := List.mem_map.1 hx
          exact hstar h _ rfl a ha
        have hany : (keyCols.any fun k => (starOf f.labels (aggs.map (·.1)) k).isSome) = true := by
          rw [List.any_eq_true]
          obtain ⟨k, ks, rfl⟩ := List.exists_cons_of_ne_nil hk
          exact ⟨k, by simp, (starOf_of_wild (hp k (by simp))).1⟩
        -- a wildcard that is also a label stands at least for this label
        have hne : (∀ k ∈ keyCols, k ∈ f.labels) → starLabels f.labels (aggs.map (·.1)) keyCols ≠ [] := by
          intro hmem hnil
          unfold starLabels at hnil
          rw [List.flatMap_eq_nil_iff] at hnil
          obtain ⟨k, ks, rfl⟩ := List.exists_cons_of_ne_nil hk
          have h0 := hnil k (by simp)
          have hkm := hmem k (by simp)
          unfold starOf at h0
          by_cases he : k = "*"
          · rw [if_pos he, Option.getD_some, List.filter_eq_nil_iff] at h0
            have := h0 k hkm
            simp only [Bool.not_eq_true', List.contains_eq_mem, decide_eq_false_iff_not, not_not] at this
            exact hns (by simp [he]) k this hkm
          · rw [if_neg he, if_pos ((starOf_of_wild (argLabels := []) (aggCols := []) (hp k (by simp))).2 he), Option.getD_some, List.filter_eq_nil_iff] at h0
            exact h0 k hkm (by simp)
        refine post_mono (group_post (ks := if (starLabels f.labels (aggs.map (·.1)) keyCols).length = 0 then keyCols else starLabels f.labels (aggs.map (·.1)) keyCols)
          rfl (fun hmem => ?_) hf) fun o ho g hg => ?_
        · rw [hany, if_pos rfl]
          by_cases h0 : (starLabels f.labels (aggs.map (·.1)) keyCols).length = 0
          · rw [if_pos h0] at hmem
            exact absurd (List.length_eq_zero_iff.1 h0) (hne hmem)
          · rw [if_neg h0]
        · obtain ⟨⟨h1, h2⟩, h3⟩ := ho g hg
          refine ⟨h2, ?_⟩
          unfold inferGroup at hi
          rw [mapM_infer_wild (aggCols := aggs.map (·.1)) hp hns] at hi
          cases hi
          rintro ls ⟨⟩
          by_cases h0 : (starLabels f.labels (aggs.map (·.1)) keyCols).length = 0
          · rw [if_pos h0] at h3
            exact absurd (List.length_eq_zero_iff.1 h0) (hne h3)
          · rw [h1, if_neg h0]
            rfl

theorem inferSetColLabels_agree : ∀ (ls : List LabelArg) (acc known : Option (List String)) (pre : List String), Agree acc pre →
    inferSetColLabelsLoop (ls.map (·.known)) acc = .ok known → Agree known (pre ++ ls.map (·.value)) := by
  intro ls
  induction ls with
  | nil => intro acc known pre ha h; cases h; simpa using ha
  | cons l ls ih =>
    intro acc known pre ha h
    cases l with
    | const l =>
      cases acc with
      | none => cases h
      | some acc =>
        have := ih (some (acc ++ [l])) known (pre ++ [l]) (by rintro _ ⟨⟩; rw [ha acc rfl]) h
        simpa [LabelArg.value] using this
    | computed l =>
      have := ih none known (pre ++ [l]) (by rintro _ ⟨⟩) h
      simpa [LabelArg.value] using this

/-- **C226.** Column labels: whatever frame a program computes, if the compiler inferred labels for it, then the frame has exactly these
labels. This holds for all programs of frame operations (`FExpr.Plain` leaves out those of C227 and C228), all contents of the frames, all
orders in which hash tables are traversed and all contents of fresh memory, provided that what the compiler knows of the frames from
outside (`leaf`) is right. -/
theorem C226_inferred_labels [DecidableEq V] (rt : Rt V) (env : Nat → Frame V) (tenv : Nat → Option (List String))
    (henv : ∀ i, (env i).LabelsOK ∧ Agree (tenv i) (env i).labels) (e : FExpr V) (hp : e.Plain tenv) (known : Option (List String)) (g : Frame V)
    (hi : e.infer tenv = .ok known) (hr : e.run rt env = .ok g) : g.LabelsOK ∧ ∀ ls, known = some ls → g.labels = ls := by
  have key : ∀ e : FExpr V, e.Plain tenv → ∀ known, e.infer tenv = .ok known → Post (e.run rt env) fun g => g.LabelsOK ∧ Agree known g.labels := by
    have split : ∀ {α β : Type} {r : Res α} {f : α → Res β} {b : β}, (r >>= f) = .ok b → ∃ a, r = .ok a ∧ f a = .ok b := by
      intro α β r f b h
      cases r with
      | error e => cases h
      | ok a => exact ⟨a, rfl, h⟩
    intro e
    induction e with
    | leaf i =>
      rintro - known ⟨⟩
      exact post_ok (henv i)
    | createFrame ms ls =>
      rintro hp known ⟨⟩
      refine post_mono (ofMats_post hp) fun g hg => ⟨hg.2, ?_⟩
      rintro _ ⟨⟩
      exact hg.1.symm
    | cbind a b iha ihb =>
      rintro hp known h
      obtain ⟨s, hs, h⟩ := split h
      obtain ⟨t, ht, h⟩ := split h
      refine post_bind (iha hp.1 s hs) fun f hf => post_bind (ihb hp.2 t ht) fun g hg => post_mono bind_post fun r hr => ⟨hr.2, ?_⟩
      unfold inferCbind at h
      match s, t, h with
      | some l, some r', h =>
        cases h
        rintro _ ⟨⟩
        rw [hr.1, hf.2 l rfl, hg.2 r' rfl]
    | extractCol a sel ih =>
      rintro hp known h
      obtain ⟨s, hs, h⟩ := split h
      refine post_bind (ih hp s hs) fun f hf => post_mono (extractLabel_post hf.1 sel) fun g hg => ⟨hg.2, ?_⟩
      unfold inferExtractCol at h
      cases hw : wild sel with
      | false =>
        rw [hw] at h
        cases h
        rintro _ ⟨⟩
        rw [hg.1, hw]
        rfl
      | true =>
        rw [hw] at h
        rw [if_pos rfl] at h
        obtain ⟨ls, hls, h⟩ := split h
        cases h
        cases s with
        | none => cases hls
        | some l =>
          cases hls
          rintro _ ⟨⟩
          rw [hg.1, hw, ← hf.2 _ rfl]
          rfl
    | extractRow a rows ih =>
      rintro hp known h
      obtain ⟨s, hs, h⟩ := split h
      cases h
      refine post_bind (ih hp _ hs) fun f hf => post_mono extractRow_post fun g hg => ⟨hg.2, ?_⟩
      rw [hg.1]; exact hf.2
    | order a cols asc ih =>
      rintro hp known h
      obtain ⟨s, hs, h⟩ := split h
      cases h
      refine post_bind (ih hp _ hs) fun f hf => post_bind (arrived_post order_post) fun r hr => post_ok ⟨hr.2, ?_⟩
      rw [hr.1]; exact hf.2
    | cartesian a b iha ihb =>
      rintro hp known h
      obtain ⟨s, hs, h⟩ := split h
      obtain ⟨t, ht, h⟩ := split h
      cases h
      refine post_bind (iha hp.1 s hs) fun f hf => post_bind (ihb hp.2.1 t ht) fun g hg => post_mono cartesian_post fun r hr => ⟨hr.2, ?_⟩
      rintro _ ⟨⟩
      cases s with
      | none => exact absurd hs hp.2.2.1
      | some l =>
        cases t with
        | none => exact absurd ht hp.2.2.2
        | some r' => rw [hr.1, hf.2 l rfl, hg.2 r' rfl]; rfl
    | innerJoin a b lo ro iha ihb =>
      rintro hp known h
      obtain ⟨s, hs, h⟩ := split h
      obtain ⟨t, ht, h⟩ := split h
      cases h
      refine post_bind (iha hp.1 s hs) fun f hf => post_bind (ihb hp.2.1 t ht) fun g hg => post_mono innerJoin_post fun r hr => ⟨hr.2, ?_⟩
      rintro _ ⟨⟩
      cases s with
      | none => exact absurd hs hp.2.2.1
      | some l =>
        cases t with
        | none => exact absurd ht hp.2.2.2
        | some r' => rw [hr.1, hf.2 l rfl, hg.2 r' rfl]; rfl
    | thetaJoin a b conds iha ihb =>
      rintro hp known h
      obtain ⟨s, hs, h⟩ := split h
      obtain ⟨t, ht, h⟩ := split h
      refine post_bind (iha hp.1 s hs) fun f hf => post_bind (ihb hp.2 t ht) fun g hg => post_mono thetaJoin_post fun r hr => ⟨hr.2, ?_⟩
      unfold inferThetaJoin at h
      cases s with
      | none => cases h; rintro _ ⟨⟩
      | some l =>
        cases t with
        | none => cases h; rintro _ ⟨⟩
        | some r' =>
          cases h
          rintro _ ⟨⟩
          rw [hr.1, hf.2 l rfl, hg.2 r' rfl]
    | semiJoin a b lo ro iha ihb =>
      rintro hp known h
      obtain ⟨s, hs, h⟩ := split h
      obtain ⟨t, ht, h⟩ := split h
      cases h
      refine post_bind (iha hp.1 s hs) fun f hf => post_bind (ihb hp.2 t ht) fun g hg => post_bind semiJoin_post fun r hr => post_ok ⟨hr.2, ?_⟩
      rintro _ ⟨⟩
      exact hr.1.symm
    | groupJoin a b lo ro ra iha ihb =>
      rintro hp known h
      obtain ⟨s, hs, h⟩ := split h
      obtain ⟨t, ht, h⟩ := split h
      cases h
      refine post_bind (iha hp.1 s hs) fun f hf => post_bind (ihb hp.2 t ht) fun g hg => post_bind groupJoin_post fun r hr => post_ok ⟨hr.2, ?_⟩
      rintro _ ⟨⟩
      exact hr.1.symm
    | group a keyCols aggs ih =>
      rintro hp known h
      obtain ⟨s, hs, h⟩ := split h
      refine post_bind (ih hp.1 s hs) fun f hf => arrived_post (group_agree hf.1 hf.2 ?_ h)
      rcases hp.2 with hp | ⟨h1, h2⟩
      · exact .inl hp
      · exact .inr ⟨h1, fun hm ls hls => h2 hm ls (by rw [hs, hls])⟩
    | setColLabels a ls ih =>
      rintro hp known h
      obtain ⟨s, hs, h⟩ := split h
      refine post_bind (ih hp s hs) fun f hf => post_mono setColLabels_post fun g hg => ⟨hg.2, ?_⟩
      have := inferSetColLabels_agree ls (some []) known [] (by rintro _ ⟨⟩; rfl) h
      rw [hg.1]
      simpa using this
    | setColLabelsPrefix a p ih =>
      rintro hp known h
      obtain ⟨s, hs, h⟩ := split h
      cases h
      refine post_bind (ih hp s hs) fun f hf => post_mono setColLabelsPrefix_post fun g hg => ⟨hg.2, ?_⟩
      rintro ls hls
      obtain ⟨l, hl, rfl⟩ := Option.map_eq_some_iff.1 hls
      rw [hg.1, hf.2 l hl]
  obtain ⟨h1, h2⟩ := key e hp known hi g hr
  exact ⟨h1, fun ls h => (h2 ls h).symm⟩

/-! ### Where inferred labels are wrong -/

/-- **C227 (refuted).** Full statement: C226 also if the labels of an input of a cartesian product or of an inner join are unknown. False: the
labels of the other input are then inferred as the labels of the result, whatever the input with the unknown labels is (unless it has no
columns). -/
theorem C227_join_labels_partial [DecidableEq V] (rt : Rt V) (f g : Frame V) (lhsOn rhsOn : String) (hg : g.labels ≠ []) :
    let env := fun i => if i = 0 then f else g
    let tenv := fun i => if i = 0 then some f.labels else none
    (∀ i, Agree (tenv i) (env i).labels) ∧
    ∀ e ∈ ([.cartesian (.leaf 0) (.leaf 1), .innerJoin (.leaf 0) (.leaf 1) lhsOn rhsOn] : List (FExpr V)),
      e.infer tenv = .ok (some f.labels) ∧ ∀ r, e.run rt env = .ok r → r.labels ≠ f.labels := by
  intro env tenv
  refine ⟨?_, ?_⟩
  · intro i
    by_cases h : i = 0
    · subst h; rintro _ ⟨⟩; rfl
    · intro ls hls
      simp [tenv, h] at hls
  · have hne : f.labels ++ g.labels ≠ f.labels := by
      intro h
      exact hg (by simpa using h)
    intro e he
    simp only [List.mem_cons, List.not_mem_nil, or_false] at he
    rcases he with rfl | rfl
    · refine ⟨by simp [FExpr.infer, inferJoin, tenv, Res.ok_bind], fun r hr => ?_⟩
      have := cartesian_post (f := f) (g := g) (junk := rt.junk) r hr
      rw [this.1]; exact hne
    · refine ⟨by simp [FExpr.infer, inferJoin, tenv, Res.ok_bind], fun r hr => ?_⟩
      have := innerJoin_post (f := f) (g := g) (a := lhsOn) (b := rhsOn) (n := rt.hint) (junk := rt.junk) r hr
      rw [this.1]; exact hne

/-- **C228 (refuted).** Full statement: C226 for every grouping. False for the keys `*` if a column of the frame is aggregated: at run time the
aggregated columns are no keys, but the compiler infers labels for them; and false if `*` is combined with the label of a column, which
is ignored at run time. -/
theorem C228_group_labels_partial (ops : Ops V) (usable : Nat → Nat) (fuel : Nat) (junk : Nat → Nat → V) (f : Frame V) (hf : f.LabelsOK)
    (l k : String) (fn : GFn) (hl : l ∈ f.labels) (hl2 : ∃ l' ∈ f.labels, l' ≠ l) (hk : ¬ WildKey k) :
    (∃ ls, inferGroup (some f.labels) ["*"] [(l, fn)] = .ok (some ls) ∧
      ∀ g, Rel.group ops usable fuel f ["*"] [(l, fn)] junk = .ok (some g) → ls ≠ g.labels) ∧
    (∃ ls, inferGroup (some f.labels) ["*", k] [] = .ok (some ls) ∧
      ∀ g, Rel.group ops usable fuel f ["*", k] [] junk = .ok (some g) → ls ≠ g.labels) := by
  obtain ⟨l', hl', hne⟩ := hl2
  constructor
  · refine ⟨f.labels ++ [fn.name ++ "(" ++ l ++ ")"], by simp [inferGroup, inferGroupKey, deref, Res.ok_bind], fun g hg => ?_⟩
    have hs : starLabels f.labels [l] ["*"] = f.labels.filter fun x => !([l] : List String).contains x := by
      simp [starLabels, starOf]
    have hpos : (starLabels f.labels [l] ["*"]).length ≠ 0 := by
      rw [hs]
      intro h
      have := List.filter_eq_nil_iff.1 (List.length_eq_zero_iff.1 h) l' hl'
      simp [hne] at this
    have := group_post (ops := ops) (usable := usable) (fuel := fuel) (junk := junk) (f := f) (keyCols := ["*"]) (aggs := [(l, fn)])
      (ks := starLabels f.labels [l] ["*"]) (by rw [show ([(l, fn)].map (·.1) : List String) = [l] from rfl, if_neg hpos])
      (by intro _; simp [starOf, starLabels]) hf (some g) hg g rfl
    rw [this.1.1]
    intro h
    have h2 : f.labels = f.labels.filter fun x => !([l] : List String).contains x := by
      have h3 := List.append_inj_left' h rfl
      rw [hs] at h3
      exact h3
    rw [h2] at hl
    simp at hl
  · refine ⟨f.labels ++ [k], ?_, fun g hg => ?_⟩
    · have := starOf_of_not_wild (argLabels := []) (aggCols := []) hk
      simp only [inferGroup, List.mapM_cons, List.mapM_nil, inferGroupKey, if_true, if_neg this.1, if_neg this.2, deref]
      simp [Res.ok_bind, pure, Except.pure]
    · have hk' := starOf_of_not_wild (argLabels := []) (aggCols := []) hk
      have hsk : starOf f.labels [] k = none := by unfold starOf; rw [if_neg hk'.1, if_neg hk'.2]
      have hs : starLabels f.labels [] ["*", k] = f.labels := by
        unfold starLabels
        rw [List.flatMap_cons, List.flatMap_cons, hsk]
        simp [starOf]
      have hpos : (starLabels f.labels [] ["*", k]).length ≠ 0 := by
        rw [hs]
        intro h
        rw [List.length_eq_zero_iff.1 h] at hl
        simp at hl
      have := group_post (ops := ops) (usable := usable) (fuel := fuel) (junk := junk) (f := f) (keyCols := ["*", k]) (aggs := [])
        (ks := f.labels) (by rw [List.map_nil, if_neg hpos, hs])
        (by intro _; rw [List.map_nil, hs]; simp [starOf]) hf (some g) hg g rfl
      rw [this.1.1]
      intro h
      have := congrArg List.length h
      simp at this

/-- **C229 (refuted).** Full statement: the compiler infers labels, or leaves them unknown, for every program. False: it dereferences a null
pointer if `setColLabels` has a label that is only known at run time before a constant one, and if a wildcard is used on a frame whose
labels are unknown (in a column selection or as the key of a grouping); it rejects a program that binds the columns of a frame with
unknown labels. At run time these programs are fine. -/
theorem C229_label_inference_partial (pre : List String) (c d : String) (post : List LabelArg) (sel : String) (hsel : wild sel = true)
    (keys : List String) (aggs : List (String × GFn)) (known : Option (List String)) :
    (inferSetColLabels ((pre.map LabelArg.const ++ LabelArg.computed c :: LabelArg.const d :: post).map (·.known))).IsUB ∧
    (inferExtractCol none sel).IsUB ∧ (inferGroup none ("*" :: keys) aggs).IsUB ∧
    (inferCbind none known).Throws ∧ (inferCbind known none).Throws := by
  refine ⟨?_, ?_, ?_, ?_, ?_⟩
  · have : ∀ (pre : List String) (acc : List String), (inferSetColLabelsLoop ((pre.map LabelArg.const ++ LabelArg.computed c :: LabelArg.const d :: post).map (·.known))
        (some acc)).IsUB := by
      intro pre
      induction pre with
      | nil => intro acc; exact ⟨_, rfl⟩
      | cons p pre ih => intro acc; exact ih (acc ++ [p])
    exact this pre []
  · unfold inferExtractCol
    rw [hsel]
    exact ⟨_, rfl⟩
  · exact ⟨_, rfl⟩
  · exact ⟨_, rfl⟩
  · cases known <;> exact ⟨_, rfl⟩

/-! ### Examples -/

def exRt : Rt Int := ⟨intOps, ⟨fun _ _ a b => a == b, fun _ _ v => v⟩, fun _ _ => 0, id, fun _ => 10, none, 10⟩

/-- A program: rename, join, group by all columns of the left frame and sum up a column of the right frame. -/
def exProg : FExpr Int :=
  .group (.innerJoin (.setColLabelsPrefix (.leaf 0) "x") (.createFrame [exMat 2 (fun r => r), exMat 2 (fun r => 10 * r)] ["y.k", "y.v"]) "x.a" "y.k")
    ["x.*"] [("y.v", .sum)]

def exLeaf : Frame Int := ⟨2, [⟨.si64, "a", ⟨2, fun r => r⟩⟩, ⟨.si64, "w.b", ⟨2, fun r => 5 + r⟩⟩], [("w.b", 1), ("a", 0)]⟩

example : exProg.infer (fun _ => some ["a", "w.b"]) = .ok (some ["x.a", "x.b", "SUM(y.v)"]) := by decide +kernel

/-- Without the grouping (which C66 shows to return). -/
def exJoin : FExpr Int :=
  .extractCol (.innerJoin (.setColLabelsPrefix (.leaf 0) "x") (.createFrame [exMat 2 (fun r => r), exMat 2 (fun r => 10 * r)] ["y.k", "y.v"]) "x.a" "y.k") "y.*"

example : exJoin.infer (fun _ => some ["a", "w.b"]) = .ok (some ["y.k", "y.v"]) := by decide +kernel

example : (exJoin.run exRt (fun _ => exLeaf)).map (fun g => (g.labels, g.numRows, g.cell 1 1)) = .ok (["y.k", "y.v"], 2, some 10) := by decide +kernel

example : exProg.Plain (fun _ => some ["a", "w.b"]) := by
  refine ⟨⟨trivial, rfl, by decide +kernel, by decide +kernel⟩, .inr ⟨?_, ?_⟩⟩
  · intro k hk
    simp only [List.mem_singleton] at hk
    subst hk
    exact .inr ⟨"x", by decide +kernel, by decide +kernel⟩
  · intro h
    simp at h

example : exLeaf.LabelsOK ∧ Agree (some ["a", "w.b"]) exLeaf.labels := by
  refine ⟨labelsOK_of_map ?_, by rintro _ ⟨⟩; rfl⟩
  obtain ⟨m, h1, h2⟩ := (initL_iff ["a", "w.b"]).1 (by decide)
  have : initL 0 ["a", "w.b"] [] = .ok [("w.b", 1), ("a", 0)] := by decide +kernel
  rw [this] at h1
  cases h1
  exact h2

example : wild "x.*" = true := by decide +kernel

/-- The groupings of C228 do return. -/
example : ∃ g, Rel.group intOps (fun k => k + 24) 3 exF ["*"] [("f.v", .sum)] (fun _ _ => 0) = .ok (some g) ∧ g.labels = ["f.k", "SUM(f.v)"] := by
  have he : effKeys exF.labels ([("f.v", GFn.sum)].map (·.1)) ["*"] = ["f.k"] := by decide
  obtain ⟨res, groups, h1, h2, _, h3, _⟩ := C66_group_by intOps (fun k => k + 24) exF ["*"] [("f.v", .sum)] (fun _ _ => 0)
    [⟨.si64, "f.k", Buf.ofList [7, 3, 7]⟩] [⟨.si64, "f.v", Buf.ofList [1, 2, 4]⟩]
    (by intro c hc; simp [exF] at hc; rcases hc with rfl | rfl <;> simp [exF, Buf.ofList])
    exF_labels (fun _ => by decide) (by rw [he]; exact .cons ⟨by simp [exF], rfl⟩ .nil) (.cons ⟨by simp [exF], rfl⟩ .nil)
    (by intro c hc; simp at hc; rcases hc with rfl | rfl <;> simp)
    (by intro p hp _; simp at hp; rcases hp with rfl; simp)
    (fun c _ => intOps_lawful c) (fun p _ _ => intOps_lawful p.1) (by decide +kernel) (.inl (by rw [he]; decide +kernel)) (by decide) (.inl (by simp)) 3 (by simp [exF])
  exact ⟨res, h1, by rw [h3]; decide +kernel⟩

example : ∃ g, Rel.group intOps (fun k => k + 24) 3 exF ["*", "f.k"] [] (fun _ _ => 0) = .ok (some g) ∧ g.labels = ["f.k", "f.v"] := by
  have he : effKeys exF.labels (([] : List (String × GFn)).map (·.1)) ["*", "f.k"] = ["f.k", "f.v"] := by decide +kernel
  obtain ⟨res, groups, h1, h2, _, h3, _⟩ := C66_group_by intOps (fun k => k + 24) exF ["*", "f.k"] [] (fun _ _ => 0)
    [⟨.si64, "f.k", Buf.ofList [7, 3, 7]⟩, ⟨.si64, "f.v", Buf.ofList [1, 2, 4]⟩] []
    (by intro c hc; simp [exF] at hc; rcases hc with rfl | rfl <;> simp [exF, Buf.ofList])
    exF_labels (fun _ => by decide +kernel) (by rw [he]; exact .cons ⟨by simp [exF], rfl⟩ (.cons ⟨by simp [exF], rfl⟩ .nil)) .nil
    (by intro c hc; simp at hc; rcases hc with rfl | rfl <;> simp)
    (by simp) (fun c _ => intOps_lawful c) (by simp) (by decide +kernel) (.inl (by rw [he]; decide +kernel)) (by decide +kernel) (.inl (by simp)) 3 (by simp [exF])
  exact ⟨res, h1, by rw [h3]; decide +kernel⟩

end Verif.Labels
