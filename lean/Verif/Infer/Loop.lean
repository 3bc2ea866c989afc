/-
  Termination of the inference of loops (InferencePass.cpp:293-452), for the types of `Verif/Infer/Types.lean`. Properties C146, C147.
-/
import Verif.Infer.Pass

namespace Verif.Infer
open Verif.Front
variable {VT : Type} [DecidableEq VT]

/-- The type of the result of an inserted cast when it is inferred again: `walkSetUnknown` (InferencePass.cpp:133-147) sets all properties to
unknown except for the value types, then the shape is the one of the argument (`ShapeFromArg` of CastOp, DaphneOps.td:1527-1531); a cast to the
unknown type stays unknown (DaphneInferTypesOpInterface.cpp:189-190). -/
def eraseTy : Ty VT → Ty VT
  | .unknown => .unknown
  | .scalar _ => .unknown
  | .matrix v r c _ _ _ => .matrix v r c (-1) .dense none
  | .frame t r c _ => .frame t r c none

/-- The types of DAPHNE. `i` is the value type of loop variables. -/
def tyDom (i : VT) : Dom (Ty VT) := ⟨common, eraseTy, .scalar i⟩

/-- The types are a sound domain for everything but the representation. -/
theorem tyDom_sound (i : VT) (heap : Nat → List String) : (tyDom i).Sound (FitsLog (VT := VT) heap) where
  left := fun a b c x h hf => (C141_common_type_sound heap a b).1 c x h (Or.inl hf)
  right := fun a b c x h hf => (C141_common_type_sound heap a b).1 c x h (Or.inr hf)
  erase := by
    intro a x h
    cases a with
    | unknown => exact h
    | scalar => cases x <;> trivial
    | matrix v r c s p y =>
      cases x with
      | matrix => obtain ⟨h1, h2, h3, -⟩ := h; exact ⟨h1, h2, h3, Or.inl rfl⟩
      | scalar => exact h.elim
      | frame => exact h.elim
    | frame t r c l =>
      cases x with
      | frame => obtain ⟨h1, h2, h3, -⟩ := h; exact ⟨h1, h2, h3, fun p hp => by cases hp⟩
      | scalar => exact h.elim
      | matrix => exact h.elim

/-! ### How much a type says -/

def knownOpt {α : Type} (o : Option α) : Nat := if o.isSome then 1 else 0
def knownInt (z : Int) : Nat := if z = -1 then 0 else 1
def knownSp (s : ℚ) : Nat := if s = -1 then 0 else if s = (trunc s : ℚ) then 1 else 2

/-- The number of properties a type knows (a fractional sparsity counts twice, see `C142_common_sparsity_partial`). At most 7 for a matrix. -/
def info : Ty VT → Nat
  | .unknown => 0
  | .scalar _ => 1
  | .matrix v r c s p y => knownOpt v + knownInt r + knownInt c + knownSp s + (if p = .sparse then 1 else 0) + knownOpt y
  | .frame t r c l => (if t = [none] then 0 else 1 + (t.map knownOpt).sum) + knownInt r + knownInt c + knownOpt l

theorem knownOpt_same {α : Type} [DecidableEq α] (a b : Option α) :
    knownOpt (same none a b) ≤ knownOpt b ∧ (same none a b ≠ b → knownOpt (same none a b) < knownOpt b) := by
  unfold same knownOpt
  split
  · next h => subst h; simp
  · cases b <;> simp

theorem knownInt_same (a b : Int) : knownInt (same (-1) a b) ≤ knownInt b ∧ (same (-1) a b ≠ b → knownInt (same (-1) a b) < knownInt b) := by
  unfold same knownInt
  split
  · next h => subst h; simp
  · rename_i h
    by_cases hb : b = -1
    · subst hb; simp
    · simp [hb]

theorem trunc_int (z : Int) : trunc (z : ℚ) = z := by
  unfold trunc; split
  · exact Int.ceil_intCast z
  · exact Int.floor_intCast z

def commonSp (s1 s2 : ℚ) : ℚ := if trunc s1 = trunc s2 then trunc s1 else -1

theorem trunc_neg_one : trunc (-1 : ℚ) = -1 := by
  have := trunc_int (-1); simpa using this

theorem knownSp_common (a b : ℚ) : knownSp (commonSp a b) ≤ knownSp b ∧ (commonSp a b ≠ b → knownSp (commonSp a b) < knownSp b) := by
  unfold commonSp
  split
  · next h =>
    rw [h]
    by_cases hb : b = (trunc b : ℚ)
    · rw [← hb]; simp
    · have h1 : b ≠ -1 := by
        intro e; subst e; rw [trunc_neg_one] at hb; simp at hb
      have h2 : knownSp b = 2 := by unfold knownSp; rw [if_neg h1, if_neg hb]
      have h3 : knownSp (trunc b : ℚ) ≤ 1 := by
        unfold knownSp
        split
        · omega
        · rw [trunc_int, if_pos rfl]
      rw [h2]
      exact ⟨by omega, fun _ => by omega⟩
  · by_cases hb : b = -1
    · subst hb; simp
    · have : 1 ≤ knownSp b := by
        unfold knownSp; rw [if_neg hb]; split <;> omega
      have h0 : knownSp (-1 : ℚ) = 0 := by unfold knownSp; simp
      rw [h0]; exact ⟨by omega, fun _ => by omega⟩

theorem sum_known_same : ∀ (a b : List (Option VT)), a.length = b.length →
    ((List.zipWith (same none) a b).map knownOpt).sum ≤ (b.map knownOpt).sum ∧
      (List.zipWith (same none) a b ≠ b → ((List.zipWith (same none) a b).map knownOpt).sum < (b.map knownOpt).sum)
  | [], [], _ => by simp
  | x :: a, y :: b, h => by
    have ih := sum_known_same a b (by simpa using h)
    have hk := knownOpt_same x y
    simp only [List.zipWith_cons_cons, List.map_cons, List.sum_cons]
    refine ⟨by omega, ?_⟩
    intro hne
    by_cases e : same none x y = y
    · have : List.zipWith (same none) a b ≠ b := by intro e2; rw [e, e2] at hne; exact hne rfl
      have := ih.2 this; omega
    · have := hk.2 e; omega
  | [], _ :: _, h => by simp at h
  | _ :: _, [], h => by simp at h

theorem cts_common (a b : List (Option VT)) :
    (if commonCts a b = [none] then 0 else 1 + ((commonCts a b).map knownOpt).sum) ≤ (if b = [none] then 0 else 1 + (b.map knownOpt).sum) ∧
    (commonCts a b ≠ b → (if commonCts a b = [none] then 0 else 1 + ((commonCts a b).map knownOpt).sum) <
      (if b = [none] then 0 else 1 + (b.map knownOpt).sum)) := by
  by_cases hb : b = [none]
  · subst hb
    have : commonCts a [none] = [none] := by
      unfold commonCts
      split
      · next h =>
        match a, h with
        | [x], _ => cases x <;> simp [same]
      · rfl
    simp [this]
  · rw [if_neg hb]
    by_cases hc : commonCts a b = [none]
    · rw [if_pos hc]; exact ⟨by omega, fun _ => by omega⟩
    · rw [if_neg hc]
      unfold commonCts at hc ⊢
      split
      · next h =>
        have := sum_known_same a b h
        exact ⟨by omega, fun hne => by have := this.2 hne; omega⟩
      · next h => rw [if_neg h] at hc; exact absurd rfl hc

/-- The common type says at most what the second type says, and less if it is another type. -/
theorem info_common {a b c : Ty VT} (h : common a b = some c) : info c ≤ info b ∧ (c ≠ b → info c < info b) := by
  cases a with
  | unknown =>
    cases b with
    | unknown => simp [common, same] at h; subst h; simp
    | scalar t => simp [common, same] at h; subst h; simp [info]
    | matrix => simp [common] at h
    | frame => simp [common] at h
  | scalar s =>
    cases b with
    | unknown => simp [common, same] at h; subst h; simp
    | scalar t =>
      simp only [common, Option.some.injEq] at h; subst h
      unfold same; split
      · next e => rw [e]; simp
      · simp [info]
    | matrix => simp [common] at h
    | frame => simp [common] at h
  | matrix v1 r1 c1 s1 p1 y1 =>
    cases b with
    | matrix v2 r2 c2 s2 p2 y2 =>
      simp only [common, Option.some.injEq] at h; subst h
      have h1 := knownOpt_same v1 v2
      have h2 := knownInt_same r1 r2
      have h3 := knownInt_same c1 c2
      have h4 := knownSp_common s1 s2
      have h5 : (if same Repr.dense p1 p2 = .sparse then 1 else 0) ≤ (if p2 = .sparse then 1 else 0) ∧
          (same Repr.dense p1 p2 ≠ p2 → (if same Repr.dense p1 p2 = .sparse then 1 else 0) < (if p2 = .sparse then 1 else 0)) := by
        cases p1 <;> cases p2 <;> simp [same]
      have h6 := knownOpt_same y1 y2
      simp only [info]
      unfold commonSp at h4
      refine ⟨by omega, ?_⟩
      intro hne
      by_cases e1 : same none v1 v2 = v2
      · by_cases e2 : same (-1) r1 r2 = r2
        · by_cases e3 : same (-1) c1 c2 = c2
          · by_cases e4 : commonSp s1 s2 = s2
            · by_cases e5 : same Repr.dense p1 p2 = p2
              · by_cases e6 : same none y1 y2 = y2
                · unfold commonSp at e4
                  rw [e1, e2, e3, e4, e5, e6] at hne
                  exact absurd rfl hne
                · have := h6.2 e6; omega
              · have := h5.2 e5; omega
            · have := h4.2 e4; omega
          · have := h3.2 e3; omega
        · have := h2.2 e2; omega
      · have := h1.2 e1; omega
    | unknown => simp [common] at h
    | scalar => simp [common] at h
    | frame => simp [common] at h
  | frame t1 r1 c1 l1 =>
    cases b with
    | frame t2 r2 c2 l2 =>
      simp only [common, Option.some.injEq] at h; subst h
      have h1 := cts_common t1 t2
      have h2 := knownInt_same r1 r2
      have h3 := knownInt_same c1 c2
      have h4 := knownOpt_same l1 l2
      simp only [info]
      refine ⟨by omega, ?_⟩
      intro hne
      by_cases e1 : commonCts t1 t2 = t2
      · by_cases e2 : same (-1) r1 r2 = r2
        · by_cases e3 : same (-1) c1 c2 = c2
          · by_cases e4 : same none l1 l2 = l2
            · rw [e1, e2, e3, e4] at hne
              exact absurd rfl hne
            · have := h4.2 e4; omega
          · have := h3.2 e3; omega
        · have := h2.2 e2; omega
      · have := h1.2 e1; omega
    | unknown => simp [common] at h
    | scalar => simp [common] at h
    | matrix => simp [common] at h

/-! ### The rounds -/

/-- Number of loop-carried values without a cast. -/
def unset : List Bool → Nat
  | [] => 0
  | b :: bs => (if b then 0 else 1) + unset bs

/-- Bound of the number of rounds. -/
def weight (ops : List (Ty VT)) (fl : List Bool) : Nat := (ops.map info).sum + unset fl

theorem mergeAll_weight {i : VT} : ∀ {bs ys os q}, (tyDom i).mergeAll bs ys os = .ok q → weight q.1 q.2 ≤ weight os bs ∧
    (q ≠ (os, bs) → weight q.1 q.2 < weight os bs)
  | [], [], [], q, h => by
    simp only [Dom.mergeAll] at h
    injection h with h; subst h; simp
  | b :: bs, y :: ys, o :: os, q, h => by
    simp only [Dom.mergeAll] at h
    cases hm : (tyDom i).mergeOne b y o with
    | none => rw [hm] at h; cases h
    | some p =>
    rw [hm] at h
    obtain ⟨q', h1, h2⟩ := bind_ok h
    injection h2 with h2; subst h2
    have ih := mergeAll_weight h1
    have hp : info p.1 + (if p.2 then 0 else 1) ≤ info o + (if b then 0 else 1) ∧
        (p ≠ (o, b) → info p.1 + (if p.2 then 0 else 1) < info o + (if b then 0 else 1)) := by
      unfold Dom.mergeOne at hm
      split at hm
      · injection hm with hm; subst hm; simp
      · obtain ⟨c, hc, rfl⟩ := Option.map_eq_some_iff.1 hm
        have hi := info_common hc
        by_cases e : c = o
        · subst e
          cases b
          · by_cases e2 : y = c <;> simp [e2]
          · simp
        · have := hi.2 e
          cases b
          · constructor
            · simp only [Bool.false_or]; split <;> simp <;> omega
            · intro _; simp only [Bool.false_or]; split <;> simp <;> omega
          · simp; omega
    simp only [weight, List.map_cons, List.sum_cons, unset] at ih ⊢
    refine ⟨by omega, ?_⟩
    intro hne
    by_cases e1 : p = (o, b)
    · by_cases e2 : q' = (os, bs)
      · subst e1; subst e2; exact absurd rfl hne
      · have := ih.2 e2; omega
    · have := hp.2 e1; omega
  | [], _ :: _, _, _, h => by simp [Dom.mergeAll] at h
  | [], [], _ :: _, _, h => by simp [Dom.mergeAll] at h
  | _ :: _, [], _, _, h => by simp [Dom.mergeAll] at h
  | _ :: _, _ :: _, [], _, h => by simp [Dom.mergeAll] at h

theorem mergeAll_not_fuel {i : VT} : ∀ {bs ys os}, (tyDom i).mergeAll bs ys os ≠ .error .fuel
  | [], [], [] => by simp [Dom.mergeAll]
  | b :: bs, y :: ys, o :: os => by
    intro h
    simp only [Dom.mergeAll] at h
    cases hm : (tyDom i).mergeOne b y o with
    | none => rw [hm] at h; cases h
    | some p =>
    rw [hm] at h
    cases hq : (tyDom i).mergeAll bs ys os with
    | error e =>
      rw [hq] at h
      have : e = .fuel := by injection h
      subst this
      exact mergeAll_not_fuel hq
    | ok q => rw [hq] at h; cases h
  | [], _ :: _, _ => by simp [Dom.mergeAll]
  | [], [], _ :: _ => by simp [Dom.mergeAll]
  | _ :: _, [], _ => by simp [Dom.mergeAll]
  | _ :: _, _ :: _, [] => by simp [Dom.mergeAll]

/-- A round that changes nothing is repeated for ever. -/
theorem rounds_stuck {i : VT} {f : List (Ty VT) → Run (List (Ty VT) × List (Ty VT))} {ops fl} {p : List (Ty VT) × List (Ty VT)} (h1 : f ops = .ok p)
    (h2 : p.2.length = ops.length) (h3 : List.zipWith (tyDom i).yielded fl p.2 ≠ ops)
    (h4 : (tyDom i).mergeAll fl (List.zipWith (tyDom i).yielded fl p.2) ops = .ok (ops, fl)) : ∀ n, (tyDom i).rounds f n ops fl = .error .fuel
  | 0 => rfl
  | n + 1 => by
    simp only [Dom.rounds, h1, Run.ok_bind]
    rw [if_neg (by simpa using h2), if_neg h3, h4]
    exact rounds_stuck h1 h2 h3 h4 n

theorem mergeAll_fixed {i : VT} : ∀ {bs : List Bool} {ys os : List (Ty VT)},
    (tyDom i).mergeAll bs (List.zipWith (tyDom i).yielded bs ys) os = .ok (os, bs) → bs.length = ys.length →
    (∀ (j : Nat) y o, ys[j]? = some y → os[j]? = some o → (common (eraseTy y) o = some o → eraseTy y = o) ∧ (common y o = some o → y = o)) →
    List.zipWith (tyDom i).yielded bs ys = os
  | [], [], [], _, _, _ => rfl
  | b :: bs, y :: ys, o :: os, h, hl, hg => by
    simp only [List.zipWith_cons_cons, Dom.mergeAll] at h
    cases hm : (tyDom i).mergeOne b ((tyDom i).yielded b y) o with
    | none => rw [hm] at h; cases h
    | some p =>
    rw [hm] at h
    obtain ⟨q', h1, h2⟩ := bind_ok h
    injection h2 with h2
    obtain ⟨h3, h4⟩ := Prod.mk.injEq .. ▸ h2
    injection h3 with h3 h3'
    injection h4 with h4 h4'
    have hq : q' = (os, bs) := Prod.ext h3' h4'
    subst hq
    have ih := mergeAll_fixed h1 (by simpa using hl) (fun j y' o' a b => hg (j + 1) y' o' (by simpa using a) (by simpa using b))
    have h0 := hg 0 y o rfl rfl
    simp only [List.zipWith_cons_cons, ih]
    congr 1
    unfold Dom.mergeOne at hm
    split at hm
    · assumption
    · obtain ⟨c, hc, rfl⟩ := Option.map_eq_some_iff.1 hm
      simp only at h3
      subst h3
      unfold Dom.yielded at hc ⊢
      cases b
      · exact h0.2 hc
      · exact h0.1 hc
  | [], _ :: _, _, _, h, _ => by simp at h
  | _ :: _, [], _, _, h, _ => by simp at h
  | [], [], _ :: _, h, _, _ => by simp [Dom.mergeAll] at h
  | _ :: _, _ :: _, [], h, _, _ => by simp [Dom.mergeAll] at h

/-- **C146.** Let `f` be the inference of the body of a loop (an arbitrary function from the types of the loop-carried values to those of the
yielded values). 1. If the inference of the loop has not ended after as many rounds as the initial types know properties, plus the number of loop-carried
values, plus one, then it never ends. 2. It ends within that many rounds (possibly with an error message) if a yielded value whose
properties contain those of the loop-carried value always has exactly these properties (it is never known better than the loop-carried value). -/
theorem C146_rounds_bounded_or_endless (i : VT) (f : List (Ty VT) → Run (List (Ty VT) × List (Ty VT))) (ops : List (Ty VT)) :
    ((tyDom i).rounds f ((ops.map info).sum + ops.length + 1) ops (ops.map fun _ => false) = .error .fuel → 
      ∀ n, (tyDom i).rounds f n ops (ops.map fun _ => false) = .error .fuel) ∧
    ((∀ os res ys, f os ≠ .error .fuel ∧ (f os = .ok (res, ys) → ∀ (j : Nat) y o, ys[j]? = some y → os[j]? = some o →
        (common (eraseTy y) o = some o → eraseTy y = o) ∧ (common y o = some o → y = o))) →
      (tyDom i).rounds f ((ops.map info).sum + ops.length + 1) ops (ops.map fun _ => false) ≠ .error .fuel) := by
  have hw : weight ops (ops.map fun _ => false) = (ops.map info).sum + ops.length := by
    have : ∀ l : List (Ty VT), unset (l.map fun _ => false) = l.length := by
      intro l
      induction l with
      | nil => rfl
      | cons _ _ ih => simp only [List.map_cons, unset, ih, List.length_cons]; simp; omega
    unfold weight; rw [this]
  rw [← hw]
  have key : ∀ N ops fl, weight ops fl < N → (tyDom i).rounds f N ops fl = .error .fuel →
      (f ops = .error .fuel ∧ ∀ n, (tyDom i).rounds f n ops fl = .error .fuel) ∨ ∀ n, (tyDom i).rounds f n ops fl = .error .fuel := by
    intro N
    induction N with
    | zero => intro _ _ h; omega
    | succ N ih =>
      intro ops fl hN h
      simp only [Dom.rounds] at h
      cases hf : f ops with
      | error e =>
        rw [hf] at h
        have : e = .fuel := by injection h
        subst this
        left
        refine ⟨rfl, ?_⟩
        intro n
        cases n with
        | zero => rfl
        | succ n => simp only [Dom.rounds, hf]; rfl
      | ok p =>
        rw [hf] at h
        simp only [Run.ok_bind] at h
        right
        split at h
        · cases h
        · rename_i hl
          split at h
          · cases h
          · rename_i hne
            cases hm : (tyDom i).mergeAll fl (List.zipWith (tyDom i).yielded fl p.2) ops with
            | error e =>
              rw [hm] at h
              intro n
              cases n with
              | zero => rfl
              | succ n =>
                simp only [Dom.rounds, hf, Run.ok_bind]
                rw [if_neg hl, if_neg hne, hm]
                exact h
            | ok q =>
              rw [hm] at h
              have hq := mergeAll_weight hm
              by_cases e : q = (ops, fl)
              · subst e
                exact rounds_stuck hf (by simpa using hl) hne hm
              · have := hq.2 e
                have hr := ih q.1 q.2 (by omega) h
                intro n
                cases n with
                | zero => rfl
                | succ n =>
                  simp only [Dom.rounds, hf, Run.ok_bind]
                  rw [if_neg hl, if_neg hne, hm]
                  rcases hr with hr | hr
                  · exact hr.2 n
                  · exact hr n
  refine ⟨fun h => ?_, ?_⟩
  · rcases key _ _ _ (Nat.lt_succ_self _) h with h | h
    · exact h.2
    · exact h
  · intro hgood
    have main : ∀ N ops fl, weight ops fl < N → fl.length = ops.length → (tyDom i).rounds f N ops fl ≠ .error .fuel := by
      intro N
      induction N with
      | zero => intro _ _ h; omega
      | succ N ih =>
        intro ops fl hN hfl h
        simp only [Dom.rounds] at h
        cases hf : f ops with
        | error e =>
          rw [hf] at h
          have : e = .fuel := by injection h
          subst this
          exact (hgood ops [] []).1 hf
        | ok p =>
          rw [hf] at h
          simp only [Run.ok_bind] at h
          split at h
          · cases h
          · rename_i hl
            have hl : p.2.length = ops.length := by simpa using hl
            split at h
            · cases h
            · rename_i hne
              cases hm : (tyDom i).mergeAll fl (List.zipWith (tyDom i).yielded fl p.2) ops with
              | error e =>
                rw [hm] at h
                have : e = .fuel := by injection h
                subst this
                exact mergeAll_not_fuel hm
              | ok q =>
                rw [hm] at h
                have hq := mergeAll_weight hm
                by_cases e : q = (ops, fl)
                · subst e
                  exact hne (mergeAll_fixed hm (by omega) ((hgood ops p.1 p.2).2 hf))
                · have := hq.2 e
                  have hql := mergeAll_length hm
                  exact ih q.1 q.2 (by omega) (by omega) h
    exact main _ _ _ (Nat.lt_succ_self _) (by simp)

/-! ### A loop that is inferred for ever -/

/-- Operations of the example: a constant of a type, `rbind`, and a condition. -/
inductive ExOp where
  | const (t : Ty String)
  | rbind
  deriving DecidableEq

/-- Inference of the operations: constants know their type; `rbind` (NumColsFromAllArgs, NumRowsFromSumOfAllArgs; value type of the
arguments; nothing else is inferred). -/
def exTr : ExOp → List (Ty String) → Run (List (Ty String))
  | .const t, [] => .ok [t]
  | .rbind, [.matrix v1 r1 c1 _ _ _, .matrix v2 r2 c2 _ _ _] =>
    .ok [.matrix (same none v1 v2) (if r1 = -1 ∨ r2 = -1 then -1 else r1 + r2) (if c1 = c2 then c1 else -1) (-1) .dense none]
  | _, _ => .error .undef

/-- `X = [0]; while (c) { X = [1, 2]; }` (value 0: the condition, 1: the initial X, 2: X in the loop, 3: the new X, 4: X after the loop). -/
def endlessProg : Code ExOp :=
  .op [1] (.const (.matrix (some "si64") 1 1 0 .dense (some true))) [] <|
  .whil [4] [1] [2] .done 0 [2] [2] (.op [3] (.const (.matrix (some "si64") 1 2 1 .dense (some false))) [] .done) [3] .done

/-- The environment: the type of the condition. -/
def exEnv : Env (Ty String) := fun v => if v = 0 then some (.scalar "bool") else none

/-- `X = [0]; while (c) { X = rbind(X, [1]); }`, whose inference ends. -/
def rbindProg : Code ExOp :=
  .op [1] (.const (.matrix (some "si64") 1 1 0 .dense (some true))) [] <|
  .whil [4] [1] [2] .done 0 [2] [2] (.op [3] (.const (.matrix (some "si64") 1 1 1 .dense (some true))) [] <| .op [5] .rbind [2, 3] .done) [5] .done

theorem trunc_zero : trunc (0 : ℚ) = 0 := by have := trunc_int 0; simpa using this
theorem trunc_one : trunc (1 : ℚ) = 1 := by have := trunc_int 1; simpa using this

theorem common_endless (sp : ℚ) (h : sp = 0 ∨ sp = -1) (c : Int) (h2 : c = 1 ∨ c = -1) (y : Option Bool) (hy : y ≠ some false) (s2 : ℚ) (h3 : s2 = 1 ∨ (s2 = -1)) (y2 : Option Bool)
    (hy2 : y2 = some false ∨ y2 = none) (hsp : sp = 0 → s2 = 1) (hsy : y = none ∨ y2 = some false) :
    common (.matrix (some "si64") 1 2 s2 .dense y2) (.matrix (some "si64") 1 c sp .dense y) = some (.matrix (some "si64") 1 (-1) (-1) .dense none) := by
  have hc : same (-1) (2 : Int) c = -1 := by rcases h2 with rfl | rfl <;> decide
  have hs : (if trunc s2 = trunc sp then ((trunc s2 : Int) : ℚ) else -1) = -1 := by
    rcases h with rfl | rfl
    · rw [hsp rfl, trunc_one, trunc_zero]; simp
    · rcases h3 with rfl | rfl
      · rw [trunc_one, trunc_neg_one]; simp
      · simp [trunc_neg_one]
  have hyy : same none y2 y = none := by
    unfold same
    split
    · next e =>
      rcases hsy with h | h
      · rw [e, h]
      · rw [h] at e; exact absurd e.symm hy
    · rfl
  simp only [common, hc, hs, hyy]
  simp [same]

theorem endless_rounds (f : List (Ty String) → Run (List (Ty String) × List (Ty String)))
    (hf : ∀ t, f [t] = .ok ([t], [.matrix (some "si64") 1 2 1 .dense (some false)])) (n : Nat) :
    (tyDom "si64").rounds f n [.matrix (some "si64") 1 1 0 .dense (some true)] [false] = .error .fuel := by
  cases n with
  | zero => rfl
  | succ n =>
    have h1 := common_endless 0 (Or.inl rfl) 1 (Or.inl rfl) (some true) (by decide) 1 (Or.inl rfl) (some false) (Or.inl rfl) (fun _ => rfl) (Or.inr rfl)
    have h2 := common_endless (-1) (Or.inr rfl) (-1) (Or.inr rfl) none (by decide) (-1) (Or.inr rfl) none (Or.inr rfl) (fun h => by norm_num at h)
      (Or.inl rfl)
    simp only [Dom.rounds, hf, Run.ok_bind]
    rw [if_neg (by simp), if_neg (by simp [Dom.yielded])]
    have hm : (tyDom "si64").mergeAll [false] (List.zipWith (tyDom "si64").yielded [false] [.matrix (some "si64") 1 2 1 .dense (some false)])
        [.matrix (some "si64") 1 1 0 .dense (some true)] = .ok ([.matrix (some "si64") 1 (-1) (-1) .dense none], [true]) := by
      simp only [List.zipWith_cons_cons, List.zipWith_nil_left, Dom.yielded, Dom.mergeAll, Dom.mergeOne, tyDom]
      simp [h1]
    rw [hm]
    refine rounds_stuck (i := "si64") (ops := [.matrix (some "si64") 1 (-1) (-1) .dense none]) (fl := [true]) (hf _) rfl (by simp [Dom.yielded, tyDom, eraseTy]) ?_ n
    simp only [List.zipWith_cons_cons, List.zipWith_nil_left, Dom.yielded, Dom.mergeAll, Dom.mergeOne, tyDom, eraseTy, if_true]
    simp [h2]

/-- **C147 (refuted).** Full statement (comments in InferencePass.cpp:298-303, 392-397): the repeated inference of a loop always ends, since
properties are only set to unknown. The properties of the inserted cast are inferred again in every round: in
`X = [0]; while (c) { X = [1, 2]; }`, the cast has two columns again although it should have removed the number of columns. The inference does not end after
any number of rounds, so the compiler never finishes. -/
theorem C147_loop_inference_endless_partial (n : Nat) : infer (tyDom "si64") exTr n endlessProg exEnv = .error .fuel := by
  have h := endless_rounds (fun ops => (Env.setAll (Env.upd exEnv 1 (.matrix (some "si64") 1 1 0 .dense (some true))) [2] ops) >>= fun tb =>
    infer (tyDom "si64") exTr n .done tb >>= fun tb' => tb'.getAll [2] >>= fun cts =>
      (Env.setAll (Env.upd exEnv 1 (.matrix (some "si64") 1 1 0 .dense (some true))) [2] cts) >>= fun ta =>
        infer (tyDom "si64") exTr n (.op [3] (.const (.matrix (some "si64") 1 2 1 .dense (some false))) [] .done) ta >>= fun ta' =>
          ta'.getAll [3] >>= fun ys => .ok (cts, ys)) (fun t => rfl) n
  simp only [endlessProg, infer, Env.getAll, Run.ok_bind, exTr, Env.setAll]
  have hg : Env.get (Env.upd exEnv 1 (.matrix (some "si64") 1 1 0 .dense (some true))) 1 = .ok (.matrix (some "si64") 1 1 0 .dense (some true)) := rfl
  rw [hg]
  simp only [Run.ok_bind, List.map_cons, List.map_nil]
  exact congrArg (· >>= _) h

/-- Execution of the example's operations: constants, and `rbind`, which fails for different value types or numbers of columns. -/
def exSem : Sem ExOp (Obj String) Unit where
  op := fun f xs w =>
    match f, xs with
    | .const (.matrix (some v) r c _ p (some y)), [] => if 0 ≤ r ∧ 0 ≤ c then ([.matrix v r.toNat c.toNat p y], w) else ([], w)
    | .rbind, [.matrix v1 r1 c1 _ _, .matrix v2 r2 c2 _ _] => if v1 = v2 ∧ c1 = c2 then ([.matrix v1 (r1 + r2) c1 .dense false], w) else ([], w)
    | _, _ => ([], w)
  toBool := fun _ => false
  toInt := fun _ => 0
  ofInt := fun _ => .scalar "si64"

/-- The hypotheses of `C145_inference_sound` hold for these operations and types. -/
theorem exTr_sound (heap : Nat → List String) : OpsSound exSem (FitsLog heap) exTr := by
  intro f ts us xs w hi hx hl
  cases f with
  | const t =>
    cases hx with
    | cons => simp [exTr] at hi
    | nil =>
      simp only [exTr] at hi
      injection hi with hi; subst hi
      revert hl
      cases t with
      | unknown => simp [exSem]
      | scalar => simp [exSem]
      | frame => simp [exSem]
      | matrix v r c s p y =>
        cases v with
        | none => simp [exSem]
        | some v =>
        cases y with
        | none => simp [exSem]
        | some y =>
        simp only [exSem]
        split
        · next h =>
          intro _
          refine .cons ⟨Or.inr rfl, Or.inr ?_, Or.inr ?_, Or.inr rfl⟩ .nil <;> omega
        · simp
  | rbind =>
    match ts, xs, hx, hi with
    | [.matrix v1 r1 c1 _ _ _, .matrix v2 r2 c2 _ _ _], [.matrix w1 m1 n1 _ _, .matrix w2 m2 n2 _ _], .cons h1 (.cons h2 .nil), hi =>
      simp only [exTr] at hi
      injection hi with hi; subst hi
      revert hl
      simp only [exSem]
      split
      · next h =>
        intro _
        obtain ⟨rfl, rfl⟩ := h
        obtain ⟨a1, a2, a3, -⟩ := h1
        obtain ⟨b1, b2, b3, -⟩ := h2
        refine .cons ⟨none_or_left a1, ?_, ?_, Or.inl rfl⟩ .nil
        · unfold FitsNum at *; split
          · left; rfl
          · right; omega
        · unfold FitsNum at *; split
          · exact a3
          · left; rfl
      · simp
    | [.unknown, _], _, _, hi => simp [exTr] at hi
    | [.scalar _, _], _, _, hi => simp [exTr] at hi
    | [.frame .., _], _, _, hi => simp [exTr] at hi
    | [.matrix .., .unknown], _, _, hi => simp [exTr] at hi
    | [.matrix .., .scalar _], _, _, hi => simp [exTr] at hi
    | [.matrix .., .frame ..], _, _, hi => simp [exTr] at hi
    | [.matrix .., .matrix ..], [.scalar _, _], .cons h1 _, hi => exact h1.elim
    | [.matrix .., .matrix ..], [.frame .., _], .cons h1 _, hi => exact h1.elim
    | [.matrix .., .matrix ..], [.matrix .., .scalar _], .cons _ (.cons h1 _), hi => exact h1.elim
    | [.matrix .., .matrix ..], [.matrix .., .frame ..], .cons _ (.cons h1 _), hi => exact h1.elim
    | [], _, _, hi => simp [exTr] at hi
    | [_], _, _, hi => simp [exTr] at hi
    | _ :: _ :: _ :: _, _, _, hi => simp [exTr] at hi

example (heap : Nat → List String) (n fuel : Nat) (te te' : Env (Ty String)) (ρ ρ' : Env (Obj String)) (w w' : Unit)
    (hi : infer (tyDom "si64") exTr n rbindProg te = .ok te') (hρ : EnvFits (FitsLog heap) ρ te)
    (hr : rbindProg.exec exSem fuel ρ w = .ok (ρ', w')) : EnvFits (FitsLog heap) ρ' te' :=
  C145_inference_sound exSem (FitsLog heap) _ exTr (tyDom_sound _ heap) (exTr_sound heap) (fun _ => rfl) n fuel _ te te' ρ ρ' w w' hi hρ hr

/-- The inference of the other loop ends, and removes what the loop changes. -/
example : ∃ te, infer (tyDom "si64") exTr 3 rbindProg exEnv = .ok te ∧ te 4 = some (.matrix (some "si64") (-1) 1 (-1) .dense none) :=
  ⟨_, rfl, by decide +kernel⟩

end Verif.Infer
