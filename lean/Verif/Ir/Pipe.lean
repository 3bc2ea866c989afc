/-
  Model of `VectorizedPipelineOp::canonicalize`, src/ir/daphneir/Canonicalize.cpp:44-135: elimination of duplicate inputs and of
  unused results of a vectorized pipeline. Properties C128-C130.

  A pipeline has inputs (SSA values), one split per input, and a body. The body sees a block argument per input; what the i-th block
  argument stands for depends on the i-th input and the i-th split only (a row block of it, or all of it). The operations of the body
  are represented by the list of the block arguments they use, in order. Not modelled: the second (CUDA) body of the operation.
-/
import Mathlib.Data.List.Basic
import Mathlib.Data.List.Nodup
import Mathlib.Data.List.Induction
import Mathlib.Data.Nat.Find

namespace Verif.Ir
variable {V S P : Type} [DecidableEq V] [DecidableEq S]

/-- Inputs, splits and uses of block arguments in the body. -/
structure Pipe (V S : Type) where
  inputs : List V
  splits : List S
  uses : List Nat
  deriving DecidableEq, Repr

/-- Specification: what the operations of the body are applied to. `piece v s` is what the body gets of the value `v` under the split
`s` (in some task). -/
def Pipe.sees (piece : V → S → P) (p : Pipe V S) : List (Option P) :=
  p.uses.map fun k => match p.inputs[k]?, p.splits[k]? with
    | some v, some s => some (piece v s)
    | _, _ => none

/-- Specification: number of inputs and splits agree, and only existing block arguments are used. -/
def Pipe.Valid (p : Pipe V S) : Prop := p.splits.length = p.inputs.length ∧ ∀ k ∈ p.uses, k < p.inputs.length

/-- Canonicalize.cpp:68-71: `getArgument(i).replaceAllUsesWith(getArgument(j))`, `eraseArgument(i)` (the following arguments move up). -/
def substUse (i j k : Nat) : Nat :=
  let k' := if k = i then j else k
  if i < k' then k' - 1 else k'

/-- Canonicalize.cpp:68-72: input `i` is replaced by input `j` and erased; `vSplitsAttrs` is the local copy of the splits. -/
def Pipe.merge (p : Pipe V S) (i j : Nat) : Pipe V S :=
  ⟨p.inputs.eraseIdx i, p.splits.eraseIdx i, p.uses.map (substUse i j)⟩

/-- Canonicalize.cpp:64 `inputMap[input] = i`. -/
def note (seen : V → Option Nat) (v : V) (i : Nat) : V → Option Nat := fun w => if w = v then some i else seen w

/-- Canonicalize.cpp:59-77. `orig` is the attribute of the operation, `p.splits` the local vector `vSplitsAttrs`, `seen` is `inputMap`.
Note line 67: the split of the earlier input is read from `orig` by its position among the remaining inputs. -/
def dedupLoop (orig : List S) (p : Pipe V S) (seen : V → Option Nat) (i : Nat) : Pipe V S :=
  if h : i < p.inputs.length then
    match seen p.inputs[i] with
    | none => dedupLoop orig p (note seen p.inputs[i] i) (i + 1)
    | some j =>
      if orig[j]? = p.splits[i]? then dedupLoop orig (p.merge i j) seen i
      else dedupLoop orig p seen (i + 1)
  else p
termination_by p.inputs.length - i
decreasing_by
  · omega
  · simp only [Pipe.merge, List.length_eraseIdx, h, if_true]; omega
  · omega

/-- Canonicalize.cpp:50-77. -/
def dedup (p : Pipe V S) : Pipe V S := dedupLoop p.splits p (fun _ => none) 0

/-! ### Duplicate inputs -/

theorem getElem?_erase_subst {α : Type} (l : List α) {i j k : Nat} (hij : j < i) (hi : i < l.length) (hk : k < l.length)
    (e : k = i → l[j]? = l[i]?) : (l.eraseIdx i)[substUse i j k]? = l[k]? := by
  unfold substUse
  simp only
  rw [List.getElem?_eraseIdx]
  by_cases h : k = i
  · subst h
    simp only [if_true]
    rw [if_neg (show ¬ k < j by omega), if_pos hij]; exact e rfl
  · rw [if_neg h]
    by_cases h2 : i < k
    · rw [if_pos h2, if_neg (by omega)]
      congr 1; omega
    · rw [if_neg h2, if_pos (by omega)]

/-- `p` is a pipeline whose i-th split is determined by its i-th input. -/
def SplitBy (sp : V → S) (p : Pipe V S) : Prop := p.splits = p.inputs.map sp

theorem merge_valid {p : Pipe V S} (hv : p.Valid) {i j : Nat} (hij : j < i) (hi : i < p.inputs.length) : (p.merge i j).Valid := by
  obtain ⟨h1, h2⟩ := hv
  refine ⟨by simp only [Pipe.merge, List.length_eraseIdx, h1], ?_⟩
  intro k hk
  simp only [Pipe.merge, List.mem_map] at hk
  obtain ⟨k', hk', rfl⟩ := hk
  have := h2 k' hk'
  simp only [Pipe.merge, List.length_eraseIdx, hi, if_true, substUse]
  split <;> split <;> omega

theorem merge_sees (piece : V → S → P) {p : Pipe V S} (hv : p.Valid) {i j : Nat} (hij : j < i) (hi : i < p.inputs.length)
    (e1 : p.inputs[j]? = p.inputs[i]?) (e2 : p.splits[j]? = p.splits[i]?) : (p.merge i j).sees piece = p.sees piece := by
  unfold Pipe.sees Pipe.merge
  simp only [List.map_map]
  apply List.map_congr_left
  intro k hk
  have hk' := hv.2 k hk
  simp only [Function.comp]
  rw [getElem?_erase_subst p.inputs hij hi hk' (fun _ => e1), getElem?_erase_subst p.splits hij (by rw [hv.1]; exact hi) (by rw [hv.1]; exact hk') (fun _ => e2)]

theorem dedupLoop_ok (piece : V → S → P) (sp : V → S) (orig : List S) (p : Pipe V S) (seen : V → Option Nat) (i : Nat)
    (hv : p.Valid) (hs : SplitBy sp p) (hseen : ∀ v j, seen v = some j → j < i ∧ p.inputs[j]? = some v) :
    (dedupLoop orig p seen i).Valid ∧ (dedupLoop orig p seen i).sees piece = p.sees piece ∧
      (∀ v, v ∈ (dedupLoop orig p seen i).inputs ↔ v ∈ p.inputs) := by
  generalize hn : p.inputs.length - i = n
  induction n using Nat.strongRecOn generalizing p seen i with
  | ind n IH =>
  by_cases h : i < p.inputs.length
  swap
  · rw [dedupLoop, dif_neg h]
    exact ⟨hv, rfl, fun _ => Iff.rfl⟩
  cases hj : seen p.inputs[i] with
  | none =>
    rw [dedupLoop, dif_pos h, hj]
    refine IH _ (by omega) _ _ (i + 1) hv hs ?_ rfl
    intro v j hj
    unfold note at hj
    by_cases e : v = p.inputs[i]
    · rw [if_pos e] at hj
      injection hj with hj
      subst hj
      exact ⟨Nat.lt_succ_self _, by rw [List.getElem?_eq_getElem h, e]⟩
    · rw [if_neg e] at hj
      obtain ⟨a, b⟩ := hseen v j hj
      exact ⟨by omega, b⟩
  | some j =>
   by_cases heq : orig[j]? = p.splits[i]?
   · rw [dedupLoop, dif_pos h, hj]
     simp only [heq, if_true]
     obtain ⟨hji, hin⟩ := hseen _ _ hj
     have e1 : p.inputs[j]? = p.inputs[i]? := by rw [hin, List.getElem?_eq_getElem h]
     have e2 : p.splits[j]? = p.splits[i]? := by
       unfold SplitBy at hs
       rw [hs, List.getElem?_map, List.getElem?_map, e1]
     have hseen' : ∀ v j', seen v = some j' → j' < i ∧ (p.merge i j).inputs[j']? = some v := by
       intro v j' hv'
       obtain ⟨a, b⟩ := hseen v j' hv'
       refine ⟨a, ?_⟩
       simp only [Pipe.merge]
       rw [List.getElem?_eraseIdx, if_pos a, b]
     have hs' : SplitBy sp (p.merge i j) := by
       unfold SplitBy at hs ⊢
       simp only [Pipe.merge]
       rw [hs]
       apply List.ext_getElem?
       intro k
       rw [List.getElem?_map, List.getElem?_eraseIdx, List.getElem?_eraseIdx]
       split <;> rw [List.getElem?_map]
     obtain ⟨g1, g2, g3⟩ := IH _ (by simp only [Pipe.merge, List.length_eraseIdx, h, if_true]; omega) (p.merge i j) _ i (merge_valid hv hji h) hs' hseen' rfl
     refine ⟨g1, g2.trans (merge_sees piece hv hji h e1 e2), fun v => (g3 v).trans ?_⟩
     simp only [Pipe.merge]
     constructor
     · exact fun hm => List.mem_of_mem_eraseIdx hm
     · intro hm
       obtain ⟨k, hk⟩ := List.mem_iff_getElem?.1 hm
       by_cases hki : k = i
       · refine List.mem_iff_getElem?.2 ⟨j, ?_⟩
         rw [List.getElem?_eraseIdx, if_pos hji, e1, ← hki, hk]
       · have hkl : k < p.inputs.length := by
           by_contra hc
           rw [List.getElem?_eq_none (by omega)] at hk; cases hk
         refine List.mem_iff_getElem?.2 ⟨substUse i j k, ?_⟩
         rw [getElem?_erase_subst p.inputs hji h hkl (fun _ => e1), hk]
   · rw [dedupLoop, dif_pos h, hj]
     simp only [heq, if_false]
     exact IH _ (by omega) _ _ (i + 1) hv hs (fun v j' hj' => ⟨by have := (hseen v j' hj').1; omega, (hseen v j' hj').2⟩) rfl

/-- **C128.** If inputs that are the same value have the same split, then removing duplicate inputs does not change what the operations
of the body are applied to (for every meaning of the splits), and no input value disappears. -/
theorem C128_dedup_preserves (piece : V → S → P) (p : Pipe V S) (hv : p.Valid)
    (hs : ∀ (i j : Nat) (v : V) (s t : S), p.inputs[i]? = some v → p.inputs[j]? = some v → p.splits[i]? = some s → p.splits[j]? = some t → s = t) :
    (dedup p).Valid ∧ (dedup p).sees piece = p.sees piece ∧ ∀ v, v ∈ (dedup p).inputs ↔ v ∈ p.inputs := by
  rcases p.splits.eq_nil_or_concat with hn | ⟨_, s0, hc⟩
  · have he : p.inputs = [] := by
      have := hv.1; rw [hn] at this; exact List.length_eq_zero_iff.1 this.symm
    have : dedup p = p := by
      unfold dedup; rw [dedupLoop, dif_neg (by simp [he])]
    rw [this]; exact ⟨hv, rfl, fun _ => Iff.rfl⟩
  · classical
    let sp : V → S := fun v => if h : ∃ i, p.inputs[i]? = some v then (p.splits[Nat.find h]?).getD s0 else s0
    refine dedupLoop_ok piece sp p.splits p _ 0 hv ?_ (by simp)
    unfold SplitBy
    apply List.ext_getElem?
    intro k
    rw [List.getElem?_map]
    by_cases hk : k < p.inputs.length
    · have hks : k < p.splits.length := by rw [hv.1]; exact hk
      have hex : ∃ i, p.inputs[i]? = some p.inputs[k] := ⟨k, List.getElem?_eq_getElem hk⟩
      rw [List.getElem?_eq_getElem hk, List.getElem?_eq_getElem hks]
      simp only [Option.map_some, Option.some.injEq]
      show _ = sp _
      simp only [sp, dif_pos hex]
      have hf := Nat.find_spec hex
      have hfl : Nat.find hex < p.inputs.length := by
        by_contra hc'
        rw [List.getElem?_eq_none (by omega)] at hf; cases hf
      have hfs : Nat.find hex < p.splits.length := by rw [hv.1]; exact hfl
      rw [List.getElem?_eq_getElem hfs, Option.getD_some]
      exact hs k _ _ _ _ (List.getElem?_eq_getElem hk) hf (List.getElem?_eq_getElem hks) (List.getElem?_eq_getElem hfs)
    · have := hv.1; rw [List.getElem?_eq_none (by omega), List.getElem?_eq_none (by omega)]; rfl

/-- A pipeline for `(A + A) * B`: the second use of `A` is merged into the first. -/
example : dedup (⟨["A", "A", "B"], ["R", "R", "N"], [0, 1, 2]⟩ : Pipe String String) = ⟨["A", "B"], ["R", "N"], [0, 0, 1]⟩ := by
  decide +kernel

/-- Inputs that occur once in a row of distinct values are all kept, so nothing changes. -/
theorem C128_no_duplicates (p : Pipe V S) (hd : p.inputs.Nodup) : dedup p = p := by
  have key : ∀ (seen : V → Option Nat) (i : Nat), (∀ v j, seen v = some j → j < i ∧ p.inputs[j]? = some v) →
      dedupLoop p.splits p seen i = p := by
    intro seen i
    generalize hq : p = q
    generalize hn : q.inputs.length - i = n
    induction n generalizing seen i with
    | zero =>
      intro _
      rw [dedupLoop, dif_neg (by omega)]
    | succ n ih =>
      intro hseen
      have h : i < q.inputs.length := by omega
      rw [dedupLoop, dif_pos h]
      have hnone : seen q.inputs[i] = none := by
        cases hc : seen q.inputs[i] with
        | none => rfl
        | some j =>
          obtain ⟨a, b⟩ := hseen _ _ hc
          rw [hq] at hd
          have hjl : j < q.inputs.length := by omega
          rw [List.getElem?_eq_getElem hjl] at b
          injection b with b
          have := (hd.getElem_inj_iff).1 b
          omega
      rw [hnone]
      refine ih _ _ (by omega) ?_
      intro v j hj
      unfold note at hj
      by_cases e : v = q.inputs[i]
      · rw [if_pos e] at hj
        injection hj with hj
        subst hj
        exact ⟨Nat.lt_succ_self _, by rw [List.getElem?_eq_getElem h, e]⟩
      · rw [if_neg e] at hj
        obtain ⟨a, b⟩ := hseen v j hj
        exact ⟨by omega, b⟩
  exact key _ 0 (by simp)

/-- **C129 (refuted).** Full statement: removing duplicate inputs never changes what the body is applied to. False if a value is used
with two different splits after another duplicate was removed: in the pipeline of `((A + A) @ B) + B` the second `B` (split by rows) is
replaced by the first one (not split), for every meaning of the splits that distinguishes the two. -/
theorem C129_dedup_confuses_splits_partial (piece : String → Bool → P) (hp : piece "B" false ≠ piece "B" true) :
    let p : Pipe String Bool := ⟨["A", "A", "B", "B"], [true, true, false, true], [0, 1, 2, 3]⟩
    p.Valid ∧ (dedup p) = ⟨["A", "B"], [true, false], [0, 0, 1, 1]⟩ ∧ (dedup p).sees piece ≠ p.sees piece := by
  have e : dedup (⟨["A", "A", "B", "B"], [true, true, false, true], [0, 1, 2, 3]⟩ : Pipe String Bool) =
      ⟨["A", "B"], [true, false], [0, 0, 1, 1]⟩ := by decide +kernel
  refine ⟨⟨rfl, by decide⟩, e, ?_⟩
  rw [e]
  simp [Pipe.sees, hp]

/-! ### Unused results -/

/-- Results of a pipeline: the operands of the terminator of the body and the attributes, per result. -/
structure Results (T O C : Type) where
  terminator : List T
  outRows : List O
  outCols : List O
  combines : List C

/-- Canonicalize.cpp:88-101: numbers of the results that are used, in ascending order. -/
def retained (used : Nat → Bool) (n : Nat) : List Nat := (List.range n).filter used

/-- Canonicalize.cpp:103-105 `eraseOperands(eraseIxs)`. -/
def eraseUnused {T : Type} (used : Nat → Bool) (l : List T) : List T :=
  (l.zipIdx.filter fun x => used x.2).map (·.1)

/-- Canonicalize.cpp:85-128. -/
def dropUnused {T O C : Type} (used : Nat → Bool) (r : Results T O C) : Results T O C :=
  ⟨eraseUnused used r.terminator,
   (retained used r.terminator.length).filterMap (r.outRows[·]?),
   (retained used r.terminator.length).filterMap (r.outCols[·]?),
   (retained used r.terminator.length).filterMap (r.combines[·]?)⟩

/-- Canonicalize.cpp:123-129: the number of the new result that replaces result `k`. -/
def newNumber (used : Nat → Bool) (k : Nat) : Nat := ((List.range k).filter used).length

theorem filterMap_get {T : Type} (l : List T) (ks : List Nat) (h : ∀ k ∈ ks, k < l.length) (m : Nat) :
    (ks.filterMap (l[·]?))[m]? = ks[m]?.bind (l[·]?) := by
  induction ks generalizing m with
  | nil => simp
  | cons k ks ih =>
    have hk : k < l.length := h k (by simp)
    rw [List.filterMap_cons, List.getElem?_eq_getElem hk]
    cases m with
    | zero => simp [List.getElem?_eq_getElem hk]
    | succ m => simpa using ih (fun k' hk' => h k' (by simp [hk'])) m

theorem retained_get (used : Nat → Bool) {n k : Nat} (hk : k < n) (hu : used k = true) :
    (retained used n)[newNumber used k]? = some k := by
  unfold retained newNumber
  obtain ⟨d, rfl⟩ : ∃ d, n = k + (1 + d) := ⟨n - k - 1, by omega⟩
  rw [List.range_add, List.filter_append, List.getElem?_append_right (Nat.le_refl _), Nat.sub_self]
  rw [List.range_add, List.map_append, List.filter_append]
  simp [hu]

theorem eraseUnused_eq {T : Type} (used : Nat → Bool) (l : List T) :
    eraseUnused used l = (retained used l.length).filterMap (l[·]?) := by
  unfold eraseUnused retained
  induction l using List.reverseRecOn with
  | nil => simp
  | append_singleton l a ih =>
    rw [List.zipIdx_append, List.filter_append, List.map_append, ih, List.length_append, List.length_singleton, List.range_succ,
      List.filter_append, List.filterMap_append]
    congr 1
    · apply List.filterMap_congr
      intro k hk
      rw [List.mem_filter, List.mem_range] at hk
      rw [List.getElem?_append_left hk.1]
    · simp only [List.zipIdx_singleton, Nat.zero_add]
      by_cases h : used l.length = true
      · simp [h]
      · simp [h]

/-- **C130.** After removing unused results, the new result that replaces a used result returns the same value of the body, with the same
number of rows and columns and the same combine; and there are exactly as many results as were used. -/
theorem C130_unused_results {T O C : Type} (used : Nat → Bool) (r : Results T O C)
    (h1 : r.outRows.length = r.terminator.length) (h2 : r.outCols.length = r.terminator.length) (h3 : r.combines.length = r.terminator.length)
    (k : Nat) (hk : k < r.terminator.length) (hu : used k = true) :
    let r' := dropUnused used r
    let k' := newNumber used k
    r'.terminator[k']? = r.terminator[k]? ∧ r'.outRows[k']? = r.outRows[k]? ∧ r'.outCols[k']? = r.outCols[k]? ∧
    r'.combines[k']? = r.combines[k]? ∧ r'.terminator.length = ((List.range r.terminator.length).filter used).length ∧
    (∀ m, m < r.terminator.length → used m = true → newNumber used m = k' → m = k) := by
  have hb : ∀ m ∈ retained used r.terminator.length, m < r.terminator.length := by
    intro m hm; unfold retained at hm; rw [List.mem_filter, List.mem_range] at hm; exact hm.1
  have hg := retained_get used hk hu
  refine ⟨?_, ?_, ?_, ?_, ?_, ?_⟩
  · simp only [dropUnused]; rw [eraseUnused_eq, filterMap_get _ _ hb, hg]; rfl
  · simp only [dropUnused]; rw [filterMap_get _ _ (by rw [h1]; exact hb), hg]; rfl
  · simp only [dropUnused]; rw [filterMap_get _ _ (by rw [h2]; exact hb), hg]; rfl
  · simp only [dropUnused]; rw [filterMap_get _ _ (by rw [h3]; exact hb), hg]; rfl
  · simp only [dropUnused]
    rw [eraseUnused_eq]
    unfold retained at hb ⊢
    have : ∀ (l : List T) (ks : List Nat), (∀ m ∈ ks, m < l.length) → (ks.filterMap (l[·]?)).length = ks.length := by
      intro l ks hks
      induction ks with
      | nil => rfl
      | cons a ks ih =>
        rw [List.filterMap_cons, List.getElem?_eq_getElem (hks a (by simp))]
        simp only [List.length_cons]
        rw [ih fun m hm => hks m (by simp [hm])]
    exact this _ _ hb
  · intro m hm hum he
    have := retained_get used hm hum
    rw [he, hg] at this
    exact (Option.some.inj this).symm

example : (dropUnused (fun k => k != 1) ⟨["x", "y", "z"], [1, 2, 3], [4, 5, 6], [true, false, true]⟩ : Results String Nat Bool) =
    ⟨["x", "z"], [1, 3], [4, 6], [true, true]⟩ := by rfl

end Verif.Ir
