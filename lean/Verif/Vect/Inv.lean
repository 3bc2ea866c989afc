/-
  Invariant of concurrent pipeline execution (C08, C09).
-/
import Verif.Vect.Model
import Mathlib.Data.List.GetD

namespace Verif.Vect
open Verif Verif.Dense
variable {α : Type}

/-- An aggregating combine. -/
def Combine.isAgg : Combine → Prop
  | .rows => False
  | .cols => False
  | _ => True

/-- The situation in which a pipeline is executed: the input objects show the matrices `ins`, splittable inputs have `len`
rows (or one row), the compiled function computes `F` on every range of rows, the tasks tile `[0, len)`, batch sizes are positive. -/
structure Setup (P : Pipe α) (ins : List (Inp α)) (F : PipeSpec α) (len : Nat) (ts : List (Nat × Nat)) (bs : Nat → Nat) :
    Prop where
  inputs : List.Forall₂ (fun (i : InObj α) (s : Inp α) => i.obj.Is s.mat ∧ i.split = s.split ∧
    (s.split = .rows → s.mat.rows = 1 ∨ s.mat.rows = len)) P.inputs ins
  func : ∀ r r2, r < r2 → r2 ≤ len → ∀ xs, List.Forall₂ DM.Is xs (ins.map (·.part r r2)) →
    Res.Ok (P.func xs) fun ys => ∀ o, o < P.numOutputs → (ys o).Is (onRows F ins r r2 o)
  tiles : Spec.Tiles 0 len ts
  batch : ∀ t, 1 ≤ bs t

/-- An associative and commutative operation. -/
structure AC (op : α → α → α) : Prop where
  assoc : ∀ a b c, op (op a b) c = op a (op b c)
  comm : ∀ a b, op a b = op b a

/-- What is required of output `o` and of its initial result object `r0`. -/
def OutputOk (P : Pipe α) (ins : List (Inp α)) (F : PipeSpec α) (len : Nat) (o : Nat) (r0 : Option (DM α)) : Prop :=
  match P.combine o with
  | .rows => RowWise F ins len o ∧ ∃ x, r0 = some x ∧ x.WF ∧ x.numRows = (F (ins.map (·.mat)) o).rows ∧
      x.numCols = (F (ins.map (·.mat)) o).cols
  | .cols => ColWise F ins len o ∧ ∃ x, r0 = some x ∧ x.WF ∧ x.numRows = (F (ins.map (·.mat)) o).rows ∧
      x.numCols = (F (ins.map (·.mat)) o).cols
  | .add => AggOutput P.addOp
  | .min => AggOutput P.minOp
  | .max => AggOutput P.maxOp
where
  /-- Aggregated with `op`: no result object yet, or one filled with a neutral value. -/
  AggOutput (op : α → α → α) : Prop :=
    Aggregates F ins len o op ∧ AC op ∧
      (r0 = none ∨ ∃ x e, r0 = some x ∧ (∀ v, op e v = v) ∧
        x.Is ⟨(F (ins.map (·.mat)) o).rows, (F (ins.map (·.mat)) o).cols, fun _ _ => e⟩)

/-- Row ranges of the tasks. -/
abbrev lo (ts : List (Nat × Nat)) (t : Nat) : Nat := (ts.getD t (0, 0)).1
abbrev hi (ts : List (Nat × Nat)) (t : Nat) : Nat := (ts.getD t (0, 0)).2

theorem tiles_range {a b : Nat} {ts : List (Nat × Nat)} (h : Spec.Tiles a b ts) {t : Nat} (ht : t < ts.length) :
    a ≤ lo ts t ∧ lo ts t < hi ts t ∧ hi ts t ≤ b := by
  induction ts generalizing a t with
  | nil => simp at ht
  | cons x ts ih =>
    obtain ⟨h1, h2, h3⟩ := h
    have hle := h3.toE.le
    cases t with
    | zero => simp only [lo, hi, List.getD_cons_zero]; omega
    | succ t =>
      have := ih h3 (t := t) (by simpa using ht)
      simp only [lo, hi, List.getD_cons_succ] at *
      omega

theorem tiles_disjoint {a b : Nat} {ts : List (Nat × Nat)} (h : Spec.Tiles a b ts) {t u : Nat} (ht : t < ts.length)
    (hu : u < ts.length) (hne : t < u) : hi ts t ≤ lo ts u := by
  induction ts generalizing a t u with
  | nil => simp at ht
  | cons x ts ih =>
    obtain ⟨h1, h2, h3⟩ := h
    cases u with
    | zero => omega
    | succ u =>
      have hu' : u < ts.length := by simpa using hu
      cases t with
      | zero =>
        have := (tiles_range h3 hu').1
        simp only [lo, hi, List.getD_cons_succ, List.getD_cons_zero] at *
        exact this
      | succ t =>
        have := ih h3 (t := t) (u := u) (by simpa using ht) hu' (by omega)
        simpa [lo, hi] using this

/-- Slicing the inputs gives objects that show the corresponding parts. -/
theorem createFuncInputs_ok {objs : List (InObj α)} {ins : List (Inp α)} {len r r2 : Nat}
    (h : List.Forall₂ (fun (i : InObj α) (s : Inp α) => i.obj.Is s.mat ∧ i.split = s.split ∧
      (s.split = .rows → s.mat.rows = 1 ∨ s.mat.rows = len)) objs ins) (h1 : r < r2) (h2 : r2 ≤ len) :
    Res.Ok (createFuncInputs objs r r2) (fun xs => List.Forall₂ DM.Is xs (ins.map (·.part r r2))) := by
  unfold createFuncInputs
  induction h with
  | nil => exact ⟨[], rfl, .nil⟩
  | @cons i s objs ins hd tl ih =>
    obtain ⟨e1, e2, e3⟩ := hd
    have hn : i.obj.numRows = s.mat.rows := e1.rows
    have hhead : Res.Ok (if isBroadcast i then (.ok i.obj : Res (DM α)) else do
        let v ← i.obj.h.sliceRow r r2
        .ok ⟨v, i.obj.mem⟩) (fun x => x.Is (s.part r r2)) := by
      by_cases hb : isBroadcast i
      · rw [if_pos hb]
        refine ⟨_, rfl, ?_⟩
        have : s.split = .none ∨ s.mat.rows = 1 := by
          simp only [isBroadcast, Bool.or_eq_true, Bool.and_eq_true, beq_iff_eq] at hb
          rw [e2] at hb
          rcases hb with h' | ⟨_, h'⟩
          · exact .inl h'
          · right; omega
        unfold Inp.part; rw [if_pos this]; exact e1
      · rw [if_neg hb]
        have hs : ¬ (s.split = .none ∨ s.mat.rows = 1) := by
          simp only [isBroadcast, Bool.or_eq_true, Bool.and_eq_true, beq_iff_eq, not_or, not_and] at hb
          rw [e2] at hb
          rintro (h' | h')
          · exact hb.1 h'
          · cases hsp : s.split with
            | none => exact hb.1 hsp
            | rows => exact hb.2 hsp (by omega)
        have hrows : s.split = .rows := by
          cases hsp : s.split with
          | none => exact (hs (.inl hsp)).elim
          | rows => rfl
        have hlen : s.mat.rows = len := by
          rcases e3 hrows with h' | h'
          · exact (hs (.inr h')).elim
          · exact h'
        unfold Hdr.sliceRow
        refine (e1.view (rl := r) (ru := r2) (cl := 0) (cu := i.obj.h.numCols) ?_ ?_).bind ?_
        · refine ⟨?_, ?_, ?_, ?_⟩ <;> omega
        · have := e1.cols
          refine ⟨?_, ?_, ?_, ?_⟩ <;> omega
        · intro v hv
          refine ⟨_, rfl, ?_⟩
          unfold Inp.part
          rw [if_neg hs]
          have := e1.cols
          simpa [this] using hv
    rw [List.mapM_cons]
    refine hhead.bind fun x hx => ?_
    refine ih.bind fun xs hxs => ?_
    exact ⟨_, rfl, .cons hx hxs⟩

section
variable (P : Pipe α) (ins : List (Inp α)) (F : PipeSpec α) (ts : List (Nat × Nat)) (bs : Nat → Nat)

/-- The whole result. -/
abbrev T (o : Nat) : Mat α := F (ins.map (·.mat)) o

/-- Coordinate by which an output is distributed over the tasks. -/
def key (c : Combine) (R C : Nat) : Nat := if c = .rows then R else C
/-- Row/column within the slice of a batch starting at `r`. -/
def subRow (c : Combine) (r R : Nat) : Nat := if c = .rows then R - r else R
def subCol (c : Combine) (r C : Nat) : Nat := if c = .rows then C else C - r

/-- Cell `(R, C)` of output `o` was already written by the task that owns it (whose end is `ru`). -/
def Fin (ru : Nat) (pc : PC α) (o R C : Nat) : Prop :=
  match pc with
  | .batch r => key (P.combine o) R C < r
  | .acc r r2 _ o' => key (P.combine o) R C < r ∨ (key (P.combine o) R C < r2 ∧ o < o')
  | .copy r r2 _ o' _ i j => key (P.combine o) R C < r ∨ (key (P.combine o) R C < r2 ∧
      (o < o' ∨ (o = o' ∧ (subRow (P.combine o) r R < i ∨ (subRow (P.combine o) r R = i ∧ subCol (P.combine o) r C < j)))))
  | .merge _ => key (P.combine o) R C < ru
  | .done => key (P.combine o) R C < ru

/-- The local aggregate of output `o` covers the rows `[rl, k)`. -/
def AggTo (rl k o : Nat) (agg : Nat → Option (DM α)) : Prop :=
  (k = rl ∧ agg o = none) ∨ (rl < k ∧ ∃ y, agg o = some y ∧ y.Is (onRows F ins rl k o))

/-- The slice header addresses the batch's part of the result with header `h0`. -/
def SliceOk (c : Combine) (h0 s : Hdr) (r r2 rows cols : Nat) : Prop :=
  s.rowSkip = h0.rowSkip ∧
  (c = .rows → s.start = h0.base + r * h0.rowSkip ∧ s.numRows = r2 - r ∧ s.numCols = cols) ∧
  (c = .cols → s.start = h0.base + r ∧ s.numRows = rows ∧ s.numCols = r2 - r)

/-- A batch in progress. -/
def InBatch (rl ru b r r2 : Nat) (lres : Nat → DM α) : Prop :=
  rl ≤ r ∧ r < r2 ∧ r2 = min (r + b) ru ∧ ∀ o, o < P.numOutputs → (lres o).Is (onRows F ins r r2 o)

/-- Invariant of a task's local state. `h0` are the headers of the initial result objects. -/
def LocInv (h0 : Nat → Hdr) (rl ru b : Nat) (l : Loc α) : Prop :=
  match l.pc with
  | .batch r => rl ≤ r ∧ ∀ o, o < P.numOutputs → (P.combine o).isAgg → AggTo ins F rl (min r ru) o l.agg
  | .acc r r2 lres o' => InBatch P ins F rl ru b r r2 lres ∧
      ∀ o, o < P.numOutputs → (P.combine o).isAgg → AggTo ins F rl (if o < o' then r2 else r) o l.agg
  | .copy r r2 lres o' s _ _ => InBatch P ins F rl ru b r r2 lres ∧ o' < P.numOutputs ∧
      (P.combine o' = .rows ∨ P.combine o' = .cols) ∧
      SliceOk (P.combine o') (h0 o') s r r2 (T ins F o').rows (T ins F o').cols ∧
      ∀ o, o < P.numOutputs → (P.combine o).isAgg → AggTo ins F rl (if o < o' then r2 else r) o l.agg
  | .merge _ => ∀ o, o < P.numOutputs → (P.combine o).isAgg → AggTo ins F rl ru o l.agg
  | .done => True

/-- The task has merged its aggregate of output `o`. -/
def Merged (pc : PC α) (o : Nat) : Prop :=
  match pc with
  | .merge o' => o < o'
  | .done => True
  | _ => False

/-- Combination of the partial aggregates of the tasks in the given order. -/
def combineStep (op : α → α → α) (acc : Option (Mat α)) (m : Mat α) : Option (Mat α) :=
  match acc with
  | none => some m
  | some a => some (Mat.zip op a m)

/-- The object pointer shows the optional matrix. -/
def OptIs (x : Option (DM α)) (a : Option (Mat α)) : Prop :=
  match x, a with
  | none, none => True
  | some x, some a => x.Is a
  | _, _ => False

/-- The partial aggregate of task `t`. -/
def part (o t : Nat) : Mat α := onRows F ins (lo ts t) (hi ts t) o

/-- Invariant of the execution. `res0` are the initial result objects, `init` what they show for aggregated outputs. -/
structure Inv (h0 : Nat → Hdr) (size0 : Nat → Nat) (init : Nat → Option (Mat α)) (s : St α) : Prop where
  loc : ∀ t, t < ts.length → LocInv P ins F h0 (lo ts t) (hi ts t) (bs t) (s.locs t)
  tiled : ∀ o, o < P.numOutputs → ¬ (P.combine o).isAgg → ∃ x, s.res o = some x ∧ x.h = h0 o ∧ x.mem.size = size0 o ∧
    ∀ t, t < ts.length → ∀ R C, R < (T ins F o).rows → C < (T ins F o).cols →
      lo ts t ≤ key (P.combine o) R C → key (P.combine o) R C < hi ts t → Fin P (hi ts t) (s.locs t).pc o R C →
      x.mem.data ((h0 o).base + R * (h0 o).rowSkip + C) = (T ins F o).cell R C
  agg : ∀ o, o < P.numOutputs → (P.combine o).isAgg → ∃ hist : List Nat, hist.Nodup ∧
    (∀ t, t ∈ hist ↔ t < ts.length ∧ Merged (s.locs t).pc o) ∧
    OptIs (s.res o) ((hist.map (part ins F ts o)).foldl (combineStep (P.op (P.combine o))) (init o))

/-- What is known about the initial result objects' headers. -/
structure HdrOk (h0 : Nat → Hdr) (size0 : Nat → Nat) (o : Nat) : Prop where
  skip : (h0 o).numCols ≤ (h0 o).rowSkip
  full : (h0 o).bufElems = (h0 o).numRows * (h0 o).rowSkip
  inb : ∀ r c, r < (h0 o).numRows → c < (h0 o).numCols → (h0 o).base + r * (h0 o).rowSkip + c < size0 o
  rows : (h0 o).numRows = (T ins F o).rows
  cols : (h0 o).numCols = (T ins F o).cols

end

end Verif.Vect
