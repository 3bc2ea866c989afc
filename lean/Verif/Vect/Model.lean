/-
  Model of src/runtime/local/vectorized/Tasks.{h,cpp} (tasks on dense matrices) and of the output allocation in MTWrapper.h.

  All tasks run concurrently; the state of a task is a program counter plus its local variables, the shared state are the
  result objects.  One step is: one iteration head of the batch loop (slicing the inputs and calling the compiled function,
  which only touches task-local objects), one output of `accumulateOutputs`, one *single cell* of the copy loops that write into
  the shared result without a lock, or one critical section (`_resLock`) of the final aggregation.  A schedule is an arbitrary
  list of task numbers.

  Simplifications: the compiled pipeline function is an arbitrary total function on objects that does not modify shared objects;
  its result objects are not shared with other tasks; host memory; `_offset` is 0 as set by MTWrapper_dense.cpp:79.
-/
import Verif.Vect.Spec

namespace Verif.Vect
open Verif Verif.Dense

variable {α : Type}

/-- An input object with its split. -/
structure InObj (α : Type) where
  obj : DM α
  split : Split

/-- What all tasks of a pipeline share: CompiledPipelineTaskData (Tasks.h:50-66). -/
structure Pipe (α : Type) where
  func : List (DM α) → Res (Nat → DM α)
  inputs : List (InObj α)
  numOutputs : Nat
  combine : Nat → Combine
  /-- the scalar functions that `ewBinaryMat` looks up for ADD, MIN and MAX -/
  addOp : α → α → α
  minOp : α → α → α
  maxOp : α → α → α

/-- Tasks.cpp:59-74: the operation code for an aggregating combine. -/
def Pipe.op (P : Pipe α) : Combine → α → α → α
  | .add => P.addOp
  | .min => P.minOp
  | _ => P.maxOp

/-- Tasks.h:84-86: `isBroadcast`. -/
def isBroadcast (i : InObj α) : Bool := i.split == .none || (i.split == .rows && i.obj.numRows == 1)

/-- Tasks.h:88-110: `createFuncInputs`. -/
def createFuncInputs (ins : List (InObj α)) (r r2 : Nat) : Res (List (DM α)) :=
  ins.mapM fun i =>
    if isBroadcast i then .ok i.obj
    else do
      let v ← i.obj.h.sliceRow r r2
      .ok ⟨v, i.obj.mem⟩

/-- Where a task is in `execute` / `accumulateOutputs`. -/
inductive PC (α : Type) where
  /-- head of the batch loop, Tasks.cpp:29 -/
  | batch (r : Nat)
  /-- head of the loop over outputs, Tasks.cpp:88; `lres` are the local results of the current batch -/
  | acc (r r2 : Nat) (lres : Nat → DM α) (o : Nat)
  /-- about to copy cell `(i, j)` of the slice, Tasks.cpp:113-117 -/
  | copy (r r2 : Nat) (lres : Nat → DM α) (o : Nat) (slice : Hdr) (i j : Nat)
  /-- head of the loop over outputs in the end, Tasks.cpp:51 -/
  | merge (o : Nat)
  | done

/-- Local state of a task: program counter and `localAggRes` (`none` is `nullptr`). -/
structure Loc (α : Type) where
  pc : PC α
  agg : Nat → Option (DM α)

/-- Shared state: the result objects (`none` is `nullptr`). -/
abbrev Outs (α : Type) := Nat → Option (DM α)

/-- Update of a function at one point. -/
def upd {β : Type} (f : Nat → β) (i : Nat) (v : β) : Nat → β := fun j => if j = i then v else f j

/-- One step of a task with row range `[rl, ru)` and the given batch size. Tasks.cpp:22-160. -/
def stepTask (P : Pipe α) (ru bs : Nat) (l : Loc α) (res : Outs α) : Res (Loc α × Outs α) :=
  match l.pc with
  | .batch r =>
    if r < ru then do
      let r2 := min (r + bs) ru
      let ins ← createFuncInputs P.inputs r r2
      let lres ← P.func ins
      .ok (⟨.acc r r2 lres 0, l.agg⟩, res)
    else .ok (⟨.merge 0, l.agg⟩, res)
  | .acc r r2 lres o =>
    if o < P.numOutputs then
      match P.combine o with
      | .rows =>
        match res o with
        | none => .error (.ub "null pointer")
        | some x => do
          let s ← x.h.sliceRow r r2
          .ok (⟨.copy r r2 lres o s 0 0, l.agg⟩, res)
      | .cols =>
        match res o with
        | none => .error (.ub "null pointer")
        | some x => do
          let s ← x.h.sliceCol r r2
          .ok (⟨.copy r r2 lres o s 0 0, l.agg⟩, res)
      | comb =>
        match l.agg o with
        | none => .ok (⟨.acc r r2 lres (o + 1), upd l.agg o (some (lres o))⟩, res)
        | some y => do
          let z ← ewBinaryMatInPlace (P.op comb) y (lres o)
          .ok (⟨.acc r r2 lres (o + 1), upd l.agg o (some z)⟩, res)
    else .ok (⟨.batch (r + bs), l.agg⟩, res)
  | .copy r r2 lres o s i j =>
    if i < s.numRows then
      if j < s.numCols then
        match res o with
        | none => .error (.ub "null pointer")
        | some x => do
          let v ← (lres o).mem.read ((lres o).addr i j)
          let m ← x.mem.write (s.start + i * s.rowSkip + j) v
          .ok (⟨.copy r r2 lres o s i (j + 1), l.agg⟩, upd res o (some ⟨x.h, m⟩))
      else .ok (⟨.copy r r2 lres o s (i + 1) 0, l.agg⟩, res)
    else .ok (⟨.acc r r2 lres (o + 1), l.agg⟩, res)
  | .merge o =>
    if o < P.numOutputs then
      if P.combine o = .rows ∨ P.combine o = .cols then .ok (⟨.merge (o + 1), l.agg⟩, res)
      else
        match res o with
        | none => .ok (⟨.merge (o + 1), l.agg⟩, upd res o (l.agg o))
        | some x =>
          match l.agg o with
          | none => .error (.ub "null pointer")
          | some y => do
            let z ← ewBinaryMatInPlace (P.op (P.combine o)) x y
            .ok (⟨.merge (o + 1), l.agg⟩, upd res o (some z))
    else .ok (⟨.done, l.agg⟩, res)
  | .done => .ok (l, res)

/-- State of a pipeline execution. -/
structure St (α : Type) where
  locs : Nat → Loc α
  res : Outs α

/-- A task before its first step (Tasks.cpp:22-29). -/
def Loc.init (rl : Nat) : Loc α := ⟨.batch rl, fun _ => none⟩

/-- All tasks `ts` (row ranges) enqueued, none started. -/
def St.init (ts : List (Nat × Nat)) (res : Outs α) : St α := ⟨fun t => Loc.init (ts.getD t (0, 0)).1, res⟩

/-- Task `t` makes a step (numbers that are not tasks do nothing). `bs t` is the batch size of the worker that runs the task. -/
def step (P : Pipe α) (ts : List (Nat × Nat)) (bs : Nat → Nat) (s : St α) (t : Nat) : Res (St α) :=
  if t < ts.length then do
    let (l, res) ← stepTask P (ts.getD t (0, 0)).2 (bs t) (s.locs t) s.res
    .ok ⟨upd s.locs t l, res⟩
  else .ok s

/-- Any interleaving. -/
def run (P : Pipe α) (ts : List (Nat × Nat)) (bs : Nat → Nat) : St α → List Nat → Res (St α)
  | s, [] => .ok s
  | s, t :: sch => step P ts bs s t >>= fun s' => run P ts bs s' sch

/-- All tasks have terminated. -/
def St.finished (s : St α) (n : Nat) : Prop := ∀ t, t < n → match (s.locs t).pc with | .done => True | _ => False

/-- MTWrapper.h:114-141: allocation of one output; `lo`/`hi` are the values the code takes from `numeric_limits` for MAX/MIN,
`rows`/`cols` are `none` for -1 (unknown). -/
def allocateOutput (zero lo hi : α) (junk : Nat → α) (comb : Combine) (rows cols : Option Nat) : Option (DM α) :=
  match rows, cols with
  | some r, some c =>
    some (match comb with
    | .add => DM.createZero r c zero
    | .min => DM.create r c fun _ => hi
    | .max => DM.create r c fun _ => lo
    | _ => DM.create r c junk)
  | _, _ => none

/-- MTWrapper_dense.cpp:32-41 and WorkerCPU.h (constructor parameter `uint32_t batchSize`): the batch size of the CPU workers
for `mem` bytes of inputs and outputs, `len` rows and the configured physical batch size. -/
def cpuBatchSize (mem len phy : Nat) : Res Nat :=
  if len = 0 then .error (.ub "division by zero")
  else if mem / len = 0 then .error (.ub "division by zero")
  else .ok (max 1 (phy / (mem / len)) % 2 ^ 32)

end Verif.Vect
