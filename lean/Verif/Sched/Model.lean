import Verif.Basic.Res
/-
  Model of the local and distributed load partitioning.
  Sources: src/runtime/local/vectorized/LoadPartitioning.h, LoadPartitioningDefs.h,
           src/runtime/local/vectorized/MTWrapper_dense.cpp (executeCpuQueues, executeQueuePerDeviceType),
           src/runtime/local/vectorized/MTWrapper_sparse.cpp,
           src/runtime/distributed/coordinator/scheduling/LoadPartitioningDistributed.h
-/
namespace Verif.Sched

/-- LoadPartitioningDefs.h:23-38 `SelfSchedulingScheme` (without `INVALID`, which behaves like the default branch). -/
inductive Scheme where
  | static | ss | gss | tss | fac2 | tfss | fiss | viss | pls | pss | mstatic | mfsc | auto
  deriving DecidableEq, Repr

/-- LoadPartitioning.h:27-38: the fields of class `LoadPartitioning`. `uint64_t` counters as `Nat`. -/
structure LP where
  scheme : Scheme
  totalTasks : Nat
  chunkParam : Nat
  scheduledTasks : Nat
  remainingTasks : Nat
  totalWorkers : Nat
  schedulingStep : Nat
  tssChunk : Nat
  tssDelta : Nat
  mfscChunk : Nat
  fissStages : Nat
  deriving Repr

/-- Values the constructor derives with floating-point functions (`log`, `log2`, `pow`) or with a possibly undefined
    float-to-integer conversion: LoadPartitioning.h:40-50 (`getStages`), 55-56 (`mfscChunk`), 61-63 (expert chunk), 74-75
    (`tssDelta`; divides by zero if the number of TSS steps is 1). They are left completely open. -/
structure FloatParts where
  fissStages : Nat
  mfscChunk : Nat
  expertChunk : Nat
  tssDelta : Nat

def ceilDiv (a b : Nat) : Nat := (a + b - 1) / b

/-- LoadPartitioning.h:53-76, the constructor. Line 64 `method = SS` assigns the parameter, not the field, so the scheme
    stays `AUTO` (as in the code). -/
def LP.mk' (method : Scheme) (tasks chunk workers : Nat) (autoChunk : Bool) (fl : FloatParts) : LP :=
  { scheme := method
    totalTasks := tasks
    chunkParam := if autoChunk then (if fl.expertChunk < 1 then 1 else fl.expertChunk) else chunk
    scheduledTasks := 0
    remainingTasks := tasks
    totalWorkers := workers
    schedulingStep := 0
    tssChunk := ceilDiv tasks (2 * workers)
    tssDelta := fl.tssDelta
    mfscChunk := fl.mfscChunk
    fissStages := fl.fissStages }

/-- LoadPartitioning.h:78 `hasNextChunk`. -/
def LP.hasNext (s : LP) : Bool := s.scheduledTasks < s.totalTasks

/-- Division as the code performs it: a zero divisor is undefined behaviour (integer division by zero, or conversion of an
    infinite `double` to `uint64_t`). -/
def divUp (a b : Nat) : Res Nat := if b = 0 then .error (.ub "division by zero / invalid conversion") else .ok (ceilDiv a b)

/-- Truncating integer division with the zero divisor as undefined behaviour. -/
def divDown (a b : Nat) : Res Nat := if b = 0 then .error (.ub "division by zero") else .ok (a / b)

/-- LoadPartitioning.h:40-50 `getStages` in exact arithmetic (the C++ code uses `double`): number of halving stages until all
    tasks are scheduled. Result `none` = still running after `fuel` iterations. -/
def getStagesLoop (tasks workers : Nat) : (fuel actualStep scheduled step : Nat) → Option Nat
  | 0, a, sch, _ => if sch < tasks then none else some (a + 1)
  | fuel + 1, a, sch, step =>
    if sch < tasks then
      getStagesLoop tasks workers fuel (step / workers) (sch + ceilDiv tasks (2 ^ (step / workers + 1) * workers)) (step + 1)
    else some (a + 1)

/-- LoadPartitioning.h:80-155: the raw chunk size per scheme, in exact arithmetic. Simplification: the C++ code evaluates
    the quotients in `double` (exact up to rounding above 2^53); FISS/VISS/FAC2 formulas use exact rationals rounded up;
    the TSS subtraction wraps modulo 2^64 as in C++. The partition theorems also hold for *every* other raw chunk function
    (see `getNextWith`). -/
def LP.rawChunk (s : LP) : Res Nat :=
  match s.scheme with
  | .static => divDown s.totalTasks s.totalWorkers
  | .ss => .ok 1
  | .gss => divUp s.remainingTasks s.totalWorkers
  | .tss => .ok ((s.tssChunk + 2 ^ 64 - (s.tssDelta * s.schedulingStep) % 2 ^ 64) % 2 ^ 64)
  | .fac2 => do
    let step ← divDown s.schedulingStep s.totalWorkers
    let q ← divDown s.totalTasks s.totalWorkers
    divUp q (2 ^ (step + 1))
  | .tfss => divUp s.remainingTasks (2 * s.totalWorkers)
  | .fiss => do
    let init ← divUp s.totalTasks ((2 + s.fissStages) * s.totalWorkers)
    let inc ← divUp (2 * s.totalTasks) (s.totalWorkers * s.fissStages * (s.fissStages - 1))
    return init + s.schedulingStep * inc
  | .viss => do
    let step ← divDown s.schedulingStep s.totalWorkers
    let init ← divUp s.totalTasks ((2 + s.fissStages) * s.totalWorkers)
    let f ← divUp (2 * (2 ^ step - 1)) (2 ^ step)
    return init * f
  | .pls => if 2 * s.remainingTasks > s.totalTasks then divUp s.totalTasks (2 * s.totalWorkers)
            else divUp s.remainingTasks s.totalWorkers
  | .pss => divUp (2 * s.remainingTasks) (3 * s.totalWorkers)
  | .mfsc => .ok s.mfscChunk
  | .mstatic | .auto => do
    let q ← divDown s.totalTasks s.totalWorkers
    divUp q 4

/-- LoadPartitioning.h:156-161: clamp the raw chunk size, update the counters, return the chunk size. -/
def LP.getNextWith (s : LP) (raw : Nat) : Nat × LP :=
  let chunk := min (max raw s.chunkParam) s.remainingTasks
  (chunk, { s with
    schedulingStep := s.schedulingStep + 1
    scheduledTasks := s.scheduledTasks + chunk
    remainingTasks := s.remainingTasks - chunk })

/-- LoadPartitioning.h:80-162 `getNextChunk`. -/
def LP.getNext (s : LP) : Res (Nat × LP) := s.rawChunk >>= fun c => .ok (s.getNextWith c)

/-- A task as enqueued by the wrapper: row range `[lo, hi)` and the queue it goes to. -/
structure Task where
  lo : Nat
  hi : Nat
  queue : Nat
  deriving DecidableEq, Repr

/-- MTWrapper_dense.cpp:183-193 (same loop at 170-181, 309-319 and MTWrapper_sparse.cpp:116-140): enqueue tasks while the
    partitioner has chunks; the `itr`-th task goes to queue `itr % numQueues`. `raw` is the raw chunk function.
    Result `none` = the loop is still running after `fuel` iterations. `startChunk = endChunk` holds at the head of the loop, so one
    variable `start` suffices. -/
def produce (raw : LP → Res Nat) (numQueues : Nat) : Nat → LP → (start itr : Nat) → Res (Option (List Task))
  | 0, s, _, _ => .ok (if s.hasNext then none else some [])
  | fuel + 1, s, start, itr =>
    if s.hasNext then do
      let c0 ← raw s
      let (c, s') := s.getNextWith c0
      let rest ← produce raw numQueues fuel s' (start + c) (itr + 1)
      return rest.map (fun ts => { lo := start, hi := start + c, queue := itr % numQueues } :: ts)
    else .ok (some [])

/-- MTWrapper_dense.cpp:127-129: the minimum task size taken from the configuration. -/
def clampChunkParam (minimumTaskSize : Int) : Nat :=
  if minimumTaskSize ≤ 0 then 1 else minimumTaskSize.toNat

/-- MTWrapper_dense.cpp:164-194: tasks for `len` rows without pre-partitioning. -/
def produceAll (raw : LP → Res Nat) (fl : FloatParts) (scheme : Scheme) (minimumTaskSize : Int)
    (len numThreads numQueues fuel : Nat) : Res (Option (List Task)) :=
  produce raw numQueues fuel
    (LP.mk' scheme len (clampChunkParam minimumTaskSize) numThreads (scheme = .auto) fl) 0 0

/-- MTWrapper_dense.cpp:153-161: inner loop of the pre-partitioned case: all tasks of partitioner `s` go to queue `q`;
    returns also the next start row. -/
def produceTo (raw : LP → Res Nat) (q : Nat) : Nat → LP → (start : Nat) → Res (Option (List Task × Nat))
  | 0, s, start => .ok (if s.hasNext then none else some ([], start))
  | fuel + 1, s, start =>
    if s.hasNext then do
      let c0 ← raw s
      let (c, s') := s.getNextWith c0
      let rest ← produceTo raw q fuel s' (start + c)
      return rest.map (fun (ts, e) => ({ lo := start, hi := start + c, queue := q } :: ts, e))
    else .ok (some ([], start))

/-- MTWrapper_dense.cpp:152-162: the loop over the per-queue partitioners; `q` is the index of the first one. -/
def producePre (raw : LP → Res Nat) (fuel : Nat) : List LP → (q start : Nat) → Res (Option (List Task))
  | [], _, _ => .ok (some [])
  | lp :: lps, q, start => do
    match ← produceTo raw q fuel lp start with
    | none => return none
    | some (ts, e) =>
      let rest ← producePre raw fuel lps (q + 1) e
      return rest.map (ts ++ ·)

/-- MTWrapper_dense.cpp:130-137: the per-queue partitioners. The first gets the remainder. `int remainder` is assumed not to
    overflow (it is smaller than the number of queues). -/
def prePartitioners (fl : FloatParts) (scheme : Scheme) (minimumTaskSize : Int) (len numThreads numQueues : Nat) :
    List LP :=
  let oneChunk := len / numQueues
  let remainder := len - oneChunk * numQueues
  let c := clampChunkParam minimumTaskSize
  LP.mk' scheme (oneChunk + remainder) c numThreads false fl ::
    (List.range (numQueues - 1)).map (fun _ => LP.mk' scheme oneChunk c numThreads false fl)

/-- A `Range` (src/runtime/local/datastructures/Range.h:22-29). -/
structure Range where
  rStart : Nat
  cStart : Nat
  rLen : Nat
  cLen : Nat
  deriving DecidableEq, Repr

/-- LoadPartitioningDistributed.h:30 `DistributionSchema`. -/
inductive DistSchema where
  | distribute | broadcast
  deriving DecidableEq

/-- LoadPartitioningDistributed.h:72-91 `CreateRange` for worker number `taskIndex` of `workers`. Integer division by zero
    workers is undefined behaviour. -/
def createRange (schema : DistSchema) (rows cols workers taskIndex : Nat) : Res Range :=
  match schema with
  | .distribute =>
    if workers = 0 then .error (.ub "division by zero") else
    let k := rows / workers
    let m := rows % workers
    .ok { rStart := taskIndex * k + min taskIndex m, cStart := 0
          rLen := ((taskIndex + 1) * k + min (taskIndex + 1) m) - (taskIndex * k + min taskIndex m), cLen := cols }
  | .broadcast => .ok { rStart := 0, cStart := 0, rLen := rows, cLen := cols }

/-- LoadPartitioningDistributed.h:61, 107-145: the chunks handed out while `HasNextChunk()`: one per worker, in worker order
    (only the ranges; the data-placement bookkeeping is not part of this definition). -/
def distributedRanges (schema : DistSchema) (rows cols workers : Nat) : Res (List Range) :=
  (List.range workers).mapM (createRange schema rows cols workers)

/-- `VectorCombine` as used in LoadPartitioningDistributed.h:147-205. -/
inductive Combine where
  | rows | cols | add | min | max
  deriving DecidableEq, Repr

/-- LoadPartitioningDistributed.h:147-190: the range recorded for the `i`-th worker (in iteration order) of an output of shape
    `rows × cols`. The distributed index advances by one row (ROWS) or one column (COLS/ADD) per worker, so for the `i`-th worker
    it is `i`. Other combines throw. -/
def outputRange (comb : Combine) (rows cols workers i : Nat) : Res Range :=
  match comb with
  | .rows =>
    let k := rows / workers
    let m := rows % workers
    let rs := i * k + Nat.min i m
    .ok { rStart := rs, rLen := ((i + 1) * k + Nat.min (i + 1) m) - rs, cStart := 0, cLen := cols }
  | .cols | .add =>
    let k := cols / workers
    let m := cols % workers
    let cs := i * k + Nat.min i m
    .ok { rStart := 0, rLen := rows, cStart := cs, cLen := ((i + 1) * k + Nat.min (i + 1) m) - cs }
  | _ => .error (.throw "LoadPartitioningDistributed: Only Rows/Cols combineType supported atm")

/-- LoadPartitioningDistributed.h:152-205: ranges for all workers of one output. -/
def outputRanges (comb : Combine) (rows cols workers : Nat) : Res (List Range) :=
  (List.range workers).mapM (outputRange comb rows cols workers)

end Verif.Sched
