import Verif.Sched.Lemmas
import Verif.Dense.Ew
/-
  Model of the distributed runtime (coordinator and workers, gRPC back end, synchronous and asynchronous):
    src/runtime/distributed/coordinator/kernels/{DistributedWrapper,Distribute,Broadcast,DistributedCompute,DistributedCollect}.h
    src/runtime/distributed/coordinator/scheduling/LoadPartitioningDistributed.h
    src/runtime/distributed/worker/WorkerImpl.cpp
    src/runtime/local/datastructures/{MetaDataObject,Structure}.cpp, DataPlacement.h, AllocationDescriptorGRPC.h

  Simplifications.  The contents of a data object of the coordinator is a plain table (`Mat`), whatever its representation is
  (views are windows: C22); a (de)serialised object has the same contents (C34 and the serialisation properties); worker addresses are
  numbers; `ix`, `vectorCombine`, `numRows`, `numCols` of a placement are not kept (nothing reads them, except the CSV loading of
  `readOrGetMatrix`, which throws here).  Each phase (send the chunks of one input / run the task / fetch one output) is modelled as
  in the asynchronous back end: first the loop over the workers, then the responses in an arbitrary order `ord`; the synchronous
  back end uses one thread per worker, whose effects touch the placement of that worker only (and the result matrix, under a
  lock or in disjoint regions).  Failing RPCs and lost workers are not modelled.
-/
namespace Verif.Dist
open Verif Verif.Dense Verif.Sched

variable {V : Type}

/-- What a worker stores under an identifier: a matrix, or a `double` (WorkerImpl.cpp:37-56). -/
inductive Val (V : Type) where
  | mat (m : Mat V)
  | scalar (v : V)

/-- `getNumRows()` of the object that carries the metadata; for a scalar this is the 0x0 matrix of Broadcast.h:148, 216. -/
def Val.rows : Val V → Nat
  | .mat m => m.rows
  | .scalar _ => 0

/-- `getNumCols()`, see `Val.rows`. -/
def Val.cols : Val V → Nat
  | .mat m => m.cols
  | .scalar _ => 0

/-- A `DataPlacement` of type `DIST_GRPC` (DataPlacement.h:30-44, AllocationDescriptorGRPC.h:27-37, DistributedAllocationHelpers.h:27-33).
`ident = none` is the empty identifier. -/
structure Placement where
  id : Nat
  loc : Nat
  range : Range
  ident : Option Nat
  placed : Bool
  deriving DecidableEq, Repr

/-- A data object of the coordinator: its contents and the placements of type `DIST_GRPC` of its `MetaDataObject`. -/
structure Obj (V : Type) where
  val : Val V
  pls : List Placement

/-- MetaDataObject.cpp:32-40 `getDataPlacementByLocation` (the other placements are at "Host" or a GPU number). -/
def Obj.findLoc (o : Obj V) (a : Nat) : Option Placement := o.pls.find? (fun p => p.loc == a)

/-- MetaDataObject.cpp:42-51 `updateRangeDataPlacementByID`, 53-61 `getDataPlacementByID` followed by an update of the placement found
(ids are unique: DataPlacement.h:43). -/
def Obj.update (o : Obj V) (id : Nat) (f : Placement → Placement) : Obj V :=
  { o with pls := o.pls.map (fun p => if p.id = id then f p else p) }

/-- MetaDataObject.cpp:20-24 `addDataPlacement`. -/
def Obj.add (o : Obj V) (p : Placement) : Obj V := { o with pls := o.pls ++ [p] }

/-- WorkerImpl.h: `tmp_file_counter_` and `localData_`; the identifier `tmp_<k>` is the number `k`. -/
structure Worker (V : Type) where
  counter : Nat
  data : Nat → Option (Val V)

/-- WorkerImpl.cpp:37-56 `Store`: the worker afterwards; the identifier is the old counter. -/
def Worker.store (k : Worker V) (v : Val V) : Worker V :=
  ⟨k.counter + 1, fun i => if i = k.counter then some v else k.data i⟩

/-- WorkerImpl.cpp:232-252 `readOrGetMatrix`: an unknown identifier is taken as a file name; there is no such file. -/
def Worker.lookup (k : Worker V) : Option Nat → Res (Val V)
  | none => .error (.throw "could not open file")
  | some i => match k.data i with
    | some v => .ok v
    | none => .error (.throw "could not open file")

/-- The coordinator's objects and the workers. -/
structure World (V : Type) where
  objs : Nat → Option (Obj V)
  workers : Nat → Worker V
  /-- `DataPlacement::instance_count` -/
  nextDp : Nat
  /-- references not used so far -/
  nextRef : Nat

def World.setObj (w : World V) (ref : Nat) (o : Obj V) : World V :=
  { w with objs := fun r => if r = ref then some o else w.objs r }

def World.setWorker (w : World V) (a : Nat) (k : Worker V) : World V :=
  { w with workers := fun b => if b = a then k else w.workers b }

/-- Creating a new data object (`DataObjectFactory::create`). -/
def World.alloc (w : World V) (v : Val V) : World V :=
  { w with objs := fun r => if r = w.nextRef then some ⟨v, []⟩ else w.objs r, nextRef := w.nextRef + 1 }

/-! ### Sending an input -/

/-- LoadPartitioningDistributed.h:107-145 `GetNextChunk` for worker number `i` of `n` at address `a`. -/
def nextChunk (schema : DistSchema) (n i a : Nat) (o : Obj V) (dp : Nat) : Res (Obj V × Placement × Nat) := do
  let range ← createRange schema o.val.rows o.val.cols n i
  match o.findLoc a with
  | some p =>
    if p.placed then
      if p.range = range then .ok (o, p, dp)
      else
        let q := { p with range := range, placed := false }
        .ok (o.update p.id (fun _ => q), q, dp)
    else
      let q := { p with range := range }
      .ok (o.update p.id (fun _ => q), q, dp)
  | none =>
    let q : Placement := ⟨dp, a, range, none, false⟩
    .ok (o.add q, q, dp + 1)

/-- A `Store` request: the placement it is for, the worker, the data. -/
structure Req (V : Type) where
  id : Nat
  addr : Nat
  val : Val V

/-- What is sent. Distribute.h:130, 205 (`sliceRow` of the range; it validates its arguments, DenseMatrix.cpp:31-62), Broadcast.h:170-181,
239-251 (the whole object). Scalars are never distributed (DistributedWrapper.h:119-160). -/
def payload (schema : DistSchema) (v : Val V) (g : Range) : Res (Val V) :=
  match schema, v with
  | .broadcast, v => .ok v
  | .distribute, .mat m =>
    if Hdr.validRange g.rStart (g.rStart + g.rLen : Nat) m.rows then
      .ok (.mat (m.window g.rStart (g.rStart + g.rLen) 0 m.cols))
    else .error (.throw "invalid row range")
  | .distribute, .scalar _ => .error (.ub "sliceRow on a scalar")

/-- Distribute.h:118-157, 189-231; Broadcast.h:152-184, 222-262: the loop over the workers `as` (the first is number `i` of `n`). -/
def prepare (schema : DistSchema) (n : Nat) : List Nat → Nat → Obj V → Nat → Res (Obj V × Nat × List (Req V))
  | [], _, o, dp => .ok (o, dp, [])
  | a :: as, i, o, dp => do
    let (o, p, dp) ← nextChunk schema n i a o dp
    if p.placed then prepare schema n as (i + 1) o dp
    else do
      let v ← payload schema o.val p.range
      let (o, dp, rs) ← prepare schema n as (i + 1) o dp
      .ok (o, dp, ⟨p.id, a, v⟩ :: rs)

/-- Distribute.h:160-175, 221-226; Broadcast.h:186-201, 255-260: the worker stores the data, the coordinator records the identifier. -/
def finishStore (ref : Nat) (w : World V) (r : Req V) : Res (World V) :=
  match w.objs ref with
  | none => .error (.ub "dangling pointer")
  | some o =>
    let k := w.workers r.addr
    .ok ((w.setWorker r.addr (k.store r.val)).setObj ref
      (o.update r.id (fun p => { p with ident := some k.counter, placed := true })))

/-- The order in which the responses of phase `k` arrive. -/
abbrev Order := (α : Type) → Nat → List α → List α

/-- Every request is answered exactly once. -/
def Order.Valid (ord : Order) : Prop := ∀ α k l, (ord α k l).Perm l

/-- Distribute.h:107-177, 184-236 / Broadcast.h:130-203, 208-265. -/
def place (schema : DistSchema) (ws : List Nat) (ord : Order) (k : Nat) (ref : Nat) (w : World V) : Res (World V) :=
  match w.objs ref with
  | none => .error (.ub "dangling pointer")
  | some o => do
    let (o', dp, rs) ← prepare schema ws.length ws 0 o w.nextDp
    (ord (Req V) k rs).foldlM (finishStore ref) { (w.setObj ref o') with nextDp := dp }

/-! ### Running the task -/

/-- LoadPartitioningDistributed.h:153-205 for one worker and one output. -/
def setOutput (comb : Combine) (n i a : Nat) (o : Obj V) (dp : Nat) : Res (Obj V × Nat) := do
  let range ← outputRange comb o.val.rows o.val.cols n i
  match o.findLoc a with
  | some p => .ok (o.update p.id (fun p => { p with range := range, ident := none, placed := true }), dp)
  | none => .ok (o.add ⟨dp, a, range, none, true⟩, dp + 1)

/-- LoadPartitioningDistributed.h:153: the loop over the outputs. An output of unknown shape is a null pointer. -/
def setOutputsFor (n i a : Nat) : List (Nat × Combine) → World V → Res (World V)
  | [], w => .ok w
  | (ref, comb) :: rest, w =>
    match w.objs ref with
    | none => .error (.ub "null pointer")
    | some o => do
      let (o', dp) ← setOutput comb n i a o w.nextDp
      setOutputsFor n i a rest { (w.setObj ref o') with nextDp := dp }

/-- LoadPartitioningDistributed.h:147-205 `SetOutputsMetadata`: the loop over the workers. -/
def setOutputs (n : Nat) (outs : List (Nat × Combine)) : List Nat → Nat → World V → Res (World V)
  | [], _, w => .ok w
  | a :: as, i, w => do
    let w ← setOutputsFor n i a outs w
    setOutputs n outs as (i + 1) w

/-- A `Compute` request: the worker and the identifiers of the inputs. -/
structure Task where
  addr : Nat
  idents : List (Option Nat)

/-- DistributedCompute.h:134-137, 196-199: the identifier of one argument at worker `a`. -/
def argIdent (w : World V) (a : Nat) (ref : Nat) : Res (Option Nat) :=
  match w.objs ref with
  | none => .error (.ub "dangling pointer")
  | some o => match o.findLoc a with
    | none => .error (.ub "null pointer")
    | some p => .ok p.ident

/-- DistributedCompute.h:131-152, 193-207. -/
def mkTask (w : World V) (args : List Nat) (a : Nat) : Res Task := do
  let ids ← args.mapM (argIdent w a)
  .ok ⟨a, ids⟩

/-- WorkerImpl.cpp:122-134: the outputs are stored one after the other. Returns the identifiers. -/
def Worker.storeAll : List (Mat V) → Worker V → Worker V × List Nat
  | [], k => (k, [])
  | m :: ms, k =>
    let (k', is) := Worker.storeAll ms (k.store (.mat m))
    (k', k.counter :: is)

/-- DistributedCompute.h:161-171, 216-226: recording the identifiers of the outputs at worker `a`. -/
def record (a : Nat) : List Nat → List Nat → World V → Res (World V)
  | _, [], w => .ok w
  | [], _ :: _, _ => .error (.ub "res[o] out of bounds")
  | ref :: refs, i :: is, w =>
    match w.objs ref with
    | none => .error (.ub "null pointer")
    | some o => match o.findLoc a with
      | none => .error (.ub "null pointer")
      | some p => record a refs is (w.setObj ref (o.update p.id (fun p => { p with ident := some i, placed := true })))

/-- WorkerImpl.cpp:58-137 `Compute` with the pipeline function `f`, and the processing of the response. -/
def runTask (f : List (Val V) → Res (List (Mat V))) (outs : List Nat) (w : World V) (t : Task) : Res (World V) := do
  let k := w.workers t.addr
  let vals ← t.idents.mapM k.lookup
  let ms ← f vals
  let (k', is) := Worker.storeAll ms k
  record t.addr outs is (w.setWorker t.addr k')

/-- DistributedCompute.h:113-174, 181-233. -/
def compute (f : List (Val V) → Res (List (Mat V))) (ws : List Nat) (ord : Order) (k : Nat) (args : List Nat)
    (outs : List (Nat × Combine)) (w : World V) : Res (World V) := do
  let w ← setOutputs ws.length outs ws 0 w
  let ts ← ws.mapM (mkTask w args)
  (ord Task k ts).foldlM (runTask f (outs.map Prod.fst)) w

/-! ### Fetching an output -/

/-- A deserialised dense matrix. -/
def ofMat (m : Mat V) : DM V := ⟨Hdr.new m.rows m.cols, ⟨m.rows * m.cols, fun i => m.cell (i / m.cols) (i % m.cols)⟩⟩

/-- The contents of a dense matrix. -/
def toMat (x : DM V) : Mat V := ⟨x.numRows, x.numCols, fun r c => x.mem.data (x.addr r c)⟩

/-- DistributedCollect.h:176-186, 232-243. -/
def combineInto [Add V] (comb : Combine) (res : DM V) (g : Range) (chunk : DM V) : Res (DM V) :=
  if comb = .add then ewBinaryMatInPlace (· + ·) res chunk
  else do
    let m ← forLoop 0 g.rLen res.mem fun r m =>
      chunk.mem.copy (chunk.h.start + r * chunk.h.rowSkip) m
        (res.h.start + g.rStart * res.h.rowSkip + r * res.h.rowSkip + g.cStart) g.cLen
    .ok ⟨res.h, m⟩

/-- A `Transfer` request: the placement. -/
def transfer [Add V] (comb : Combine) (ref : Nat) (w : World V) (p : Placement) : Res (World V) :=
  match w.objs ref with
  | some ⟨.mat m, pls⟩ => do
    -- WorkerImpl.cpp:154-157
    let v ← (w.workers p.loc).lookup p.ident
    match v with
    | .scalar _ => .error (.ub "a scalar is not a Structure")
    | .mat c => do
      let res ← combineInto comb (ofMat m) p.range (ofMat c)
      -- DistributedCollect.h:189-190, 246-247
      .ok (w.setObj ref (Obj.update ⟨.mat (toMat res), pls⟩ p.id (fun p => { p with placed := false })))
  | _ => .error (.ub "null pointer")

/-- DistributedCollect.h:126-193, 200-254. -/
def collect [Add V] (ord : Order) (k : Nat) (ref : Nat) (comb : Combine) (w : World V) : Res (World V) :=
  match w.objs ref with
  | none => .error (.throw "result matrix must be already allocated by wrapper")
  | some o => (ord Placement k o.pls).foldlM (transfer comb ref) w

/-! ### The whole pipeline -/

/-- DaphneVectorizableOpInterface.td:26 `VectorSplit`. -/
inductive Split where
  | none | rows
  deriving DecidableEq, Repr

/-- An element of the array `inputs`: a pointer to a data object or the bits of a scalar. -/
inductive In (V : Type) where
  | obj (ref : Nat)
  | scalar (v : V)
  deriving DecidableEq

/-- A distributed pipeline: what the workers compute (the code fragment), the inputs and how they are split, the outputs with
combine and, if known, shape. -/
structure Pipe (V : Type) where
  f : List (Val V) → Res (List (Mat V))
  inputs : List (In V × Split)
  outs : List (Combine × Option (Nat × Nat))

/-- DistributedWrapper.h:58-60 `isBroadcast`. -/
def isBroadcast (split : Split) (rows : Nat) : Bool := split == .none || (split == .rows && rows == 1)

/-- DistributedWrapper.h:81-89: allocation of the outputs; those of unknown shape stay null. Returns the references. -/
def allocOuts [Zero V] (junk : Nat → Nat → V) : List (Combine × Option (Nat × Nat)) → World V → World V × List (Nat × Combine)
  | [], w => (w, [])
  | (comb, some (r, c)) :: rest, w =>
    let (w', refs) := allocOuts junk rest (w.alloc (.mat ⟨r, c, if comb = .add then fun _ _ => 0 else junk⟩))
    (w', (w.nextRef, comb) :: refs)
  | (comb, none) :: rest, w =>
    let (w', refs) := allocOuts junk rest { w with nextRef := w.nextRef + 1 }
    (w', (w.nextRef, comb) :: refs)

/-- DistributedWrapper.h:119-160: distributing or broadcasting the inputs. Returns the references of the objects that carry the
metadata (for scalars a new one, Broadcast.h:148, 216). -/
def placeInputs (ws : List Nat) (ord : Order) : List (In V × Split) → Nat → World V → Res (World V × List Nat)
  | [], _, w => .ok (w, [])
  | (.scalar v, .none) :: rest, k, w => do
    let w1 ← place .broadcast ws ord k w.nextRef (w.alloc (.scalar v))
    let (w2, refs) ← placeInputs ws ord rest (k + 1) w1
    .ok (w2, w.nextRef :: refs)
  | (.scalar _, .rows) :: _, _, _ => .error (.ub "getNumRows of a scalar")
  | (.obj ref, split) :: rest, k, w =>
    match w.objs ref with
    | none => .error (.ub "dangling pointer")
    | some o => do
      let w1 ← place (if isBroadcast split o.val.rows then .broadcast else .distribute) ws ord k ref w
      let (w2, refs) ← placeInputs ws ord rest (k + 1) w1
      .ok (w2, ref :: refs)

/-- DistributedWrapper.h:186-196: fetching the outputs. -/
def collectAll [Add V] (ord : Order) : List (Nat × Combine) → Nat → World V → Res (World V)
  | [], _, w => .ok w
  | (ref, comb) :: rest, k, w => do
    let w ← collect ord k ref comb w
    collectAll ord rest (k + 1) w

/-- DistributedWrapper.h:70-197 `execute`. Returns the references of the outputs. -/
def execute [Add V] [Zero V] [DecidableEq V] (ws : List Nat) (ord : Order) (junk : Nat → Nat → V) (p : Pipe V) (w : World V) :
    Res (World V × List Nat) := do
  let (w, outs) := allocOuts junk p.outs w
  if ¬ (p.inputs.map Prod.fst).Nodup then
    .error (.throw "Distributed runtime only supports unique inputs for now")
  else do
    let (w, args) ← placeInputs ws ord p.inputs 0 w
    let w ← compute p.f ws ord p.inputs.length args outs w
    let w ← collectAll ord outs (p.inputs.length + 1) w
    .ok (w, outs.map Prod.fst)

/-! ### Histories -/

/-- Structure.cpp:24-38 `clone_mdo`: copies of the placements, with new ids. -/
def clonePls : List Placement → Nat → List Placement × Nat
  | [], dp => ([], dp)
  | p :: ps, dp =>
    let (qs, dp') := clonePls ps (dp + 1)
    ({ p with id := dp } :: qs, dp')

/-- The coordinator program, as far as the distributed runtime can see it: some local operation creates a matrix, a matrix is
destroyed, a view of a dense matrix is created (DenseMatrix.cpp:98-115), a pipeline is executed. -/
inductive Op (V : Type) where
  | create (m : Mat V)
  | free (ref : Nat)
  | view (ref rl ru cl cu : Nat)
  | pipe (ord : Order) (junk : Nat → Nat → V) (p : Pipe V)

/-- DenseMatrix.cpp:98-115: the view constructor, on contents and metadata. -/
def mkView (ref rl ru cl cu : Nat) (w : World V) : Res (World V) :=
  match w.objs ref with
  | some ⟨.mat m, pls⟩ =>
    if ¬ Hdr.validRange rl ru m.rows then .error (.throw "invalid row range")
    else if ¬ Hdr.validRange cl cu m.cols then .error (.throw "invalid column range")
    else
      let (qs, dp) := clonePls pls w.nextDp
      .ok { w with objs := fun r => if r = w.nextRef then some ⟨.mat (m.window rl ru cl cu), qs⟩ else w.objs r,
                   nextRef := w.nextRef + 1, nextDp := dp }
  | _ => .error (.ub "dangling pointer")

/-- One operation. -/
def step [Add V] [Zero V] [DecidableEq V] (ws : List Nat) (op : Op V) (w : World V) : Res (World V) :=
  match op with
  | .create m => .ok (w.alloc (.mat m))
  | .free ref => .ok { w with objs := fun r => if r = ref then none else w.objs r }
  | .view ref rl ru cl cu => mkView ref rl ru cl cu w
  | .pipe ord junk p => do
    let (w, _) ← execute ws ord junk p w
    .ok w

/-- The state at start: no objects; the workers may have stored things for earlier coordinators. -/
def World.init (workers : Nat → Worker V) : World V := ⟨fun _ => none, workers, 0, 0⟩

end Verif.Dist
