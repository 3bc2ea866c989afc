/-
  Model of the collection of sparse partial results of vectorized pipelines:
  src/runtime/local/vectorized/VectorizedDataSink.h, Tasks.cpp:160-228 and MTWrapper_sparse.cpp (data sinks).

  `add` runs under the sink's mutex when it is called by several workers, so it is one atomic step; the result sink is consumed
  after all workers have been joined (MTWrapper_sparse.cpp).
-/
import Verif.Csr.Bind
import Verif.Vect.Spec

namespace Verif.Csr
open Verif Verif.Vect
variable {α : Type}

/-- VectorizedDataSink.h:35-46: fields of the sink. `results` is the priority queue, as the list of its elements in the order in
which they will be popped (smallest start first). -/
structure Sink (α : Type) where
  combine : Combine
  numRows : Nat
  numCols : Nat
  nnz : Nat
  rowNnz : Buf Nat
  results : List (Nat × CM α)

/-- VectorizedDataSink.h:49-50 (constructor). -/
def Sink.new (combine : Combine) (rows cols : Nat) : Sink α := ⟨combine, rows, cols, 0, ⟨rows, fun _ => 0⟩, []⟩

/-- `priority_queue::emplace`. Simplification: elements with the same start are ordered by insertion (in the code: by pointer). -/
def enqueue (e : Nat × CM α) : List (Nat × CM α) → List (Nat × CM α)
  | [] => [e]
  | x :: xs => if e.1 < x.1 then e :: x :: xs else x :: enqueue e xs

/-- VectorizedDataSink.h:58-66: entries per row. -/
def addRowNnz (m : CM α) (rowNnz : Buf Nat) : Res (Buf Nat) :=
  forLoop 0 m.h.numRows rowNnz fun row rn => do
    let e ← m.h.off m.mem (row + 1)
    let b ← m.h.off m.mem row
    let k ← rn.read row
    rn.write row (k + (e - b))

/-- VectorizedDataSink.h:69-71. -/
def Sink.addResult (s : Sink α) (m : CM α) (start : Nat) : Res (Sink α) := do
  let n ← m.h.numNonZeros m.mem
  .ok { s with nnz := s.nnz + n, results := enqueue (start, m) s.results }

/-- VectorizedDataSink.h:52-79: `add`. -/
def Sink.add (s : Sink α) (m : CM α) (start : Nat) : Res (Sink α) :=
  match s.combine with
  | .cols => do
    let rn ← addRowNnz m s.rowNnz
    Sink.addResult { s with rowNnz := rn } m start
  | .rows => s.addResult m start
  | _ => .error (.throw "Vectorization of sparse matrices only implemented for row-wise combines")

/-- VectorizedDataSink.h:91-105: one iteration of the loop for row-wise combination. -/
def placeRows (res : CMem α) (p : Nat × CM α) : Res (CMem α) := do
  let offs ← forLoop 0 p.2.h.numRows res.offs fun row offs => do
    let a ← offs.read p.1
    let b ← p.2.h.off p.2.mem (row + 1)
    offs.write (p.1 + row + 1) (a + b)
  let n ← p.2.h.numNonZeros p.2.mem
  let a ← offs.read p.1
  let cols ← p.2.mem.cols.copy 0 res.cols a n
  let vals ← p.2.mem.vals.copy 0 res.vals a n
  .ok ⟨vals, cols, offs⟩

/-- VectorizedDataSink.h:107-113: row offsets for column-wise combination; `rowNnz` becomes the next position of each row. -/
def rowPositions (numRows : Nat) (offs rowNnz : Buf Nat) : Res (Buf Nat × Buf Nat) :=
  forLoop 0 numRows (offs, rowNnz) fun row (offs, rn) => do
    let a ← offs.read row
    let k ← rn.read row
    let offs ← offs.write (row + 1) (a + k)
    let a ← offs.read row
    let rn ← rn.write row a
    .ok (offs, rn)

/-- VectorizedDataSink.h:115-134: one iteration of the loop for column-wise combination. State: values, column indexes, next
position of each row. -/
def placeCols (st : Buf α × Buf Nat × Buf Nat) (p : Nat × CM α) : Res (Buf α × Buf Nat × Buf Nat) :=
  forLoop 0 p.2.h.numRows st fun row (vals, cols, rn) => do
    let offset ← p.2.h.off p.2.mem row
    let e ← p.2.h.off p.2.mem (row + 1)
    let len := e - offset
    let pos ← rn.read row
    let vals ← p.2.mem.vals.copy offset vals pos len
    let cols ← forLoop 0 len cols fun i cols => do
      let c ← p.2.mem.cols.read (offset + i)
      cols.write (pos + i) (p.1 + c)
    let rn ← rn.write row (pos + len)
    .ok (vals, cols, rn)

/-- VectorizedDataSink.h:81-140: `consume`. -/
def Sink.consume (s : Sink α) (jv : Nat → α) (jc jo : Nat → Nat) : Res (CM α) :=
  if s.results = [] then .error (.throw "Vectorized CSRMatrix without any iterations")
  else do
    let res := CM.create s.numRows s.numCols s.nnz jv jc jo
    let offs ← res.mem.offs.write 0 0
    match s.combine with
    | .rows => do
      let m ← s.results.foldlM placeRows ⟨res.mem.vals, res.mem.cols, offs⟩
      .ok ⟨res.h, m⟩
    | .cols => do
      let (offs, rn) ← rowPositions s.numRows offs s.rowNnz
      let (vals, cols, _) ← s.results.foldlM placeCols (res.mem.vals, res.mem.cols, rn)
      .ok ⟨res.h, ⟨vals, cols, offs⟩⟩
    | _ => .error (.ub "unreachable")

/-- Tasks.cpp:187-211: the batch loop of a sparse task. `f r r2` is the compiled function on the rows `[r, r2)` (one output);
the first argument bounds the number of iterations (`ru - r` suffices for `bs > 0`). -/
def batchLoop (f : Nat → Nat → Res (CM α)) (rl ru bs : Nat) : Nat → Nat → Sink α → Res (Sink α)
  | 0, _, s => .ok s
  | fuel + 1, r, s =>
    if r < ru then do
      let m ← f r (min (r + bs) ru)
      let s ← s.add m (r - rl)
      batchLoop f rl ru bs fuel (r + bs) s
    else .ok s

/-- Tasks.cpp:160-217: one sparse task for the rows `[rl, ru)` up to `localSinks[i]->consume()`; `rows`, `cols` are
`_wholeResultRows`, `_wholeResultCols` (`none` for -1). -/
def sparseTask (combine : Combine) (rows cols : Option Nat) (f : Nat → Nat → Res (CM α)) (rl ru bs : Nat) (jv : Nat → α) (jc jo : Nat → Nat) :
    Res (CM α) :=
  match combine, rows, cols with
  | .rows, _, some c => do
    let s ← batchLoop f rl ru bs (ru - rl) rl (Sink.new .rows (ru - rl) c)
    s.consume jv jc jo
  | .cols, some r, _ => do
    let s ← batchLoop f rl ru bs (ru - rl) rl (Sink.new .cols r (ru - rl))
    s.consume jv jc jo
  | .rows, _, none => .error (.throw "TODO: CompiledPipeLineTask (CSRMatrix) Rows")
  | .cols, none, _ => .error (.throw "TODO: CompiledPipeLineTask (CSRMatrix) Cols")
  | _, _, _ => .error (.throw "Not implemented")

/-- The workers finish the tasks in the given order; each adds its task's result to the result sink (Tasks.cpp:215). Only the
order of these atomic steps matters, as tasks share nothing else. `bs t` is the batch size of the worker that ran the task. -/
def runTasks (combine : Combine) (rows cols : Option Nat) (f : Nat → Nat → Res (CM α)) (bs : Nat × Nat → Nat) (jv : Nat → α) (jc jo : Nat → Nat) :
    List (Nat × Nat) → Sink α → Res (Sink α)
  | [], s => .ok s
  | t :: ts, s => do
    let m ← sparseTask combine rows cols f t.1 t.2 (bs t) jv jc jo
    let s ← s.add m t.1
    runTasks combine rows cols f bs jv jc jo ts s

end Verif.Csr
