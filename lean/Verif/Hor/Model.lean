/-
  Model of the fusion of vectorized pipelines that read the same matrix: `src/compiler/lowering/HorizontalFusionPass.cpp` and the parts of
  `src/compiler/utils/VectorizationUtils.cpp` it uses.
-/

namespace Verif.Hor

/-- Values of the IR: the `k`-th argument of the surrounding block, or the `j`-th result of the operation with the given identity.
    (Operations are pointers in MLIR; here they carry a number that is unique within the function.) -/
inductive Val
  | arg (k : Nat)
  | res (id j : Nat)
deriving DecidableEq, Repr

/-- An operation inside a pipeline. Simplification: no nested regions. -/
structure BOp (β : Type) where
  id : Nat
  args : List Val
  fn : List β → List β

/-- The body of a pipeline: its operations and the operands of the terminating `daphne::ReturnOp`; `Val.arg k` is the `k`-th block argument. -/
structure Body (β : Type) where
  ops : List (BOp β)
  ret : List Val

/-- `daphne::VectorCombine`, `src/ir/daphneir/DaphneOps.td`. -/
inductive Combine
  | rows | cols | add | min | max
deriving DecidableEq, Repr

/-- `daphne::VectorizedPipelineOp`: inputs, splits (`true` is `VectorSplit::ROWS`, `false` is `VectorSplit::NONE`), sizes of the outputs,
    combines and body. -/
structure Pipe (β : Type) where
  ins : List Val
  splits : List Bool
  outRows : List Val
  outCols : List Val
  combs : List Combine
  body : Body β

/-- An operation of the block. `captured` are values used inside nested regions (an if-statement or a loop), which MLIR's `getOperands` does
    not list. -/
inductive Op (β : Type)
  | plain (id : Nat) (args captured : List Val) (fn : List β → List β)
  | pipe (id : Nat) (p : Pipe β)

variable {β : Type}

def Op.id : Op β → Nat
  | .plain i _ _ _ => i
  | .pipe i _ => i

/-- `getOperands()` of the operation; the operands of a pipeline are inputs, numbers of rows, numbers of columns. -/
def Op.operands : Op β → List Val
  | .plain _ as _ _ => as
  | .pipe _ p => p.ins ++ p.outRows ++ p.outCols

/-- All values an operation needs. -/
def Op.needs : Op β → List Val
  | .plain _ as cs _ => as ++ cs
  | .pipe _ p => p.ins ++ p.outRows ++ p.outCols

/-- `isBeforeInBlock`: positions are counted from the front. -/
def pos (B : List (Op β)) (i : Nat) : Nat := B.findIdx fun o => o.id == i

/-- `VectorizationUtils::valueDependsOnResultOf`, VectorizationUtils.cpp:21-43. The recursion of the C++ code follows the definitions; here
    it is bounded by the size of the block, which suffices if definitions come before uses. Values from outside the block: no. -/
def valDep (B : List (Op β)) (a : Nat) : Nat → Val → Bool
  | 0, _ => false
  | _ + 1, .arg _ => false
  | n + 1, .res i _ =>
    if i = a then true
    else match B.find? fun o => o.id == i with
      | none => false
      | some o => if pos B i < pos B a then false else o.operands.any (valDep B a n)

/-- `VectorizationUtils::operationDependsOnResultOf`, VectorizationUtils.cpp:45-50. -/
def opDep (B : List (Op β)) (o : Op β) (a : Nat) : Bool := o.operands.any (valDep B a (B.length + 1))

/-- The pipelines of the block in order, HorizontalFusionPass.cpp:98-100. -/
def pipes : List (Op β) → List (Nat × Pipe β)
  | [] => []
  | .plain _ _ _ _ :: B => pipes B
  | .pipe i p :: B => (i, p) :: pipes B

/-- HorizontalFusionPass.cpp:121-135: one entry for each input of the first pipeline that the second one reads as well, with the same split,
    which is not a broadcast (`break` leaves the inner loop only). -/
def common (p q : Pipe β) : List (Val × Bool) := (p.ins.zip p.splits).filter fun x => (q.ins.zip q.splits).contains x && x.2

/-- HorizontalFusionPass.cpp:102-137: the pairs of pipelines to fuse. -/
def pairsOf (B : List (Op β)) : List (Nat × Pipe β) → List (Nat × Nat)
  | [] => []
  | (i, p) :: ps =>
    ps.flatMap (fun (jq : Nat × Pipe β) => if opDep B (.pipe jq.1 jq.2) i then [] else (common p jq.2).map fun _ => (i, jq.1)) ++ pairsOf B ps

/-- One operand after the other: block arguments are replaced by new block arguments, HorizontalFusionPass.cpp:74-80. -/
def renum : Nat → List Val → List Val × Nat
  | n, [] => ([], n)
  | n, .arg _ :: vs => let r := renum (n + 1) vs; (.arg n :: r.1, r.2)
  | n, .res i j :: vs => let r := renum n vs; (.res i j :: r.1, r.2)

/-- `moveOperationsToBlock`, HorizontalFusionPass.cpp:71-88 (operations before the terminator). -/
def renumOps : Nat → List (BOp β) → List (BOp β) × Nat
  | n, [] => ([], n)
  | n, o :: os =>
    let r := renum n o.args
    let r' := renumOps r.2 os
    ({ o with args := r.1 } :: r'.1, r'.2)

/-- Both bodies moved to the new block, and its terminator, HorizontalFusionPass.cpp:176-186. -/
def mergeBody (b c : Body β) : Body β :=
  let o1 := renumOps 0 b.ops
  let r1 := renum o1.2 b.ret
  let o2 := renumOps r1.2 c.ops
  let r2 := renum o2.2 c.ret
  ⟨o1.1 ++ o2.1, r1.1 ++ r2.1⟩

/-- The new pipeline, HorizontalFusionPass.cpp:154-172. -/
def mergePipe (p q : Pipe β) : Pipe β :=
  ⟨p.ins ++ q.ins, p.splits ++ q.splits, p.outRows ++ q.outRows, p.outCols ++ q.outCols, p.combs ++ q.combs, mergeBody p.body q.body⟩

/-- `replaceAllUsesWith` for the results of both pipelines, HorizontalFusionPass.cpp:188-190: `a` has `na` results, `b` has `nb`. -/
def rename (a na b nb n : Nat) : Val → Val
  | .arg k => .arg k
  | .res i j => if i = a ∧ j < na then .res n j else if i = b ∧ j < nb then .res n (na + j) else .res i j

def Op.rename (a na b nb n : Nat) : Op β → Op β
  | .plain i as cs f => .plain i (as.map (Hor.rename a na b nb n)) (cs.map (Hor.rename a na b nb n)) f
  | .pipe i p => .pipe i { p with ins := p.ins.map (Hor.rename a na b nb n), outRows := p.outRows.map (Hor.rename a na b nb n),
                                  outCols := p.outCols.map (Hor.rename a na b nb n) }

/-- Insert `o` before the operation `p`. -/
def insBefore (o : Op β) (p : Nat) : List (Op β) → List (Op β)
  | [] => [o]
  | x :: xs => if x.id = p then o :: x :: xs else x :: insBefore o p xs

/-- Insert `o` after the operation `p`. -/
def insAfter (o : Op β) (p : Nat) : List (Op β) → List (Op β)
  | [] => [o]
  | x :: xs => if x.id = p then x :: o :: xs else x :: insAfter o p xs

def remove (i : Nat) (B : List (Op β)) : List (Op β) := B.filter fun o => o.id != i

/-- `mlir::Operation::moveBefore`; moving an operation before itself changes nothing. -/
def moveBefore (o : Op β) (p : Nat) (B : List (Op β)) : List (Op β) := if o.id = p then B else insBefore o p (remove o.id B)

/-- `mlir::Operation::moveAfter`. -/
def moveAfter (o : Op β) (p : Nat) (B : List (Op β)) : List (Op β) := if o.id = p then B else insAfter o p (remove o.id B)

/-- The loop over `moveAfterOps`, VectorizationUtils.cpp:83-87: the position moves along. -/
def movesAfter : List (Op β) → Nat → List (Op β) → List (Op β)
  | [], _, B => B
  | o :: os, p, B => movesAfter os o.id (moveAfter o p B)

/-- Identity of a new operation: different from those of all existing ones. -/
def fresh (B : List (Op β)) : Nat := B.foldl (fun m o => Nat.max m (o.id + 1)) 0

def pipeOf (B : List (Op β)) (i : Nat) : Option (Pipe β) := ((pipes B).find? fun x => x.1 == i).map (·.2)

/-- `movePipelineInterleavedOperations(q, {b, a})`, VectorizationUtils.cpp:52-88, where `q` is the operation after `a`, which is the insertion
    point of the builder. `none`: the loop from `a` to `b` runs past the end of the block, because `b` does not come after `a`
    (undefined behaviour). -/
def interleaved (B : List (Op β)) (a b : Nat) : Option (List (Op β) × Nat) :=
  let rest := (B.dropWhile fun o => o.id != a).drop 1
  let mid := rest.takeWhile fun o => o.id != b
  match rest.drop mid.length, rest with
  | _ :: _, q :: _ =>
    let before := mid.filter fun o => !opDep B o a
    let after := mid.filter fun o => opDep B o a
    some (movesAfter after q.id (before.foldl (fun C o => moveBefore o q.id C) B), q.id)
  | _, _ => none

/-- One round of the loop, HorizontalFusionPass.cpp:145-211: fuse the pipelines `a` and `b` into the new operation `n`. -/
def fuseStep (B : List (Op β)) (a b : Nat) : Option (List (Op β) × Nat) := do
  let (B', q) ← interleaved B a b
  let p ← pipeOf B a
  let p' ← pipeOf B b
  let n := fresh B
  let B'' := insBefore (.pipe n (mergePipe p p')) q B'
  some (remove b (remove a (B''.map (·.rename a p.combs.length b p'.combs.length n))), n)

/-- Replace both pipelines by the new one in the remaining pairs, HorizontalFusionPass.cpp:192-202. -/
def update (a b n : Nat) (x : Nat) : Nat := if x = a ∨ x = b then n else x

def updatePairs (a b n : Nat) : List (Nat × Nat) → List (Nat × Nat)
  | [] => []
  | (x, y) :: ps => if update a b n x = update a b n y then updatePairs a b n ps else (update a b n x, update a b n y) :: updatePairs a b n ps

/-- The loop, HorizontalFusionPass.cpp:148-211; each round removes at least one pair, so that their number bounds the rounds. -/
def loop : Nat → List (Nat × Nat) → List (Op β) → Option (List (Op β))
  | _, [], B => some B
  | 0, _ :: _, B => some B
  | k + 1, (a, b) :: ps, B => do
    let (B', n) ← fuseStep B a b
    loop k (updatePairs a b n ps) B'

/-- `HorizontalFusionPass::runOnOperation`, HorizontalFusionPass.cpp:90-212, on one block. (Only pipelines of the same block are fused.) -/
def hfuse (B : List (Op β)) : Option (List (Op β)) := let ps := pairsOf B (pipes B); loop ps.length ps B

end Verif.Hor
