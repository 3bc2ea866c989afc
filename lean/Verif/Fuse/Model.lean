/-
  Model of the pass that fuses vectorizable operations into pipelines: src/compiler/lowering/VectorizeComputationsPass.cpp and
  src/compiler/utils/VectorizationUtils.cpp.

  Simplifications: one straight-line block (no nested regions, so every fusion candidate is "qualified", lines 142-164); each operation has
  one result; a scalar is a 1x1 matrix (the casts of lines 306-327 do nothing then); the operations that compute the output sizes are not
  items of the block (their effect is `sizesBody`, Vect/Body.lean).
-/
import Verif.Vect.Body

namespace Verif.Fuse
open Verif Verif.Vect
variable {α : Type}

/-- An operand: a value defined outside the block, or the result of an operation of the block. -/
inductive Ref
  | arg (k : Nat)
  | op (i : Nat)
  deriving DecidableEq

/-- A vectorizable operation, or any other one. -/
inductive Kind (α : Type)
  | vec (op : VOp α)
  | other (f : List (Mat α) → Mat α)

/-- An operation of the block. `marked`: in restricted mode, whether it has the attribute that allows vectorization; otherwise true. -/
structure Stmt (α : Type) where
  kind : Kind α
  args : List Ref
  marked : Bool := true

/-- A block; operations are numbered by their original position. -/
abbrev Prog (α : Type) := List (Stmt α)

/-- The operands of operation `i`. -/
def argsOf (P : Prog α) (i : Nat) : List Ref := ((P[i]?).map (·.args)).getD []

/-- The vectorizable operation `i`. -/
def vopOf (P : Prog α) (i : Nat) : Option (VOp α) :=
  match P[i]? with
  | some ⟨.vec op, _, _⟩ => some op
  | _ => none

/-- VectorizeComputationsPass.cpp:120-125: whether the operation is considered. -/
def cand (P : Prog α) (i : Nat) : Bool :=
  match P[i]? with
  | some ⟨.vec _, _, m⟩ => m
  | _ => false

/-- `getVectorSplits()`. -/
def splitsOf (P : Prog α) (i : Nat) : List Split := ((vopOf P i).map (·.splits)).getD []

/-- Whether the result is combined by rows. -/
def byRows (P : Prog α) (i : Nat) : Bool := ((vopOf P i).map fun op => decide (op.combine = .rows)).getD false

/-- VectorizationUtils.cpp:21-43: `valueDependsOnResultOf(value, op)` in the original block (the recursion ends because operands are defined
before their users; the first argument bounds its depth). -/
def dependsOn (P : Prog α) (p : Nat) : Nat → Ref → Bool
  | 0, _ => false
  | _ + 1, .arg _ => false
  | n + 1, .op j => j == p || (!(decide (j < p)) && (argsOf P j).any (dependsOn P p n))

/-- VectorizeComputationsPass.cpp:41-55: `isDirectlyFusible(opBefore, pipeline)`. -/
def directlyFusible (P : Prog α) (w : Nat) (pipe : List Nat) : Bool :=
  pipe.all fun v => (argsOf P v).all fun r =>
    match r with
    | .arg _ => true
    | .op j => pipe.contains j || j == w || !(dependsOn P w P.length (.op j))

/-- VectorizeComputationsPass.cpp:128-178: the entries of `possibleMerges` for `v`. -/
def merges (P : Prog α) (v : Nat) : List Nat :=
  ((argsOf P v).zip (splitsOf P v)).filterMap fun rs =>
    match rs with
    | (.op j, .rows) => if cand P j && byRows P j then some j else none
    | _ => none

/-- `pipelines` and `operationToPipelineIx`. -/
structure FSt where
  pipes : List (List Nat)
  ix : Nat → Option Nat

/-- VectorizeComputationsPass.cpp:67-96: `greedyPipelineFusion`. (The loop of lines 77-81 has no effect: its `continue` belongs to itself.) -/
def fuse (P : Prog α) (cur : Nat) (st : FSt) (w : Nat) : FSt :=
  match st.ix w with
  | some e =>
    let existing := st.pipes.getD e []
    ⟨(st.pipes.set cur (st.pipes.getD cur [] ++ existing)).set e [], fun i => if existing.contains i then some cur else st.ix i⟩
  | none =>
    if directlyFusible P w (st.pipes.getD cur []) then
      ⟨st.pipes.set cur (st.pipes.getD cur [] ++ [w]), fun i => if i = w then some cur else st.ix i⟩
    else st

/-- VectorizeComputationsPass.cpp:185-205: one iteration of the loop over the vectorizable operations. -/
def visit (P : Prog α) (st : FSt) (v : Nat) : FSt :=
  match st.ix v with
  | some c => (merges P v).foldl (fuse P c) st
  | none => (merges P v).foldl (fuse P st.pipes.length) ⟨st.pipes ++ [[v]], st.ix⟩

/-- The vectorizable operations in the order of the block. -/
def candidates (P : Prog α) : List Nat := (List.range P.length).filter (cand P)

/-- VectorizeComputationsPass.cpp:181-205. Each pipeline lists its operations in the reverse order of its body. -/
def pipelines (P : Prog α) : List (List Nat) := ((candidates P).reverse.foldl (visit P) ⟨[], fun _ => none⟩).pipes

/-! ### Creation of the pipelines -/

/-- What the block consists of: operations and pipelines (with the operations of the body). -/
inductive Item
  | one (i : Nat)
  | pipe (body : List Nat)
  deriving DecidableEq

/-- The operations that an item executes. -/
def Item.ops : Item → List Nat
  | .one i => [i]
  | .pipe l => l

/-- The results of other items that an item uses. -/
def Item.uses (P : Prog α) (it : Item) : List Nat :=
  it.ops.flatMap fun i => (argsOf P i).filterMap fun r =>
    match r with
    | .op j => if it.ops.contains j then none else some j
    | .arg _ => none

/-- The position of the item that defines the result of operation `j`. -/
def posOf (B : List Item) (j : Nat) : Nat := B.findIdx fun it => it.ops.contains j

/-- VectorizationUtils.cpp:21-43: `valueDependsOnResultOf(value, op)` in the current block; the first number bounds the depth of the recursion. -/
def valueDepends (P : Prog α) (B : List Item) (p : Nat) : Nat → Nat → Bool
  | 0, _ => false
  | n + 1, j => j == p || (!(decide (posOf B j < posOf B p)) && (((B[posOf B j]?).map (Item.uses P)).getD []).any (valueDepends P B p n))

/-- VectorizationUtils.cpp:45-50: `operationDependsOnResultOf(src, op)`. -/
def itemDepends (P : Prog α) (B : List Item) (it : Item) (p : Nat) : Bool := (it.uses P).any (valueDepends P B p (B.length + 1))

/-- VectorizationUtils.cpp:52-76: the loop that decides which items are moved before and after the pipeline. `seen`: the operations of the
pipeline that were skipped already, `todo`: the other ones (`currSkip` on). -/
def classify (P : Prog α) (B : List Item) : List Nat → List Nat → List Item → Res (List Item × List Item)
  | _, _, [] => .ok ([], [])
  | _, [], _ :: _ => .error (.ub "end iterator")
  | seen, q :: todo, it :: l =>
    if it = .one q then classify P B (q :: seen) todo l
    else do
      let ba ← classify P B seen (q :: todo) l
      .ok (if seen.any (itemDepends P B it) then (ba.1, it :: ba.2) else (it :: ba.1, ba.2))

/-- Not an operation of the pipeline. -/
def outside (pipe : List Nat) (it : Item) : Bool :=
  match it with
  | .one i => !(pipe.contains i)
  | .pipe _ => true

/-- VectorizeComputationsPass.cpp:208-349 and VectorizationUtils.cpp:52-87: one pipeline (in the order of `pipelines`) replaces its operations;
it is placed where its first element (the last operation of its body) was. -/
def create (P : Prog α) (B : List Item) (pipe : List Nat) : Res (List Item) :=
  match pipe.reverse with
  | [] => .ok B
  | first :: rest =>
    let start := posOf B first
    let stop := posOf B (pipe.headD 0)
    if stop < start then .error (.ub "iteration past the end of the block")
    else do
      let ba ← classify P B [] (first :: rest) ((B.drop start).take (stop - start))
      .ok ((B.take start ++ ba.1).filter (outside pipe) ++ .pipe (first :: rest) :: (ba.2 ++ B.drop stop).filter (outside pipe))

/-- All pipelines, one after the other. -/
def createAll (P : Prog α) : List Item → List (List Nat) → Res (List Item)
  | B, [] => .ok B
  | B, p :: ps => do
    let B' ← create P B p
    createAll P B' ps

/-- The pass. -/
def vectorize (P : Prog α) : Res (List Item) := createAll P ((List.range P.length).map .one) (pipelines P)

end Verif.Fuse
