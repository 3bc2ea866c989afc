/-
  What a block with vectorized pipelines computes.
-/
import Verif.Hor.Model

namespace Verif.Hor
variable {β : Type}

/-- All results, or none. -/
def mapO {γ δ : Type} (f : γ → Option δ) : List γ → Option (List δ)
  | [] => some []
  | x :: xs => do
    let y ← f x
    let ys ← mapO f xs
    some (y :: ys)

/-- Results computed so far. -/
abbrev Env (β : Type) := Nat → Option (List β)

def Env.put (V : Env β) (i : Nat) (rs : List β) : Env β := fun k => if k = i then some rs else V k

/-- The value of an operand; none if it is not defined (yet). -/
def look (as : List β) (V : Env β) : Val → Option β
  | .arg k => as[k]?
  | .res i j => (V i).bind fun rs => rs[j]?

def runOps (as : List β) : List (BOp β) → Env β → Option (Env β)
  | [], V => some V
  | o :: os, V => do
    let xs ← mapO (look as V) o.args
    runOps as os (V.put o.id (o.fn xs))

/-- One execution of the body of a pipeline on blocks of its inputs. -/
def runBody (b : Body β) (as : List β) : Option (List β) := do
  let V ← runOps as b.ops fun _ => none
  mapO (look as V) b.ret

/-- The vectorized engine: number of rows of an object, its rows `lo ≤ r < hi`, the combination of partial results (given the operation, the
    size of the result and the partial results), and the partitioning of the rows into tasks. -/
structure Engine (β : Type) where
  rows : β → Nat
  block : β → Nat → Nat → β
  comb : Combine → β → β → List β → β
  plan : Nat → List (Nat × Nat)

/-- Number of rows to be split: the largest number of rows of the split inputs, `MTWrapper.h`. -/
def numRows (E : Engine β) (splits : List Bool) (ins : List β) : Nat :=
  (splits.zip ins).foldl (fun n x => if x.1 then Nat.max n (E.rows x.2) else n) 0

/-- Inputs of the task for the rows `t`: blocks of the split inputs, the whole object for the others. -/
def taskInputs (E : Engine β) (splits : List Bool) (ins : List β) (t : Nat × Nat) : List β :=
  (splits.zip ins).map fun x => if x.1 then E.block x.2 t.1 t.2 else x.2

/-- A vectorized pipeline: the body is executed for each task, and the partial results are combined. -/
def runPipe (E : Engine β) (p : Pipe β) (ins rows cols : List β) : Option (List β) := do
  let parts ← mapO (fun t => runBody p.body (taskInputs E p.splits ins t)) (E.plan (numRows E p.splits ins))
  some ((p.combs.zip (rows.zip cols)).zipIdx.map fun x => E.comb x.1.1 x.1.2.1 x.1.2.2 (parts.filterMap fun vs => vs[x.2]?))

/-- The results of an operation. -/
def Op.run (E : Engine β) (as : List β) (V : Env β) : Op β → Option (List β)
  | .plain _ xs cs f => (mapO (look as V) (xs ++ cs)).map f
  | .pipe _ p => do
    let ins ← mapO (look as V) p.ins
    let rows ← mapO (look as V) p.outRows
    let cols ← mapO (look as V) p.outCols
    runPipe E p ins rows cols

/-- What an operation other than a pipeline receives: identity and operand values. (These operations include `print`, the return from the
    function, and so on: all effects of the program are visible here.) -/
def Op.event (as : List β) (V : Env β) : Op β → List (Nat × List β)
  | .plain i xs cs _ => ((mapO (look as V) (xs ++ cs)).map fun ys => (i, ys)).toList
  | .pipe _ _ => []

/-- Execute a block; `none` if a value is used that is not defined. -/
def exec (E : Engine β) (as : List β) : List (Op β) → Env β → Option (Env β × List (Nat × List β))
  | [], V => some (V, [])
  | o :: B, V => do
    let rs ← o.run E as V
    let (V', tr) ← exec E as B (V.put o.id rs)
    some (V', o.event as V ++ tr)

def run (E : Engine β) (as : List β) (B : List (Op β)) : Option (Env β × List (Nat × List β)) := exec E as B fun _ => none

end Verif.Hor
