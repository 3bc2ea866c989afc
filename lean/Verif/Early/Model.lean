/-
  Early returns of functions: src/parser/daphnedsl/DaphneDSLVisitor.cpp:2031-2252.

  The body of a function is a block of operations in SSA form; values are numbers. Simplifications: loops are left out (a return in a loop is rejected by an exception); values that are defined inside a
  region are not renamed when the operation with this region is cloned (they are not visible outside).
-/
import Verif.Basic.Res

namespace Verif.Early
variable {V F W : Type}

/-- A block: a list of operations. `op`: results, operation, operands (constants have no operands); `ite`: results, condition, then-block, else-block (`nil` if there is none). The last argument is the rest
of the block. -/
inductive Block (F : Type) where
  | nil
  | op (rs : List Nat) (f : F) (args : List Nat) (k : Block F)
  | ite (rs : List Nat) (c : Nat) (t e k : Block F)
  | yield (vs : List Nat) (k : Block F)
  | ret (vs : List Nat) (k : Block F)
  deriving DecidableEq

/-! ### Execution -/

/-- What operations do. -/
structure Sem (V F W : Type) where
  op : F → List V → W → List V × W
  truthy : V → Bool

abbrev Env (V : Type) := Nat → Option V

def bind (env : Env V) : List Nat → List V → Env V
  | r :: rs, v :: vs => fun x => if x = r then some v else bind env rs vs x
  | _, _ => env

def read (env : Env V) (ids : List Nat) : Option (List V) := ids.mapM env

/-- How a block ends: the function returns, the block yields values, or its end is reached. -/
inductive Out (V : Type) where
  | ret (vs : List V)
  | yield (vs : List V)
  | fall

/-- The values of an `if`. -/
def Out.vals : Out V → List V
  | .ret vs => vs
  | .yield vs => vs
  | .fall => []

/-- Execution of a block; values of a branch are visible in this branch only. `none`: a value is used that is not defined. -/
def exec (sem : Sem V F W) : Block F → Env V → W → Option (Out V × W)
  | .nil, _, w => some (.fall, w)
  | .op rs f args k, env, w => (read env args).bind fun xs => exec sem k (bind env rs (sem.op f xs w).1) (sem.op f xs w).2
  | .ite rs c t e k, env, w => (env c).bind fun b => (if sem.truthy b then exec sem t env w else exec sem e env w).bind fun r =>
    match r.1 with
    | .ret vs => some (.ret vs, r.2)
    | .yield vs => exec sem k (bind env rs vs) r.2
    | .fall => exec sem k (bind env rs []) r.2
  | .yield vs _, env, w => (read env vs).map fun xs => (.yield xs, w)
  | .ret vs _, env, w => (read env vs).map fun xs => (.ret xs, w)

/-! ### The pass -/

/-- Whether there is a return in the block itself. -/
def hasRet : Block F → Bool
  | .nil => false
  | .op _ _ _ k => hasRet k
  | .ite _ _ _ _ k => hasRet k
  | .yield _ k => hasRet k
  | .ret _ _ => true

def up (n : Nat) : Nat := if n = 0 then 0 else n + 1

/-- The level of the most nested return — 2206-2219; 0 if there is none. -/
def dep : Block F → Nat
  | .nil => 0
  | .op _ _ _ k => dep k
  | .ite _ _ t e k => max (max (up (dep t)) (up (dep e))) (dep k)
  | .yield _ k => dep k
  | .ret _ k => max 1 (dep k)

/-- 2031-2040: `removeTrailingOperationsAfterReturnOp`. -/
def trunc : Block F → Block F
  | .nil => .nil
  | .op rs f args k => .op rs f args (trunc k)
  | .ite rs c t e k => .ite rs c t e (trunc k)
  | .yield vs k => .yield vs (trunc k)
  | .ret vs _ => .ret vs .nil

def size : Block F → Nat
  | .nil => 0
  | .op _ _ _ k => size k + 1
  | .ite _ _ _ _ k => size k + 1
  | .yield _ k => size k + 1
  | .ret _ k => size k + 1

/-- 2049-2054: a yield at the end. -/
def addYield : Block F → Block F
  | .nil => .yield [] .nil
  | .op rs f args k => .op rs f args (addYield k)
  | .ite rs c t e k => .ite rs c t e (addYield k)
  | .yield vs .nil => .yield vs .nil
  | .yield vs k => .yield vs (addYield k)
  | .ret vs k => .ret vs (addYield k)

/-- Replacing a value by another. -/
def ren (s : List (Nat × Nat)) (x : Nat) : Nat := (s.find? fun p => p.1 == x).elim x (·.2)

/-- `replaceUsesWithIf`, for the operations of the block itself only — 2090-2096. -/
def substD (s : List (Nat × Nat)) : Block F → Block F
  | .nil => .nil
  | .op rs f args k => .op rs f (args.map (ren s)) (substD s k)
  | .ite rs c t e k => .ite rs (ren s c) t e (substD s k)
  | .yield vs k => .yield (vs.map (ren s)) (substD s k)
  | .ret vs k => .ret (vs.map (ren s)) (substD s k)

/-- `clone` of the operations one by one — 2074-2078: new results (`n` is larger than all values in use), the operands are the old ones. -/
def clone (n : Nat) : Block F → Block F
  | .nil => .nil
  | .op rs f args k => .op (rs.map (· + n)) f args (clone n k)
  | .ite rs c t e k => .ite (rs.map (· + n)) c t e (clone n k)
  | .yield vs k => .yield vs (clone n k)
  | .ret vs k => .ret vs (clone n k)

/-- The operations up to the yield, then what follows for the values it yields. -/
def onYield (f : List Nat → Block F) : Block F → Block F
  | .nil => .nil
  | .op rs g args k => .op rs g args (onYield f k)
  | .ite rs c t e k => .ite rs c t e (onYield f k)
  | .yield vs _ => f vs
  | .ret vs k => .ret vs (onYield f k)

/-- The operations of the block, then those after the `if`s around it, where the yields are removed and their values are used for the results of the `if`s — 2058-2103. A frame: results of an `if` and the
operations after it. -/
def attach : List (List Nat × Block F) → Block F → Block F
  | [], b => b
  | (rs, k) :: outer, b => onYield (fun vs => attach outer (substD (rs.zip vs) k)) b

/-- 2050-2104: `rectifyIfCaseWithoutReturnOp`. -/
def fixCase (n : Nat) (rs : List Nat) (k : Block F) (outer : List (List Nat × Block F)) (b : Block F) : Block F :=
  attach ((rs, k) :: outer.map fun p => (p.1, clone n p.2)) (addYield b)

/-- A branch of the new `if` before its return is replaced — 2119-2126, 2143-2150. -/
def newCase (n : Nat) (rs : List Nat) (k : Block F) (outer : List (List Nat × Block F)) (b : Block F) : Block F :=
  if hasRet b then trunc b else fixCase n rs k outer b

/-- 2106-2111: `replaceReturnWithYield` for the last operation (`none` if this is no return), and the number of values. -/
def toYield : Block F → Option (Block F × Nat)
  | .nil => none
  | .op rs f args k => (toYield k).map fun p => (.op rs f args p.1, p.2)
  | .ite rs c t e k => (toYield k).map fun p => (.ite rs c t e p.1, p.2)
  | .yield vs k => (toYield k).map fun p => (.yield vs p.1, p.2)
  | .ret vs .nil => some (.yield vs .nil, vs.length)
  | .ret vs k => (toYield k).map fun p => (.ret vs p.1, p.2)

/-- All values used. -/
def uses : Block F → List Nat
  | .nil => []
  | .op _ _ args k => args ++ uses k
  | .ite _ c t e k => c :: (uses t ++ (uses e ++ uses k))
  | .yield vs k => vs ++ uses k
  | .ret vs k => vs ++ uses k

/-- All values defined. -/
def defs : Block F → List Nat
  | .nil => []
  | .op rs _ _ k => rs ++ defs k
  | .ite rs _ t e k => rs ++ (defs t ++ (defs e ++ defs k))
  | .yield _ k => defs k
  | .ret _ k => defs k

/-- Why there is no result. -/
inductive Stop where
  | running
  | throw
  | ub
  deriving DecidableEq

/-- 2113-2168: `rectifyEarlyReturn`. Erasing the old `if` while one of its results is used is undefined. The verifier rejects branches that yield different numbers of values. -/
def rectify (n : Nat) (rs : List Nat) (c : Nat) (t e k : Block F) (outer : List (List Nat × Block F)) : Except Stop (Block F) :=
  match toYield (newCase n rs k outer t), toYield (newCase n rs k outer e) with
  | some (t', m), some (e', m') =>
    if m ≠ m' then .error .throw
    else
      let b : Block F := .ite (List.range' (2 * n) m) c t' e' (.ret (List.range' (2 * n) m) (if hasRet t && hasRet e then k else .nil))
      if rs.any ((uses b).contains ·) then .error .ub else .ok b
  | _, _ => .error .throw

/-- One round of the loop: the `if` around the first of the most nested returns, which is at level `d` of this block; `outer`: the `if`s around this block. -/
def step (n : Nat) : Nat → Block F → List (List Nat × Block F) → Except Stop (Block F)
  | _, .nil, _ => .error .ub
  | d, .op rs f args k, outer => do
    let k' ← step n d k outer
    .ok (.op rs f args k')
  | d, .yield vs k, outer => do
    let k' ← step n d k outer
    .ok (.yield vs k')
  | d, .ret vs k, outer => do
    let k' ← step n d k outer
    .ok (.ret vs k')
  | d, .ite rs c t e k, outer =>
    if dep t + 1 = d ∨ dep e + 1 = d then
      if d = 2 then rectify n rs c t e k outer
      else if dep t + 1 = d then do
        let t' ← step n (d - 1) t ((rs, k) :: outer)
        .ok (.ite rs c t' e k)
      else do
        let e' ← step n (d - 1) e ((rs, k) :: outer)
        .ok (.ite rs c t e' k)
    else do
      let k' ← step n d k outer
      .ok (.ite rs c t e k')

/-- Larger than all these numbers. -/
def bound (l : List Nat) : Nat := l.foldr (fun x m => max (x + 1) m) 0

/-- Whether the first return is the last operation. -/
def retLast : Block F → Bool
  | .nil => false
  | .op _ _ _ k => retLast k
  | .ite _ _ _ _ k => retLast k
  | .yield _ k => retLast k
  | .ret _ .nil => true
  | .ret _ _ => false

/-- 2201-2252: `rectifyEarlyReturns`, with a bound on the number of rounds. -/
def loop (params : List Nat) : Nat → Block F → Except Stop (Block F)
  | 0, _ => .error .running
  | m + 1, b =>
    if dep b = 0 then .ok b
    else if dep b = 1 then if retLast b then .ok b else loop params m (trunc b)
    else do
      let b' ← step (bound (params ++ (defs b ++ uses b))) (dep b) b []
      loop params m b'

/-- Whether the last operation is a terminator. -/
def closed : Block F → Bool
  | .nil => false
  | .op _ _ _ k => closed k
  | .ite _ _ _ _ k => closed k
  | .yield _ .nil => true
  | .yield _ k => closed k
  | .ret _ .nil => true
  | .ret _ k => closed k

def addRet : Block F → Block F
  | .nil => .ret [] .nil
  | .op rs f args k => .op rs f args (addRet k)
  | .ite rs c t e k => .ite rs c t e (addRet k)
  | .yield vs k => .yield vs (addRet k)
  | .ret vs k => .ret vs (addRet k)

/-- 2296-2302: the body of a function after parsing. -/
def body (params : List Nat) (m : Nat) (b : Block F) : Except Stop (Block F) := do
  let b' ← loop params m b
  .ok (if closed b' then b' else addRet b')

end Verif.Early
