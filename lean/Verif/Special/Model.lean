/-
  The pass that specialises functions: src/compiler/lowering/SpecializeGenericFunctionsPass.cpp.

  Functions are SSA code whose values are numbered in the order of their definitions (arguments first). Simplifications: functions have one result; loops and
  `map` are left out; the inference in the middle of a walk (355-357) is taken to change types only. Type and shape inference is any function `types` that
  gives types to the operands of a call; canonicalisation (after inference, 175-196) is any function `canon` on code.
-/
import Verif.Basic.Res

namespace Verif.Special
variable {V F W : Type}

/-- Code of a function: each operation defines the next value. A branch of `ite` ends with the value it yields. -/
inductive Code (V F : Type) where
  | ret (v : Nat)
  | const (v : V) (k : Code V F)
  | op (f : F) (args : List Nat) (k : Code V F)
  | call (g : String) (args : List Nat) (k : Code V F)
  | ite (c : Nat) (thn els k : Code V F)

/-- What operations do to values and the outside world. -/
structure Sem (V F W : Type) where
  op : F → List V → W → V × W
  truthy : V → Bool

/-- Execution of code, if calls do what `callf` says. `none`: not defined, or not finished within the steps that `callf` allows. -/
def evalC (sem : Sem V F W) (callf : String → List V → W → Option (V × W)) : Code V F → List V → W → Option (V × W)
  | .ret v, env, w => env[v]?.map fun x => (x, w)
  | .const v k, env, w => evalC sem callf k (env ++ [v]) w
  | .op f args k, env, w => (args.mapM (env[·]?)).bind fun vs => evalC sem callf k (env ++ [(sem.op f vs w).1]) (sem.op f vs w).2
  | .call g args k, env, w => (args.mapM (env[·]?)).bind fun vs => (callf g vs w).bind fun r => evalC sem callf k (env ++ [r.1]) r.2
  | .ite c thn els k, env, w =>
    env[c]?.bind fun b => (if sem.truthy b then evalC sem callf thn env w else evalC sem callf els env w).bind fun r => evalC sem callf k (env ++ [r.1]) r.2

/-- Types of parameters: unknown, matrices (value type, number of rows, number of columns, sparsity; `none` is unknown), others. -/
inductive Ty where
  | unknown
  | other (name : String)
  | mat (elem : Option String) (rows cols sparsity : Option Nat)
  deriving DecidableEq

/-- A function. `preset` are the constants that have been inserted in place of arguments. -/
structure Func (V F : Type) where
  tys : List Ty
  preset : List (Option V)
  body : Code V F

/-- A function without inserted constants. -/
def Func.plain (tys : List Ty) (body : Code V F) : Func V F := ⟨tys, tys.map fun _ => none, body⟩

/-- The values of the arguments in the body: `replaceAllUsesWith` (250-253). -/
def bindArgs (preset : List (Option V)) (args : List V) : List V := List.zipWith (fun p a => p.getD a) preset args

/-- Execution of a call with at most `n` nested calls. -/
def evalF (sem : Sem V F W) (P : String → Option (Func V F)) : Nat → String → List V → W → Option (V × W)
  | 0, _, _, _ => none
  | n + 1, g, args, w => (P g).bind fun G => if args.length = G.preset.length then evalC sem (evalF sem P n) G.body (bindArgs G.preset args) w else none

/-- 44-50: `isUntypedFunction`. -/
def isUntyped (G : Func V F) : Bool := G.tys.any fun
  | .unknown => true
  | .mat none _ _ _ => true
  | _ => false

/-- 64-71: `isFunctionTemplate`. -/
def isTemplate (G : Func V F) : Bool := G.tys.any fun
  | .unknown => true
  | .mat none _ _ _ => true
  | .mat _ none none none => true
  | _ => false

/-- 73-76: `uniqueSpecializedFuncName`. -/
def uniqueName (g : String) (n : Nat) : String := g ++ "-" ++ toString n

/-- 85-96: `callTypesMatchFunctionTypes`. -/
def typesMatch (fs cs : List Ty) : Bool := (fs.zip cs).all fun p => p.1 = p.2

/-- 117-121: one argument of `getSpecializedFuncArgTypes`. -/
def tyOk : Ty → Ty → Bool
  | .unknown, _ => true
  | .mat none _ _ _, .mat _ _ _ _ => true
  | .mat e none none none, .mat e' _ _ _ => e = e'
  | a, b => a = b

/-- The calls of a function in the order of the walk: name of the function, and for each operand the constant that defines it (`constantOfAnyType`,
CompilerUtils.h:95-101). `kn` are the constants among the values defined before. -/
def calls : Code V F → List (Option V) → List (String × List (Option V))
  | .ret _, _ => []
  | .const v k, kn => calls k (kn ++ [some v])
  | .op _ _ k, kn => calls k (kn ++ [none])
  | .call g args k, kn => (g, args.map fun a => (kn[a]?).join) :: calls k (kn ++ [none])
  | .ite _ t e k, kn => calls t kn ++ (calls e kn ++ calls k (kn ++ [none]))

def numCalls : Code V F → Nat
  | .ret _ => 0
  | .const _ k => numCalls k
  | .op _ _ k => numCalls k
  | .call _ _ k => numCalls k + 1
  | .ite _ t e k => numCalls t + (numCalls e + numCalls k)

/-- `setCalleeAttr` on the `i`-th call — 354. -/
def setCall (h : String) : Code V F → Nat → Code V F
  | .ret v, _ => .ret v
  | .const v k, i => .const v (setCall h k i)
  | .op f args k, i => .op f args (setCall h k i)
  | .call _ args k, 0 => .call h args k
  | .call g args k, i + 1 => .call g args (setCall h k i)
  | .ite c t e k, i =>
    if i < numCalls t then .ite c (setCall h t i) e k
    else if i < numCalls t + numCalls e then .ite c t (setCall h e (i - numCalls t)) k
    else .ite c t e (setCall h k (i - numCalls t - numCalls e))

/-- The state of the pass — 199-203. -/
structure Cfg (V F : Type) where
  funcs : String → Option (Func V F)
  specialised : List (String × String)
  visited : List String
  called : List String
  templates : List String
  next : Nat

/-- Why the pass has not ended. -/
inductive Stop where
  | running
  | throw
  | ub
  deriving DecidableEq

abbrev Out (α : Type) := Except Stop α

def upd (m : String → Option (Func V F)) (g : String) (G : Func V F) : String → Option (Func V F) := fun x => if x = g then some G else m x

/-- What the environment of the pass provides. -/
structure Env (V F : Type) where
  /-- `use_ipa_const_propa` -/
  ipa : Bool
  /-- the types of the operands of the `i`-th call of a function -/
  types : Cfg V F → String → Nat → List Ty
  /-- canonicalisation; the list are the constants among the arguments -/
  canon : List (Option V) → Code V F → Code V F

/-- 235-258: the constants that are inserted, if any: an argument that has been replaced before has no uses any more. -/
def newPreset (env : Env V F) (G : Func V F) (cs : List (Option V)) : List (Option V) :=
  if env.ipa && !isUntyped G then List.zipWith (fun p c => p <|> c) G.preset (cs ++ List.replicate G.preset.length none) else G.preset

/-- Whether a constant is inserted. -/
def insertsConst (env : Env V F) (G : Func V F) (cs : List (Option V)) : Bool := env.ipa && !isUntyped G && cs.any (·.isSome)

/-- 219-266: `createSpecializedFunction`. -/
def create (env : Env V F) (cfg : Cfg V F) (g : String) (G : Func V F) (ts : List Ty) (cs : List (Option V)) : String × Cfg V F :=
  let h := uniqueName g cfg.next
  (h, { cfg with
    funcs := upd cfg.funcs h ⟨ts, newPreset env G cs, env.canon (newPreset env G cs) G.body⟩
    specialised := if insertsConst env G cs then cfg.specialised else cfg.specialised ++ [(g, h)]
    next := cfg.next + 1 })

/-- 278-304: `tryReuseExistingSpecialization`. -/
def reuse (env : Env V F) (cfg : Cfg V F) (g : String) (ts : List Ty) (cs : List (Option V)) : Option String :=
  if env.ipa && cs.any (·.isSome) then none
  else (cfg.specialised.find? fun p => p.1 = g && (cfg.funcs p.2).any fun H => typesMatch H.tys ts).map (·.2)

/-- 317-336: `createOrReuseSpecialization`. -/
def createOrReuse (env : Env V F) (cfg : Cfg V F) (g : String) (G : Func V F) (ts : List Ty) (cs : List (Option V)) : Out (String × Cfg V F) :=
  match reuse env cfg g ts cs with
  | some h => .ok (h, { cfg with templates := g :: cfg.templates })
  | none =>
    if (G.tys.zip ts).all fun p => tyOk p.1 p.2 then
      .ok ((create env cfg g G ts cs).1, { (create env cfg g G ts cs).2 with templates := g :: cfg.templates })
    else .error .throw

/-- 354: the `i`-th call of `f` now calls `h`. -/
def redirect (cfg : Cfg V F) (f : String) (Fn : Func V F) (i : Nat) (h : String) : Cfg V F :=
  { cfg with funcs := upd cfg.funcs f { Fn with body := setCall h Fn.body i } }

/-- What remains to be done: visit a function, or the calls of a function from the `i`-th on. -/
inductive Task where
  | visit (f : String)
  | walk (f : String) (i : Nat)

/-- 343-367: `specializeCallsInFunction`, with a bound on the number of steps. -/
def step (env : Env V F) : Nat → Task → Cfg V F → Out (Cfg V F)
  | 0, _, _ => .error .running
  | n + 1, .visit f, cfg => if f ∈ cfg.visited then .ok cfg else step env n (.walk f 0) { cfg with visited := f :: cfg.visited }
  | n + 1, .walk f i, cfg =>
    match cfg.funcs f with
    | none => .error .ub
    | some Fn =>
      match (calls Fn.body Fn.preset)[i]? with
      | none => .ok cfg
      | some (g, cs) =>
        match cfg.funcs g with
        | none => .error .ub
        | some G =>
          if isTemplate G || cs.any (·.isSome) then do
            let r ← createOrReuse env cfg g G (env.types cfg f i) cs
            let cfg ← step env n (.visit r.1) (redirect r.2 f Fn i r.1)
            step env n (.walk f (i + 1)) { cfg with called := r.1 :: cfg.called }
          else do
            let cfg ← step env n (.visit g) cfg
            step env n (.walk f (i + 1)) { cfg with called := g :: cfg.called }

/-- 440-459: one entry function. -/
def entry (env : Env V F) (n : Nat) (cfg : Cfg V F) (f : String) : Out (Cfg V F) :=
  match cfg.funcs f with
  | none => .error .ub
  | some Fn =>
    if isTemplate Fn || cfg.visited.contains f || cfg.templates.contains f then .ok cfg
    else step env n (.visit f) { cfg with funcs := upd cfg.funcs f { Fn with body := env.canon Fn.preset Fn.body } }

/-- 461-470: whether a function stays. -/
def kept (cfg : Cfg V F) (f : String) : Bool := f == "main" || f == "dist" || (cfg.called.contains f && !cfg.templates.contains f)

def Cfg.init (P : String → Option (Func V F)) : Cfg V F := ⟨P, [], [], [], [], 1⟩

/-- 432-471: `runOnOperation`, except for the erasure of functions; `names` are the functions in any order. -/
def runPass (env : Env V F) (n : Nat) (P : String → Option (Func V F)) (names : List String) : Out (Cfg V F) := names.foldlM (entry env n) (.init P)

/-- The functions that are left. -/
def Cfg.result (cfg : Cfg V F) : String → Option (Func V F) := fun f => if kept cfg f then cfg.funcs f else none

end Verif.Special
