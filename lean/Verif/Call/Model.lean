/-
  Calls of functions in DaphneDSL: assignment of arguments to parameters and choice of the definition.
  Models src/parser/daphnedsl/DaphneDSLVisitor.cpp. Positions in the source text and the texts of error messages are left out.
-/
import Verif.Basic.Res

namespace Verif.Call
variable {V : Type}

/-- DaphneDSLVisitor.h:80-89: `CallArgInfo`: an argument, with a name if it is a keyword argument. -/
structure Arg (V : Type) where
  name : Option String
  val : V

/-- DaphneDSLVisitor.cpp:281-316: the loop of `orderCallArguments` that puts arguments into slots. `p` is `positionalIndex`, `seen` is `seenNamed`. -/
def place (params : List String) : List (Arg V) → Nat → Bool → List (Option V) → Res (List (Option V))
  | [], _, _, s => .ok s
  | a :: as, p, seen, s =>
    match a.name with
    | none =>
      if seen then .error (.throw "positional argument follows keyword argument")
      else if params.length ≤ p then .error (.throw "too many positional arguments")
      else place params as (p + 1) seen (s.set p (some a.val))
    | some n =>
      match params.idxOf? n with
      | none => .error (.throw "unknown keyword argument")
      | some i =>
        if (s[i]?.join).isSome then .error (.throw "multiple values for argument")
        else place params as p true (s.set i (some a.val))

/-- 318-324: `lastProvided`, `none` if `hasProvided` is false. -/
def lastProvided : List (Option V) → Nat → Option Nat → Option Nat
  | [], _, last => last
  | some _ :: s, i, _ => lastProvided s (i + 1) (some i)
  | none :: s, i, last => lastProvided s (i + 1) last

/-- 332-346: the loop that collects the slots, up to `lastProvided`. -/
def collect (numRequired : Nat) : List (Option V) → Nat → Res (List V)
  | [], _ => .ok []
  | some v :: s, i => do
    let r ← collect numRequired s (i + 1)
    .ok (v :: r)
  | none :: _, i => if i < numRequired then .error (.throw "missing value for argument") else .error (.throw "cannot skip optional argument")

/-- DaphneDSLVisitor.cpp:249-349: `orderCallArguments`. -/
def orderCallArguments (params : List String) (numRequired : Nat) (args : List (Arg V)) : Res (List V) :=
  if params = [] then
    if args.any (·.name.isSome) then .error (.throw "does not support named arguments") else .ok (args.map (·.val))
  else if params.length < args.length then .error (.throw "expects at most")
  else do
    let s ← place params args 0 false (List.replicate params.length none)
    match lastProvided s 0 none with
    | none => .ok []
    | some last => collect (min numRequired params.length) (s.take (last + 1)) 0

/-- The types that matter: unknown, scalars and other types, matrices (value type, shape; `none` is unknown). -/
inductive Ty where
  | unknown
  | other (name : String)
  | mat (elem : Option String) (rows cols : Option Nat)
  deriving DecidableEq

/-- DaphneDSLVisitor.cpp:939-956: `argAndUDFParamCompatible`. -/
def compatible : Ty → Ty → Bool
  | .unknown, _ | _, .unknown => true
  | .mat e r c, .mat e' r' c' => decide (Ty.mat e r c = .mat e' r' c') || e.isNone || e'.isNone
  | a, b => decide (a = b)

/-- A definition of a function: an entry of `functionsSymbolMap`. `names` is its entry of `funcParamNames`, which is made at the end of the definition only
(`storeFunctionParamNames`, 2338). -/
structure Def where
  sym : String
  params : List Ty
  names : Option (List String)

/-- DaphneDSLVisitor.cpp:218-237: `getUdfParamNames`: `found` is `paramNames`. -/
def udfParamNames : List Def → Nat → Option (List String) → Res (Option (List String))
  | [], _, found => .ok found
  | d :: ds, n, found =>
    if d.params.length ≠ n then udfParamNames ds n found
    else
      match d.names, found with
      | none, _ => udfParamNames ds n found
      | some ns, none => udfParamNames ds n (some ns)
      | some ns, some ms => if ms ≠ ns then .error (.throw "inconsistent parameter names") else udfParamNames ds n found

/-- Whether a definition fits the types of the arguments — 966-985. -/
def fits (ts : List Ty) (d : Def) : Bool := d.params.length == ts.length && (d.params.zip ts).all fun p => compatible p.2 p.1

/-- DaphneDSLVisitor.cpp:958-1021: `findMatchingUDF`: the definitions `ds` of this name in order of insertion. -/
def findUDF (ds : List Def) (ts : List Ty) : Res (Option Def) :=
  match ds.find? (fits ts) with
  | some d => .ok (some d)
  | none => if ds ≠ [] then .error (.throw "no definition of function for argument types") else .ok none

/-- The arguments of a call of a user-defined function in the order of the parameters — 1122-1132. -/
def udfArgs (ds : List Def) (args : List (Arg V)) : Res (List V) := do
  let names ← udfParamNames ds args.length none
  match names with
  | none => if args.any (·.name.isSome) then .error (.throw "missing parameter names") else .ok (args.map (·.val))
  | some ns => orderCallArguments ns ns.length args

/-- DaphneDSLVisitor.cpp:1108-1149: the part of `visitCallExpr` for user-defined functions: `none` if there is none of this name. `ty` is the type of a value. -/
def callUDF (ty : V → Ty) (ds : List Def) (args : List (Arg V)) : Res (Option (Def × List V)) :=
  if ds = [] then .ok none
  else do
    let vs ← udfArgs ds args
    let d ← findUDF ds (vs.map ty)
    .ok (d.map fun d => (d, vs))

/-- DaphneDSLVisitor.cpp:1052-1105: `handleMapOpCall`. An argument is an expression: `eval` is `valueOrErrorOnVisit`, which throws for the name of a function.
Only the first argument is evaluated; the value of the others is null (`none`). Returns the matrix and the expression that names the function. -/
def mapArgs {E : Type} (eval : E → Res V) : List (Option String × E) → Res (V × E)
  | [] => .error (.throw "expects exactly 2 argument(s)")
  | a :: rest => do
    let v ← eval a.2
    let r ← orderCallArguments ["arg", "udf"] 2 ((⟨a.1, (some v, a.2)⟩ : Arg (Option V × E)) :: rest.map fun b => ⟨b.1, (none, b.2)⟩)
    match r with
    | [(some x, _), (_, f)] => .ok (x, f)
    | [(none, _), _] => .error (.ub "type of a null value")
    | _ => .error (.throw "expects exactly 2 argument(s)")

end Verif.Call
