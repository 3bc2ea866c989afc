/-
  Views of SQL queries, as the user understands them: `registerView(name, frame)` makes the frame available under the
  name from then on, `sql("...")` reads the frames that are registered under the names it mentions at the moment when it is
  executed.

  A program is a sequence of statements with branches and loops over variables (`Nat`); frames are values of any type `F`.
  Variables are single-assignment as in the IR (`SSA` below): a variable that is in scope is never assigned again, though
  the body of a loop assigns its own variables once per iteration.
-/
namespace Verif.Views

variable {F : Type}

/-- Programs. Conditions and iteration counts are any functions of the current values of the variables. -/
inductive Prog (F : Type) where
  /-- nothing -/
  | skip
  /-- one after the other -/
  | seq (p q : Prog F)
  /-- an operation that computes a value from others -/
  | op (dst : Nat) (f : (Nat → F) → F)
  /-- `registerView(name, v)` -/
  | reg (name : String) (v : Nat)
  /-- `dst = sql(q)`, where `q` mentions the views `names` and computes `f` of their frames -/
  | query (dst : Nat) (names : List String) (f : List F → F)
  | ite (c : (Nat → F) → Bool) (p q : Prog F)
  | loop (n : (Nat → F) → Nat) (p : Prog F)

/-- What is known while a program runs: the values of the variables and the registered frames. -/
structure St (F : Type) where
  env : Nat → F
  views : String → Option F

/-- `n` repetitions of a step that may fail. -/
def times {α : Type} (step : α → Option α) : Nat → α → Option α
  | 0, s => some s
  | n + 1, s => (step s).bind (times step n)

/-- Execution of a program in the order in which it is written; `none` if a query mentions a view that has not been
registered. -/
def exec : Prog F → St F → Option (St F)
  | .skip, s => some s
  | .seq p q, s => (exec p s).bind (exec q)
  | .op d f, s => some { s with env := fun x => if x = d then f s.env else s.env x }
  | .reg nm v, s => some { s with views := fun x => if x = nm then some (s.env v) else s.views x }
  | .query d ns f, s =>
      (ns.mapM s.views).map fun fs => { s with env := fun x => if x = d then f fs else s.env x }
  | .ite c p q, s => if c s.env then exec p s else exec q s
  | .loop n p, s => times (exec p) (n s.env) s

/-- The variables a program assigns. -/
def defs : Prog F → List Nat
  | .skip => []
  | .seq p q => defs p ++ defs q
  | .op d _ => [d]
  | .reg _ _ => []
  | .query d _ _ => [d]
  | .ite _ p q => defs p ++ defs q
  | .loop _ p => defs p

/-- The program registers no view. -/
def NoReg : Prog F → Prop
  | .reg _ _ => False
  | .seq p q => NoReg p ∧ NoReg q
  | .ite _ p q => NoReg p ∧ NoReg q
  | .loop _ p => NoReg p
  | _ => True

/-- Views are registered only outside of branches and loops. -/
def TopReg : Prog F → Prop
  | .seq p q => TopReg p ∧ TopReg q
  | .ite _ p q => NoReg p ∧ NoReg q
  | .loop _ p => NoReg p
  | _ => True

/-- Single assignment, given the variables in scope: no variable in scope is assigned, and only variables in scope are
registered. -/
def SSA : List Nat → Prog F → Prop
  | sc, .seq p q => SSA sc p ∧ SSA (defs p ++ sc) q
  | sc, .reg _ v => v ∈ sc
  | sc, .ite _ p q => SSA sc p ∧ SSA sc q
  | sc, .loop _ p => SSA sc p
  | _, .skip => True
  | sc, .op d _ => d ∉ sc
  | sc, .query d _ _ => d ∉ sc

end Verif.Views
