/-
  Model of the statement visitor of src/parser/daphnedsl/DaphneDSLVisitor.cpp: how variables become SSA values.
  Types are not modelled (the visitor also rejects a script when the type of a variable differs between the branches of an if-statement).
  Casts to bool / si64 / index are modelled by reading the value as bool / integer where it is used: this is the case of
  `castIf` returning its argument unchanged, in which the operands are the values of the variables themselves.
-/
import Verif.Front.SymTab
import Verif.Front.Dsl

namespace Verif.Front
variable {ν F : Type} [DecidableEq ν]

/-- The symbol table: names to SSA values. -/
abbrev Syms (ν : Type) := Scopes ν Nat

mutual
/-- visitIdentifierExpr (DaphneDSLVisitor.cpp:915-928) and the visitor methods for operators and calls, which visit their arguments in
order and then create one operation with a new result. Returns the code, the value, and the next unused value number. -/
def transE : Expr ν F → Nat → Syms ν → Res (Code F × Nat × Nat)
  | .var n, nx, s => do
    let i ← s.get n
    .ok (.done, i.value, nx)
  | .app f as, nx, s => do
    let (c, vs, nx) ← transA as nx s
    .ok (c.app (.op [nx] f vs .done), nx, nx + 1)
/-- Argument lists. -/
def transA : Args ν F → Nat → Syms ν → Res (Code F × List Nat × Nat)
  | .nil, nx, _ => .ok (.done, [], nx)
  | .cons e as, nx, s => do
    let (c, v, nx) ← transE e nx s
    let (d, vs, nx) ← transA as nx s
    .ok (c.app d, v :: vs, nx)
end

/-- DaphneDSLVisitor.cpp:54-59: renameIf. -/
def renameIf (v nx : Nat) (s : Syms ν) : Code F × Nat × Nat :=
  if s.hasVal v then (.rename nx v .done, nx, nx + 1) else (.done, v, nx)

/-- DaphneDSLVisitor.cpp:61-105: handleAssignmentPart without left indexing. -/
def assignPart (x : ν) (v nx : Nat) (s : Syms ν) : Res (Code F × Nat × Syms ν) := do
  if s.has x then
    let i ← s.get x
    if i.readOnly then .error (.throw "trying to assign read-only variable")
    else
      let s' ← s.put x ⟨(renameIf (F := F) v nx s).2.1, false⟩
      .ok ((renameIf v nx s).1, (renameIf (F := F) v nx s).2.2, s')
  else
    let s' ← s.put x ⟨(renameIf (F := F) v nx s).2.1, false⟩
    .ok ((renameIf v nx s).1, (renameIf (F := F) v nx s).2.2, s')

/-- DaphneDSLVisitor.cpp:541-549: the assignments of a statement with several variables. -/
def assignParts : List ν → List Nat → Nat → Syms ν → Res (Code F × Nat × Syms ν)
  | x :: xs, v :: vs, nx, s => do
    let (c, nx, s) ← assignPart x v nx s
    let (d, nx, s) ← assignParts xs vs nx s
    .ok (c.app d, nx, s)
  | _, _, nx, s => .ok (.done, nx, s)

/-- `replaceUsesWithIf` for one value. -/
def repl (old new : Nat) : Nat → Nat := fun v => if v = old then new else v

/-- The replacements of DaphneDSLVisitor.cpp:734-749 and 840-853, one value after the other. -/
def replAll : List Nat → List Nat → Nat → Nat
  | o :: os, n :: ns, v => replAll os ns (repl o n v)
  | _, _, v => v

/-- The same on code: `operands[i].replaceUsesWithIf(args[i], inside this region)`. -/
def replCode : List Nat → List Nat → Code F → Code F
  | o :: os, n :: ns, c => replCode os ns (c.mapUses (repl o n))
  | _, _, c => c

/-- `k` unused value numbers. -/
def news (nx k : Nat) : List Nat := List.range' nx k

/-- Current values of the given names (`symbolTable.get(name).value`). -/
def getVals (s : Syms ν) : List ν → Res (List Nat)
  | [] => .ok []
  | n :: ns => do
    let i ← s.get n
    let vs ← getVals s ns
    .ok (i.value :: vs)

/-- `symbolTable.get(name, ow).value` for the given names. -/
def getValsWith (s : Syms ν) (t : Tab ν Nat) : List ν → Res (List Nat)
  | [] => .ok []
  | n :: ns => do
    let i ← s.getWith n t
    let vs ← getValsWith s t ns
    .ok (i.value :: vs)

/-- `symbolTable.put(name_i, SymbolInfo(result_i, false))` for all i. -/
def putVals (s : Syms ν) (ns : List ν) (vs : List Nat) : Res (Syms ν) :=
  s.putTab ((ns.zip vs).map fun p => (p.1, ⟨p.2, false⟩))

/-- ScopedSymbolTable.h:288-297: mergeSymbols. Simplification: the union in order of insertion (in the code: sorted by name). -/
def mergeSymbols (a b : Tab ν Nat) : List ν := a.map Prod.fst ++ (b.map Prod.fst).filter fun n => !(a.map Prod.fst).contains n

/-- DaphneDSLVisitor.cpp:588-646: from the yields of the branches of an if-statement to its end. An if-operation without
else-region is written with an empty else-block. -/
def finishIf (s : Syms ν) (c : Nat) (tc ec : Code F) (owT owE : Tab ν Nat) (nx : Nat) : Res (Code F × Nat × Syms ν) := do
  let ty ← getValsWith s owT (mergeSymbols owT owE)
  let ey ← getValsWith s owE (mergeSymbols owT owE)
  let s' ← putVals s (mergeSymbols owT owE) (news nx (mergeSymbols owT owE).length)
  .ok (.ite (news nx (mergeSymbols owT owE).length) c tc ty ec ey .done, nx + (mergeSymbols owT owE).length, s')

/-- DaphneDSLVisitor.cpp:692-751: from the end of the body of a (do-)while-loop to its end. `bc`, `ac` are the two blocks, `c` the condition.
-/
def finishWhile (isDo : Bool) (s : Syms ν) (bc : Code F) (c : Nat) (ac : Code F) (ow : Tab ν Nat) (nx : Nat) :
    Res (Code F × Nat × Syms ν) := do
  let owVals := ow.map fun e => e.2.value
  let k := ow.length
  let inits ← getVals s (ow.map Prod.fst)
  let bargs := news nx k
  let aargs := news (nx + k) k
  let res := news (nx + 2 * k) k
  let cargs := if isDo then owVals else bargs
  let ay := if isDo then aargs else owVals
  let s' ← putVals s (ow.map Prod.fst) res
  .ok (.whil res inits bargs (replCode inits bargs bc) (replAll inits bargs c) (cargs.map (replAll inits bargs))
    aargs (replCode inits aargs ac) (ay.map (replAll inits aargs)) .done, nx + 3 * k, s')

/-- DaphneDSLVisitor.cpp:780-793: bounds and step of the for-loop for an scf.for that only counts upwards and excludes its upper bound.
Returns lower bound, upper bound, step. -/
def forBounds (lo hi st dir nx : Nat) : Code F × Nat × Nat × Nat × Nat :=
  (.arith nx .add [hi, dir] (.arith (nx + 1) .mul [lo, dir] (.arith (nx + 2) .mul [nx, dir] (.arith (nx + 3) .mul [st, dir] .done))),
    nx + 1, nx + 2, nx + 3, nx + 4)

/-- DaphneDSLVisitor.cpp:814-856: from the end of the body of a for-loop to its end. `ph` is the placeholder of the induction variable,
replaced by the real one. -/
def finishFor (s : Syms ν) (lb ub st ph : Nat) (body : Code F) (ow : Tab ν Nat) (nx : Nat) : Res (Code F × Nat × Syms ν) := do
  let owVals := ow.map fun e => e.2.value
  let k := ow.length
  let inits ← getVals s (ow.map Prod.fst)
  let iv := nx
  let iter := news (nx + 1) k
  let res := news (nx + 1 + k) k
  let s' ← putVals s (ow.map Prod.fst) res
  .ok (.loop res lb ub st inits iv iter (replCode inits iter (body.mapUses (repl ph iv)))
    ((owVals.map (repl ph iv)).map (replAll inits iter)) .done, nx + 1 + 2 * k, s')

/-- DaphneDSLVisitor.cpp:795-812: the start of the body: a placeholder for the induction variable (any constant), and the loop variable
`placeholder * direction`, read-only. -/
def startFor (x : ν) (dir nx : Nat) (s : Syms ν) : Res (Code F × Nat × Syms ν) := do
  let s' ← s.push.put x ⟨nx + 1, true⟩
  .ok (.arith nx (.const 123) [] (.arith (nx + 1) .mul [nx, dir] .done), nx + 2, s')

/-- The statement visitor. Returns the code to insert at the current insertion point, the next unused value number, and the symbol table.
-/
def transS : Stmt ν F → Nat → Syms ν → Res (Code F × Nat × Syms ν)
  | .skip, nx, s => .ok (.done, nx, s)
  | .seq a b, nx, s => do
    let (c, nx, s) ← transS a nx s
    let (d, nx, s) ← transS b nx s
    .ok (c.app d, nx, s)
  -- visitExprStatement, DaphneDSLVisitor.cpp:524-526
  | .expr e, nx, s => do
    let (c, _, nx) ← transE e nx s
    .ok (c, nx, s)
  -- visitAssignStatement, DaphneDSLVisitor.cpp:528-561
  | .assign x e, nx, s => do
    let (c, v, nx) ← transE e nx s
    let (d, nx, s) ← assignPart x v nx s
    .ok (c.app d, nx, s)
  | .assigns xs f as, nx, s => do
    let (c, vs, nx) ← transA as nx s
    let (d, nx', s) ← assignParts xs (news nx xs.length) (nx + xs.length) s
    .ok (c.app (.op (news nx xs.length) f vs d), nx', s)
  -- visitBlockStatement, DaphneDSLVisitor.cpp:359-364
  | .block b, nx, s => do
    let (c, nx, s) ← transS b nx s.push
    let (ow, s) ← s.pop
    let s ← s.putTab ow
    .ok (c, nx, s)
  -- visitIfStatement, DaphneDSLVisitor.cpp:563-646
  | .ifThen e t, nx, s => do
    let (c, v, nx) ← transE e nx s
    let (tc, nx, s) ← transS t nx s.push
    let (owT, s) ← s.pop
    let (d, nx, s) ← finishIf s v tc .done owT [] nx
    .ok (c.app d, nx, s)
  | .ifElse e t f, nx, s => do
    let (c, v, nx) ← transE e nx s
    let (tc, nx, s) ← transS t nx s.push
    let (owT, s) ← s.pop
    let (ec, nx, s) ← transS f nx s.push
    let (owE, s) ← s.pop
    let (d, nx, s) ← finishIf s v tc ec owT owE nx
    .ok (c.app d, nx, s)
  -- visitWhileStatement, DaphneDSLVisitor.cpp:648-752
  | .while e b, nx, s => do
    let (bc, v, nx) ← transE e nx s
    let (ac, nx, s) ← transS b nx s.push
    let (ow, s) ← s.pop
    finishWhile false s bc v ac ow nx
  | .doWhile b e, nx, s => do
    let (c, nx, s) ← transS b nx s.push.push
    let (ow, s) ← s.pop
    let s ← s.putTab ow
    let (d, v, nx) ← transE e nx s
    let (_, s) ← s.pop
    finishWhile true s (c.app d) v .done ow nx
  -- visitForStatement, DaphneDSLVisitor.cpp:754-857
  | .for x lo hi b, nx, s => do
    let (c1, vlo, nx) ← transE lo nx s
    let (c2, vhi, nx) ← transE hi nx s
    -- step = direction = -1 + 2 * (to >= from)
    let c3 : Code F := .arith nx (.const (-1)) [] (.arith (nx + 1) (.const 2) [] (.arith (nx + 2) .ge [vhi, vlo]
      (.arith (nx + 3) .mul [nx + 1, nx + 2] (.arith (nx + 4) .add [nx, nx + 3] .done))))
    let dir := nx + 4
    let (c4, lb, ub, st, nx) := forBounds (F := F) vlo vhi dir dir (nx + 5)
    let ph := nx
    let (c5, nx, s) ← startFor (F := F) x dir nx s
    let (c6, nx, s) ← transS b nx s
    let (ow, s) ← s.pop
    let (c7, nx, s) ← finishFor s lb ub st ph (c5.app c6) ow nx
    .ok (c1.app (c2.app (c3.app (c4.app c7))), nx, s)
  | .forStep x lo hi step b, nx, s => do
    let (c1, vlo, nx) ← transE lo nx s
    let (c2, vhi, nx) ← transE hi nx s
    let (c3, vst, nx) ← transE step nx s
    let c3' : Code F := .arith nx .sign [vst] .done
    let dir := nx
    let (c4, lb, ub, st, nx) := forBounds (F := F) vlo vhi vst dir (nx + 1)
    let ph := nx
    let (c5, nx, s) ← startFor (F := F) x dir nx s
    let (c6, nx, s) ← transS b nx s
    let (ow, s) ← s.pop
    let (c7, nx, s) ← finishFor s lb ub st ph (c5.app c6) ow nx
    .ok (c1.app (c2.app (c3.app (c3'.app (c4.app c7)))), nx, s)

end Verif.Front
