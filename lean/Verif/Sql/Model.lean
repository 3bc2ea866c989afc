/-
  Model of src/parser/sql/SQLVisitor.cpp. The visitor emits straight-line code; in this model every emitted operation is executed at once
  (values take the place of SSA values; an exception at compile time and one at run time are both `throw`). The operations on frames are taken
  at their specification (C38, C65, C66, C69, C71-C74, C79, C136, C174; value types are not distinguished, so their restrictions are not repeated
  here): this file is about the translation. Properties C234-C243.
-/
import Verif.Sql.Spec
import Verif.Labels.Model
import Verif.Rel.GroupThms

namespace Verif.Sql
open Verif Verif.Rel Verif.Ir
variable {V : Type}

/-! ### Operations -/

/-- Distinct labels, or an exception (`Frame::initDeduct...`, `Frame::setLabels`, C69). -/
def Tab.checked (t : Tab V) : Res (Tab V) := if t.labels.Nodup then .ok t else .error (.throw "a label must not be duplicated")

/-- `SetColLabelsPrefixOp` — SetColLabelsPrefix.h. -/
def Tab.setPrefix (t : Tab V) (p : String) : Res (Tab V) := Tab.checked ⟨t.labels.map (Labels.setPrefix p), t.rows⟩

/-- `Frame::getColumnIdx` -/
def Tab.idx (t : Tab V) (l : String) : Res Nat :=
  match t.labels.idxOf? l with
  | some i => .ok i
  | none => .error (.throw "column label not found")

section
variable [Inhabited V] [DecidableEq V]

/-- Columns `is`. -/
def Tab.sub (t : Tab V) (is : List Nat) : Tab V := ⟨is.map fun i => t.labels.getD i "", t.rows.map fun r => is.map fun i => cell i r⟩

/-- `ExtractColOp` with a label — ExtractCol.h:119-142. -/
def Tab.extract (t : Tab V) (sel : String) : Res (Tab V) :=
  if wild sel then .ok (t.sub ((List.range t.labels.length).filter fun i => beforeDot (t.labels.getD i "") = beforeDot sel))
  else do
    let i ← t.idx sel
    .ok (t.sub [i])

/-- `CartesianOp` -/
def Tab.cartesian (a b : Tab V) : Res (Tab V) := Tab.checked ⟨a.labels ++ b.labels, a.rows.flatMap fun x => b.rows.map fun y => x ++ y⟩

/-- `ThetaJoinOp` -/
def Tab.thetaJoin (sem : Sem V) (a b : Tab V) (conds : List (String × CmpOp × String)) : Res (Tab V) := do
  let cs ← conds.mapM fun c => do
    let i ← a.idx c.1
    let j ← b.idx c.2.2
    .ok (i, c.2.1, j)
  Tab.checked ⟨a.labels ++ b.labels, a.rows.flatMap fun x => (b.rows.filter fun y => cs.all fun c => sem.cmp c.2.1 (cell c.1 x) (cell c.2.2 y)).map fun y => x ++ y⟩

/-- `InnerJoinOp` (rows with equal values of the columns) -/
def Tab.innerJoin (sem : Sem V) (a b : Tab V) (l r : String) : Res (Tab V) := a.thetaJoin sem b [(l, .eq, r)]

/-- `ColBindOp` — C69. -/
def Tab.bind (a b : Tab V) : Res (Tab V) :=
  if a.rows.length ≠ b.rows.length then .error (.throw "number of rows must be equal") else Tab.checked ⟨a.labels ++ b.labels, List.zipWith (· ++ ·) a.rows b.rows⟩

/-- `CreateFrameOp` with one column matrix. -/
def Tab.ofCol (vs : List V) (l : String) : Tab V := ⟨[l], vs.map fun v => [v]⟩

/-- `FilterRowOp` — FilterRow.h (C174). -/
def Tab.filterRow (sem : Sem V) (t : Tab V) (sel : List V) : Res (Tab V) :=
  if sel.length ≠ t.rows.length then .error (.throw "sel must have exactly one entry (row) for each row in arg")
  else .ok { t with rows := ((t.rows.zip sel).filter fun p => sem.truthy p.2).map (·.1) }

/-- `OrderOp` — C65. -/
def Tab.order (sem : Sem V) (t : Tab V) (ks : List (Nat × Bool)) : Tab V := { t with rows := sortBy (rowBefore sem.lt ks) t.rows }

/-- `GroupOp` — C66. -/
def Tab.group (sem : Sem V) (t : Tab V) (keyCols : List String) (aggs : List (String × GFn)) : Res (Tab V) := do
  let keys := effKeys t.labels (aggs.map (·.1)) keyCols
  let ks ← keys.mapM t.idx
  let as ← aggs.mapM fun a => do
    let i ← t.idx a.1
    .ok (i, a.2)
  Tab.checked ⟨keys ++ aggs.map aggLabel,
    (groupsOf sem.lt ks t.rows).map fun g => (ks.map fun k => cell k (g.headD [])) ++ as.map fun a => sem.aggOf a.2 (g.map (cell a.1))⟩

/-- What an SSA value stands for: a scalar, a matrix with one column, or a frame. -/
inductive Val (V : Type) where
  | sca (v : V)
  | mat (vs : List V)
  | frame (t : Tab V)

/-- Elementwise operations — EwBinaryMat.h, EwBinaryObjSca.h (C38), for matrices with one column. -/
def ew (sem : Sem V) (op : BinOp) : Val V → Val V → Res (Val V)
  | .sca a, .sca b => .ok (.sca (sem.bin op a b))
  | .sca a, .mat b => .ok (.mat (b.map (sem.bin op a)))
  | .mat a, .sca b => .ok (.mat (a.map fun x => sem.bin op x b))
  | .mat a, .mat b =>
    if a.length = b.length then .ok (.mat (List.zipWith (sem.bin op) a b))
    else if b.length = 1 then .ok (.mat (a.map fun x => sem.bin op x (b.headD default)))
    else if a.length = 1 then
      match b with
      | [] => .error (.ub "reads the first cell of a matrix without rows")
      | y :: _ => .ok (.mat (a.map fun x => sem.bin op x y))
    else .error (.throw "lhs and rhs must either have the same dimensions")
  | _, _ => .error (.throw "no elementwise operations on frames")

/-! ### The visitor -/

/-- The state of `SQLVisitor` — SQLVisitor.h:107-193. A missing entry of the maps of prefixes (there: the empty string) is `none`. -/
structure St (V : Type) where
  view : String → Option (Tab V)
  aliases : String → Option (Tab V)
  framePrefix : String → Option String
  reverse : String → Option String
  grouped : List String
  groupName : List String
  columnName : List String
  functionName : List GFn
  ground : List String
  group : Bool
  codegen : Bool
  agg : Bool
  counter : Nat
  counterCg : Nat
  frame : Tab V

/-- A new visitor. -/
def St.init (views : String → Option (Tab V)) : St V :=
  ⟨views, fun _ => none, fun _ => none, fun _ => none, [], [], [], [], [], false, false, false, 0, 0, ⟨[], []⟩⟩

def upd {α : Type} (m : String → Option α) (k : String) (v : α) : String → Option α := fun x => if x = k then some v else m x

/-- `setFramePrefix` — SQLVisitor.cpp:81-113. The loop that looks for another prefix never changes its candidate `prefix1`: if that is in use as
well, it does not end. -/
def setFramePrefix (st : St V) (framename pfx : String) (necessary ignore : Bool) : Res (String × St V) :=
  if (st.framePrefix framename).isSome then
    if necessary then .error (.throw "already got a Prefix") else .ok ("", st)
  else if (st.reverse pfx).isSome ∧ ignore = false then
    if (st.reverse (pfx ++ "1")).isSome then .error (.ub "endless loop")
    else .ok (pfx ++ "1", { st with reverse := upd st.reverse (pfx ++ "1") framename, framePrefix := upd st.framePrefix framename (pfx ++ "1") })
  else
    .ok (pfx, { st with reverse := if ignore then st.reverse else upd st.reverse pfx framename, framePrefix := upd st.framePrefix framename pfx })

/-- `fetchMLIR` — 125-140. -/
def fetchMLIR (st : St V) (name : String) : Res (Tab V) :=
  match st.aliases name with
  | some t => .ok t
  | none =>
    match st.view name with
    | some t => .ok t
    | none => .error (.throw "was not registered")

/-- `hasMLIR` — 147-151. -/
def hasMLIR (st : St V) (name : String) : Bool := (st.view name).isSome || (st.aliases name).isSome

/-- The part of `visitTableReference` that deals with the aliases — 1047-1051. -/
def refAlias (st : St V) (r : Ref) (t : Tab V) : Res (String × St V) :=
  match r.aka with
  | none => .ok (r.var, st)
  | some aka => setFramePrefix { st with aliases := upd st.aliases aka t } aka aka true false

/-- `visitTableReference` — 1037-1065. -/
def visitRef (st : St V) (r : Ref) : Res (Tab V × St V) := do
  let t ← fetchMLIR st r.var
  let p ← refAlias { st with aliases := upd st.aliases r.var t } r t
  let q ← setFramePrefix p.2 r.var p.1 r.aka.isNone r.aka.isSome
  let t ← t.setPrefix p.1
  .ok (t, q.2)

/-- `visitStringIdent` — 1071-1093. -/
def visitIdent (st : St V) (i : Ident) : Res String :=
  match i.frame with
  | none => .ok i.col
  | some f =>
    if hasMLIR st f then
      match st.framePrefix f with
      | some p => .ok (p ++ "." ++ i.col)
      | none => .ok i.col
    else .error (.throw "Unknown Frame")

/-- `castToMatrixColumn` — 166-179. -/
def castCol (t : Tab V) : Val V → Res (List V)
  | .mat vs => .ok vs
  | .sca v => .ok (List.replicate t.rows.length v)
  | .frame _ => .error (.throw "no fill with a frame")

/-- `valueOrError` -/
def orError : Option (Val V) → Res (Val V)
  | some v => .ok v
  | none => .error (.throw "value expected")

/-- `extractColumnAsMatrixFromFrame` — 228-238: the frame that consists of this column is cast to a matrix. -/
def extractMat (t : Tab V) (l : String) : Res (List V) := do
  let c ← t.extract l
  match c.labels with
  | [_] => .ok (c.rows.map (cell 0))
  | _ => .error (.throw "a matrix with several columns")

/-- `getGroupEnum` — 240-265; `toLower` — 57-60. -/
def getGroupEnum (func : String) : Res GFn :=
  match Spec.fn func with
  | some f => .ok f
  | none => .error (.throw "does not name an aggregation function")

/-- Insertion into `std::set<std::string>`. -/
def setInsert (a : String) : List String → List String
  | [] => [a]
  | b :: l => if a = b then b :: l else if a < b then a :: b :: l else b :: setInsert a l

/-- `addMatrixToCurrentFrame` — 204-223. -/
def addColumn (t : Tab V) (vs : List V) (l : String) : Res (Tab V) := t.bind (Tab.ofCol vs l)

/-- `visitIdentifierExpr`, the check — 684-696 (an identifier has at least one character). -/
def identAllowed (st : St V) (text : String) : Bool :=
  !(st.group && !st.agg && !st.grouped.contains text && text.toList.getLast? != some '*' && !st.grouped.contains "*")

/-- `visitIdentifierExpr` — 683-712: `compare` throws if the text has fewer than two characters. -/
def visitIdentExpr (st : St V) (i : Ident) : Res (Option (Val V)) :=
  if identAllowed st i.text = false then .error (.throw "Must be part of the Group Expression or have an Aggregation Function")
  else if st.codegen = false then .ok none
  else if i.text.length < 2 then .error (.throw "std::out_of_range")
  else if i.col = "*" then do
    let l ← visitIdent st i
    let t ← st.frame.extract l
    .ok (some (.frame t))
  else do
    let l ← visitIdent st i
    let vs ← extractMat st.frame l
    .ok (some (.mat vs))

/-- The loop of `visitStarExpr` — 731-743. -/
def starCols (t : Tab V) : List String → Tab V → Res (Tab V)
  | [], acc => .ok acc
  | l :: ls, acc => do
    let c ← t.extract l
    let acc ← acc.bind c
    starCols t ls acc

/-- `visitStarExpr` — 714-754. -/
def visitStar (st : St V) : Res (Option (Val V) × St V) :=
  if st.codegen = false then .ok (none, st)
  else if st.group = true ∧ st.ground ≠ [] then
    match st.ground with
    | [] => .ok (some (.frame st.frame), st)
    | l :: ls => do
      let c ← st.frame.extract l
      let t ← starCols st.frame ls c
      .ok (some (.frame t), { st with ground := ls })
  else if st.group = false ∧ st.agg = true then .error (.throw "Using the asterisk with only aggregation functions is not allowed")
  else .ok (some (.frame st.frame), st)

/-- `dyn_cast<MatrixType>(col.getType()).getElementType()` — 785. -/
def needMat : Val V → Res (List V)
  | .mat vs => .ok vs
  | _ => .error (.ub "the type of the value is no matrix type: null pointer")

/-- `"group_" + std::to_string(k) + "_" + text` -/
def groupLabel (k : Nat) (text : String) : String := "group_" ++ toString k ++ "_" ++ text

/-- The aggregation of a whole column — 781-816. -/
def wholeAgg (sem : Sem V) (func : String) (v : Val V) : Res (Val V) := do
  let vs ← needMat v
  let f ← getGroupEnum func
  .ok (.mat [sem.aggOf f vs])

/-- A symbol of `visitMulExpr`, `visitAddExpr` — 881-925 — and `visitCmpExpr` — 927-962: `!=` is not known there. -/
def symOp : BSym → Res BinOp
  | .bang => .error (.throw "unexpected comparision operation symbol")
  | s => .ok s.op

/-- The generation of code for binary expressions, `none` if code generation is off. -/
def binCode (codegen : Bool) (f : Val V → Val V → Res (Val V)) (l r : Option (Val V)) : Res (Option (Val V)) :=
  if codegen = false then .ok none
  else do
    let a ← orError l
    let b ← orError r
    let v ← f a b
    .ok (some v)

/-- `visitAndExpr`, `visitOrExpr` — 1003-1035, 1037-...: both sides become columns first. -/
def boolCode (sem : Sem V) (op : BinOp) (t : Tab V) (a b : Val V) : Res (Val V) := do
  let x ← castCol t a
  let y ← castCol t b
  ew sem op (.mat x) (.mat y)

/-- `visitBetweenExpr` — 964-1001. -/
def betweenCode (sem : Sem V) (x l r : Val V) : Res (Val V) := do
  let a1 ← ew sem .ge x l
  let a2 ← ew sem .le x r
  let a ← ew sem .and a1 a2
  let b1 ← ew sem .ge x r
  let b2 ← ew sem .le x l
  let b ← ew sem .and b1 b2
  ew sem .or a b

def betweenOpt (sem : Sem V) (codegen : Bool) (x l r : Option (Val V)) : Res (Option (Val V)) :=
  if codegen = false then .ok none
  else do
    let x ← orError x
    let l ← orError l
    let r ← orError r
    let v ← betweenCode sem x l r
    .ok (some v)

/-- The end of `visitGroupAggExpr`: before grouping, the aggregated column is added under a new name (825-840); this is what happens with the value
of the expression. -/
def collectAgg (st : St V) (name : String) (v : Option (Val V)) : Res (Option (Val V) × St V) := do
  let v ← orError v
  let vs ← castCol st.frame v
  let t ← addColumn st.frame vs name
  .ok (none, { st with frame := t })

/-- The end of `visitGroupAggExpr`: after grouping, the column with the aggregated values is looked up (841-852). -/
def fetchAgg (st : St V) (func text : String) : Res (Option (Val V) × St V) := do
  let f ← getGroupEnum func
  let vs ← extractMat st.frame (aggLabel (groupLabel st.counterCg text, f))
  .ok (some (.mat vs), { st with counterCg := st.counterCg + 1 })

/-- The visitor on expressions. -/
def visit (sem : Sem V) : SExpr V → St V → Res (Option (Val V) × St V)
  | .lit v _, st => .ok (if st.codegen then some (.sca v) else none, st)
  | .star, st => visitStar st
  | .ident i, st => do
    let v ← visitIdentExpr st i
    .ok (v, st)
  | .paren e, st => do
    let p ← visit sem e st
    .ok (if p.2.codegen then p.1 else none, p.2)
  | .agg func e, st =>
    -- visitGroupAggExpr — 756-853
    let name := groupLabel st.counter e.text
    let st := { st with counter := st.counter + 1, ground := setInsert e.text st.ground }
    if e.text.toList.getLast? = some '*' then .error (.throw "Using the asterisk in aggregations is not allowed")
    else if st.group = false ∧ st.codegen = true then do
      let p ← visit sem e st
      let v ← orError p.1
      let w ← wholeAgg sem func v
      .ok (some w, p.2)
    else if st.agg = true then .error (.throw "Nested Aggregation Functions not allowed")
    else if st.codegen = false then do
      let f ← getGroupEnum func
      let p ← visit sem e { st with columnName := st.columnName ++ [name], functionName := st.functionName ++ [f], agg := true, codegen := true }
      collectAgg { p.2 with agg := false, codegen := false } name p.1
    else fetchAgg st func e.text
  | .bin s l r, st => do
    let p ← visit sem l st
    let q ← visit sem r p.2
    let v ← binCode q.2.codegen (fun a b => do
      let op ← symOp s
      ew sem op a b) p.1 q.1
    .ok (v, q.2)
  | .between _ _ x l r, st => do
    let o ← visit sem x st
    let p ← visit sem l o.2
    let q ← visit sem r p.2
    let v ← betweenOpt sem q.2.codegen o.1 p.1 q.1
    .ok (v, q.2)
  | .and _ l r, st => do
    let p ← visit sem l st
    let q ← visit sem r p.2
    let v ← binCode q.2.codegen (boolCode sem .and q.2.frame) p.1 q.1
    .ok (v, q.2)
  | .or _ l r, st => do
    let p ← visit sem l st
    let q ← visit sem r p.2
    let v ← binCode q.2.codegen (boolCode sem .or q.2.frame) p.1 q.1
    .ok (v, q.2)

/-- `visitTableIdentifierExpr`, `visitCartesianExpr` — 486-520. -/
def visitFrom (st : St V) : Ref → List Ref → Res (Tab V × St V)
  | r, [] => visitRef st r
  | r, r' :: rs => do
    let a ← visitRef st r
    let b ← visitFrom a.2 r' rs
    let t ← a.1.cartesian b.1
    .ok (t, b.2)

/-- `CMP_OP(i)` for the conditions in order: the operators that are present. -/
def condOps (cs : List JCond) : List CmpOp := cs.filterMap (·.op)

/-- The loop of `visitInnerJoin` — 554-563: the `i`-th pair of identifiers gets the `i`-th operator. -/
def joinConds (st : St V) : List JCond → List CmpOp → Res (List (String × CmpOp × String))
  | [], _ => .ok []
  | c :: cs, ops => do
    let l ← visitIdent st c.l
    let r ← visitIdent st c.r
    match ops with
    | [] => .error (.ub "CMP_OP(i) is a null pointer")
    | op :: ops => do
      let rest ← joinConds st cs ops
      .ok ((l, op, r) :: rest)

/-- The operation for the conditions — 537-567: one equality of two columns is an inner join. (The labels `rhs` and `lhs` of the grammar are
swapped, and so are the arguments: the first identifier belongs to the current frame.) -/
def joinOp (sem : Sem V) (a b : Tab V) : List (String × CmpOp × String) → Res (Tab V)
  | [(l, .eq, r)] => a.innerJoin sem b l r
  | conds => a.thetaJoin sem b conds

/-- `visitInnerJoin` — 523-568. -/
def visitJoin (sem : Sem V) (st : St V) (j : Join) : Res (St V) := do
  let p ← visitRef st j.ref
  let conds ← joinConds p.2 (j.cond :: j.conds) (condOps (j.cond :: j.conds))
  let t ← joinOp sem st.frame p.1 conds
  .ok { p.2 with frame := t }

/-- A filter of the current frame — `visitWhereClause` 570-586, `visitHavingClause` 625-642. -/
def filterBy (sem : Sem V) (st : St V) (v : Option (Val V)) : Res (St V) := do
  let v ← orError v
  let sel ← castCol st.frame v
  let t ← st.frame.filterRow sem sel
  .ok { st with frame := t }

/-- `visitWhereClause` — 570-586. -/
def visitWhere (sem : Sem V) (st : St V) : Option (SExpr V) → Res (St V)
  | none => .ok st
  | some e => do
    let p ← visit sem e st
    filterBy sem p.2 p.1

/-- `visitHavingClause` — 625-642. -/
def visitHaving (sem : Sem V) (st : St V) : Option (SExpr V) → Res (St V)
  | none => .ok st
  | some e => do
    let p ← visit sem e st
    if p.2.codegen = false then .ok p.2 else filterBy sem p.2 p.1

/-- `visitGroupByClause` without code generation: collect the keys — 601-610. -/
def collectKeys (st : St V) : List Ident → Res (St V)
  | [] => .ok st
  | k :: ks => do
    let l ← visitIdent st k
    collectKeys { st with groupName := st.groupName ++ [l], grouped := k.text :: st.grouped } ks

/-- Visit the items without code generation — 372-374. -/
def collectItems (sem : Sem V) (st : St V) : List (Item V) → Res (St V)
  | [] => .ok st
  | it :: its => do
    let p ← visit sem it.e st
    collectItems sem p.2 its

/-- The GROUP BY clause in `visitSelect` — 365-378, 588-623. -/
def visitGroupBy (sem : Sem V) (st : St V) (its : List (Item V)) : Option (GroupBy V) → Res (St V)
  | none => .ok st
  | some g => do
    let st ← collectKeys { st with group := true, codegen := false } (g.key :: g.keys)
    let st ← visitHaving sem st g.having
    let st ← collectItems sem st its
    let t ← st.frame.group sem st.groupName (st.columnName.zip st.functionName)
    visitHaving sem { st with codegen := true, frame := t } g.having

/-- The columns of the ORDER BY clause — 650-656. -/
def orderIdxs (st : St V) : List (Ident × Bool) → Res (List (Nat × Bool))
  | [] => .ok []
  | k :: ks => do
    let l ← visitIdent st k.1
    let i ← st.frame.idx l
    let is ← orderIdxs st ks
    .ok ((i, k.2) :: is)

/-- `visitOrderByClause` — 644-663. -/
def visitOrderBy (sem : Sem V) (st : St V) (ks : List (Ident × Bool)) : Res (St V) :=
  match ks with
  | [] => .ok st
  | _ => do
    let is ← orderIdxs st ks
    .ok { st with frame := st.frame.order sem is }

/-- `visitSelectExpr` with code generation — 420-446. -/
def visitItem (sem : Sem V) (st : St V) (it : Item V) : Res (Tab V × St V) := do
  let p ← visit sem it.e st
  let v ← orError p.1
  match v with
  | .frame t => .ok (t, p.2)
  | v => do
    let vs ← castCol p.2.frame v
    .ok (Tab.ofCol vs (it.aka.getD it.e.text), p.2)

/-- The loop over the items — 386-407. -/
def visitItems (sem : Sem V) (st : St V) (acc : Tab V) : List (Item V) → Res (Tab V × St V)
  | [] => .ok (acc, st)
  | it :: its => do
    let p ← visitItem sem st it
    let acc ← acc.bind p.1
    visitItems sem p.2 acc its

/-- `visitDistinctExpr` — 458-483. -/
def visitDistinct (sem : Sem V) (st : St V) (distinct : Bool) : Res (Tab V) :=
  if distinct = false then .ok st.frame
  else if st.group = true ∧ st.columnName ≠ [] then .error (.throw "DISTINCT with GROUP BY and Aggregation is not supported")
  else if st.group = true ∨ st.columnName ≠ [] then .ok st.frame
  else st.frame.group sem ["*"] []

/-- `visitSelect` — 344-413. -/
def run (sem : Sem V) (views : String → Option (Tab V)) (q : Query V) : Res (Tab V) := do
  let f ← visitFrom { St.init views with codegen := true } q.ref q.refs
  let st ← q.joins.foldlM (visitJoin sem) { f.2 with frame := f.1 }
  let st ← visitWhere sem st q.where_
  let st ← visitGroupBy sem st (q.item :: q.items) q.groupBy
  let st ← visitOrderBy sem st q.orderBy
  let p ← visitItem sem st q.item
  let r ← visitItems sem p.2 p.1 q.items
  visitDistinct sem { r.2 with frame := r.1 } q.distinct

end
end Verif.Sql
