/-
  What SQL queries mean: the specification for C234-C243. Tables are lists of rows; a query is evaluated clause by clause, row by row.
  Columns in the scope of a query are pairs of a correlation name and a column name.
-/
import Verif.Rel.Joins
import Verif.Rel.Group

namespace Verif.Sql
open Verif Verif.Rel
variable {V : Type}

/-! ### Queries (the parse trees of src/parser/sql/SQLGrammar.g4) -/

/-- Binary operator symbols of `mulExpr`, `addExpr` and `cmpExpr`. `bang` is the second spelling of "not equal". -/
inductive BSym where
  | mul | div | add | sub | eq | neq | bang | lt | le | gt | ge
  deriving DecidableEq

def BSym.text : BSym → String
  | .mul => "*" | .div => "/" | .add => "+" | .sub => "-" | .eq => "=" | .neq => "<>" | .bang => "!=" | .lt => "<" | .le => "<=" | .gt => ">" | .ge => ">="

/-- Operations on values. -/
inductive BinOp where
  | mul | div | add | sub | eq | neq | lt | le | gt | ge | and | or
  deriving DecidableEq

/-- What a symbol stands for. -/
def BSym.op : BSym → BinOp
  | .mul => .mul | .div => .div | .add => .add | .sub => .sub | .eq => .eq | .neq => .neq | .bang => .neq | .lt => .lt | .le => .le | .gt => .gt | .ge => .ge

/-- `selectIdent`: `frame.column` or `column`. -/
structure Ident where
  frame : Option String
  col : String
  deriving DecidableEq

def Ident.text (i : Ident) : String :=
  match i.frame with
  | some f => f ++ "." ++ i.col
  | none => i.col

/-- `generalExpr` and `generalExpr2`. Key words are kept as they are spelled in the query, because the text of expressions is used. -/
inductive SExpr (V : Type) where
  | lit (v : V) (text : String)
  | star
  | ident (i : Ident)
  | paren (e : SExpr V)
  | agg (func : String) (e : SExpr V)
  | bin (s : BSym) (l r : SExpr V)
  | between (kw kw' : String) (x l r : SExpr V)
  | and (kw : String) (l r : SExpr V)
  | or (kw : String) (l r : SExpr V)

/-- `ctx->getText()`: the tokens without white space. -/
def SExpr.text : SExpr V → String
  | .lit _ t => t
  | .star => "*"
  | .ident i => i.text
  | .paren e => "(" ++ e.text ++ ")"
  | .agg f e => f ++ "(" ++ e.text ++ ")"
  | .bin s l r => l.text ++ s.text ++ r.text
  | .between k k' x l r => x.text ++ k ++ l.text ++ k' ++ r.text
  | .and k l r => l.text ++ k ++ r.text
  | .or k l r => l.text ++ k ++ r.text

/-- `tableReference` -/
structure Ref where
  var : String
  aka : Option String

/-- The name under which the table is known in the query. -/
def Ref.corr (r : Ref) : String := r.aka.getD r.var

/-- One condition of a join; the grammar lets the operator be omitted in all but the first. -/
structure JCond where
  l : Ident
  op : Option CmpOp
  r : Ident

/-- `joinExpr` (at least one condition) -/
structure Join where
  ref : Ref
  cond : JCond
  conds : List JCond

/-- `selectExpr` -/
structure Item (V : Type) where
  e : SExpr V
  aka : Option String

/-- `groupByClause` with the optional `havingClause` -/
structure GroupBy (V : Type) where
  key : Ident
  keys : List Ident
  having : Option (SExpr V)

/-- `select`: the first element of the lists that must not be empty is kept apart. `orderBy`: `true` is ascending. -/
structure Query (V : Type) where
  distinct : Bool
  item : Item V
  items : List (Item V)
  ref : Ref
  refs : List Ref
  joins : List Join
  where_ : Option (SExpr V)
  groupBy : Option (GroupBy V)
  orderBy : List (Ident × Bool)

/-! ### Meaning -/

/-- Operations of the value types: binary operations, which values count as true in a filter, comparisons in joins, the order of sort
and group keys, and the aggregation functions. -/
structure Sem (V : Type) where
  bin : BinOp → V → V → V
  truthy : V → Bool
  cmp : CmpOp → V → V → Bool
  lt : V → V → Bool
  ofNat : Nat → V
  agg : GFn → List V → V

/-- Aggregation of a list of values. -/
def Sem.aggOf (sem : Sem V) (f : GFn) (vs : List V) : V := if f = .count then sem.ofNat vs.length else sem.agg f vs

/-- A table: labels and rows. -/
structure Tab (V : Type) where
  labels : List String
  rows : List (List V)
  deriving DecidableEq

/-- The rows in the scope of a query, with their columns. -/
structure Scope (V : Type) where
  sc : List (String × String)
  rows : List (List V)

/-- The name of a column without a frame name: what follows the first `.` of its label. -/
def unq (l : String) : String := if '.' ∈ l.toList then String.ofList ((l.toList.dropWhile (· ≠ '.')).drop 1) else l

/-- Cell `i` of a row. -/
def cell [Inhabited V] (i : Nat) (row : List V) : V := row.getD i default

/-- Stable sorting by insertion. -/
def insertBy {α : Type} (before : α → α → Bool) (a : α) : List α → List α
  | [] => [a]
  | b :: l => if before b a then b :: insertBy before a l else a :: b :: l

def sortBy {α : Type} (before : α → α → Bool) : List α → List α
  | [] => []
  | a :: l => insertBy before a (sortBy before l)

/-- Lexicographic order of key values; the flag is `true` for ascending. -/
def lexBefore (lt : V → V → Bool) : List (V × Bool) → List V → Bool
  | (a, asc) :: as, b :: bs => if (if asc then lt a b else lt b a) then true else if (if asc then lt b a else lt a b) then false else lexBefore lt as bs
  | _, _ => false

/-- Row order of ORDER BY with the columns `ks`. -/
def rowBefore [Inhabited V] (lt : V → V → Bool) (ks : List (Nat × Bool)) (a b : List V) : Bool :=
  lexBefore lt (ks.map fun k => (cell k.1 a, k.2)) (ks.map fun k => cell k.1 b)

section
variable [Inhabited V] [DecidableEq V]

/-- The groups of the rows with respect to key columns: one per combination of key values, in ascending order, with the rows in order. -/
def groupsOf (lt : V → V → Bool) (ks : List Nat) (rows : List (List V)) : List (List (List V)) :=
  let key := fun row : List V => ks.map fun k => cell k row
  (sortBy (fun a b => lexBefore lt (a.map fun v => (v, true)) b) (rows.map key).eraseDups).map fun k => rows.filter fun r => key r = k

namespace Spec

/-- Position of a column. -/
def pos (sc : List (String × String)) (i : Ident) : Option Nat :=
  match i.frame with
  | some f => if i.col = "*" then none else sc.idxOf? (f, i.col)
  | none => none

/-- Value of an expression in one row. `BETWEEN` is symmetric (as in test/api/cli/sql/between_3.daphne). -/
def value (sem : Sem V) (sc : List (String × String)) : SExpr V → Option (List V → V)
  | .lit v _ => some fun _ => v
  | .star => none
  | .ident i => (pos sc i).map cell
  | .paren e => value sem sc e
  | .agg _ _ => none
  | .bin s l r => do
    let f ← value sem sc l
    let g ← value sem sc r
    some fun row => sem.bin s.op (f row) (g row)
  | .between _ _ x l r => do
    let x ← value sem sc x
    let l ← value sem sc l
    let r ← value sem sc r
    some fun row => sem.bin .or (sem.bin .and (sem.bin .ge (x row) (l row)) (sem.bin .le (x row) (r row)))
      (sem.bin .and (sem.bin .ge (x row) (r row)) (sem.bin .le (x row) (l row)))
  | .and _ l r => do
    let f ← value sem sc l
    let g ← value sem sc r
    some fun row => sem.bin .and (f row) (g row)
  | .or _ l r => do
    let f ← value sem sc l
    let g ← value sem sc r
    some fun row => sem.bin .or (f row) (g row)

/-- Aggregation functions, in any spelling. -/
def fn (s : String) : Option GFn :=
  match s.toLower with
  | "count" => some .count
  | "sum" => some .sum
  | "min" => some .min
  | "max" => some .max
  | "avg" => some .avg
  | _ => none

/-- Value of an expression for a group of rows: columns outside of aggregations must be keys. -/
def groupValue (sem : Sem V) (sc : List (String × String)) (keys : List Ident) : SExpr V → Option (List (List V) → V)
  | .lit v _ => some fun _ => v
  | .star => none
  | .ident i => if i ∈ keys then (pos sc i).map fun k g => cell k (g.headD []) else none
  | .paren e => groupValue sem sc keys e
  | .agg f e => do
    let f ← fn f
    let v ← value sem sc e
    some fun g => sem.aggOf f (g.map v)
  | .bin s l r => do
    let f ← groupValue sem sc keys l
    let g ← groupValue sem sc keys r
    some fun row => sem.bin s.op (f row) (g row)
  | .between _ _ x l r => do
    let x ← groupValue sem sc keys x
    let l ← groupValue sem sc keys l
    let r ← groupValue sem sc keys r
    some fun row => sem.bin .or (sem.bin .and (sem.bin .ge (x row) (l row)) (sem.bin .le (x row) (r row)))
      (sem.bin .and (sem.bin .ge (x row) (r row)) (sem.bin .le (x row) (l row)))
  | .and _ l r => do
    let f ← groupValue sem sc keys l
    let g ← groupValue sem sc keys r
    some fun row => sem.bin .and (f row) (g row)
  | .or _ l r => do
    let f ← groupValue sem sc keys l
    let g ← groupValue sem sc keys r
    some fun row => sem.bin .or (f row) (g row)

/-- A table of the FROM clause. -/
def table (views : String → Option (Tab V)) (r : Ref) : Option (Scope V) :=
  (views r.var).map fun t => ⟨t.labels.map fun l => (r.corr, unq l), t.rows⟩

/-- `FROM r, rs...` -/
def cross (views : String → Option (Tab V)) : Ref → List Ref → Option (Scope V)
  | r, [] => table views r
  | r, r' :: rs => do
    let a ← table views r
    let b ← cross views r' rs
    some ⟨a.sc ++ b.sc, a.rows.flatMap fun x => b.rows.map fun y => x ++ y⟩

/-- A condition: the left column belongs to the tables before, the right one to the joined table. -/
def cond (sem : Sem V) (a b : List (String × String)) (c : JCond) : Option (List V → List V → Bool) := do
  let i ← pos a c.l
  let op ← c.op
  let j ← pos b c.r
  some fun x y => sem.cmp op (cell i x) (cell j y)

/-- `... JOIN ref ON cond AND conds...` -/
def join (sem : Sem V) (views : String → Option (Tab V)) (a : Scope V) (j : Join) : Option (Scope V) := do
  let b ← table views j.ref
  let cs ← (j.cond :: j.conds).mapM (cond sem a.sc b.sc)
  some ⟨a.sc ++ b.sc, a.rows.flatMap fun x => (b.rows.filter fun y => cs.all fun c => c x y).map fun y => x ++ y⟩

/-- The rows of the FROM clause. -/
def from_ (sem : Sem V) (views : String → Option (Tab V)) (q : Query V) : Option (Scope V) := do
  let a ← cross views q.ref q.refs
  q.joins.foldlM (join sem views) a

/-- The rows that satisfy the WHERE clause. -/
def filter (sem : Sem V) (s : Scope V) : Option (SExpr V) → Option (Scope V)
  | none => some s
  | some e => do
    let f ← value sem s.sc e
    some { s with rows := s.rows.filter fun r => sem.truthy (f r) }

/-- Columns of the ORDER BY clause. -/
def orderCols (sc : List (String × String)) (ks : List (Ident × Bool)) : Option (List (Nat × Bool)) :=
  ks.mapM fun k => (pos sc k.1).map fun i => (i, k.2)

/-- Labels and values of one item of the SELECT clause. `*` stands for all columns, `f.*` for the columns of one table. -/
def item (sem : Sem V) (sc : List (String × String)) (it : Item V) : Option (List String × (List V → List V)) :=
  match it.e with
  | .star => some (sc.map fun c => c.1 ++ "." ++ c.2, id)
  | .ident ⟨some f, "*"⟩ =>
    if f ∈ sc.map (·.1) then
      some ((sc.filter fun c => c.1 = f).map fun c => c.1 ++ "." ++ c.2,
        fun row => ((List.range sc.length).filter fun i => (sc.map (·.1))[i]? = some f).map fun i => cell i row)
    else none
  | e => (value sem sc e).map fun v => ([it.aka.getD e.text], fun row => [v row])

/-- Labels and rows of the SELECT clause. -/
def select (sem : Sem V) (sc : List (String × String)) (rows : List (List V)) (its : List (Item V)) : Option (Tab V) := do
  let cols ← its.mapM (item sem sc)
  some ⟨cols.flatMap (·.1), rows.map fun row => cols.flatMap fun c => c.2 row⟩

/-- A query without GROUP BY and aggregation functions. -/
def plain (sem : Sem V) (views : String → Option (Tab V)) (q : Query V) : Option (Tab V) := do
  let s ← from_ sem views q
  let s ← filter sem s q.where_
  let ks ← orderCols s.sc q.orderBy
  select sem s.sc (sortBy (rowBefore sem.lt ks) s.rows) (q.item :: q.items)

/-- Groups that satisfy the HAVING clause. -/
def having (sem : Sem V) (sc : List (String × String)) (keys : List Ident) (gs : List (List (List V))) : Option (SExpr V) → Option (List (List (List V)))
  | none => some gs
  | some e => do
    let f ← groupValue sem sc keys e
    some (gs.filter fun g => sem.truthy (f g))

/-- A query with GROUP BY: one row per group. -/
def grouped (sem : Sem V) (views : String → Option (Tab V)) (q : Query V) (g : GroupBy V) : Option (Tab V) := do
  let s ← from_ sem views q
  let s ← filter sem s q.where_
  let keys := g.key :: g.keys
  let kpos ← keys.mapM (pos s.sc)
  let gs ← having sem s.sc keys (groupsOf sem.lt kpos s.rows) g.having
  if ∀ k ∈ q.orderBy, k.1 ∈ keys then do
    let ks ← orderCols s.sc q.orderBy
    let gs := sortBy (fun a b => rowBefore sem.lt ks (a.headD []) (b.headD [])) gs
    let cols ← (q.item :: q.items).mapM fun it => (groupValue sem s.sc keys it.e).map fun v => (it.aka.getD it.e.text, v)
    some ⟨cols.map (·.1), gs.map fun g => cols.map fun c => c.2 g⟩
  else none

/-- A query without GROUP BY whose items are aggregations of all rows: one row. -/
def aggregated (sem : Sem V) (views : String → Option (Tab V)) (q : Query V) : Option (Tab V) := do
  let s ← from_ sem views q
  let s ← filter sem s q.where_
  let cols ← (q.item :: q.items).mapM fun it => (groupValue sem s.sc [] it.e).map fun v => (it.aka.getD it.e.text, v)
  some ⟨cols.map (·.1), [cols.map fun c => c.2 s.rows]⟩

end Spec
end
end Verif.Sql
