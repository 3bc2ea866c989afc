/-
  SQL queries: C234-C242.
-/
import Verif.Sql.Whole

namespace Verif.Sql
open Verif Verif.Rel Verif.Ir
variable {V : Type} [Inhabited V] [DecidableEq V]

/-- The tables that a query uses have distinct column names and complete rows. -/
def ViewsOK (views : String → Option (Tab V)) (q : Query V) : Prop := ∀ r ∈ q.tables, ∀ t, views r.var = some t → TabOK t

/-- **Queries without grouping and aggregation** (C234): a query with cross products, joins, WHERE, ORDER BY and expressions in the SELECT clause returns the
table that it means, if the labels of the result are distinct. -/
theorem C234_plain_queries (sem : Sem V) (views : String → Option (Tab V)) (q : Query V) (hn : NamesOK q.tables) (hv : ViewsOK views q) (hg : q.groupBy = none)
    (hd : q.distinct = false) (hb : q.NoBang) {T : Tab V} (h : Spec.plain sem views q = some T) (hT : T.labels.Nodup) : run sem views q = .ok T := by
  obtain ⟨st, h1, _, _⟩ := plain_core sem q hn hv hg hb h hT
  rw [h1, hd]
  rfl

/-- **Queries with GROUP BY** (C235): one row per group that satisfies HAVING, in the order of ORDER BY (of the keys without it), with the values of the items,
whatever aggregations occur in them and how often. -/
theorem C235_grouped_queries (sem : Sem V) (views : String → Option (Tab V)) (q : Query V) (g : GroupBy V) (hn : NamesOK q.tables) (hgn : q.GroupNames)
    (hv : ViewsOK views q) (hg : q.groupBy = some g) (hkeys : (g.key :: g.keys).Nodup) (hb : q.NoBang) (hl : q.Lexical)
    (hd : q.distinct = false) {T : Tab V} (h : Spec.grouped sem views q g = some T) (hT : T.labels.Nodup) : run sem views q = .ok T :=
  grouped_run sem q g hn hgn hv hg hkeys hb hl hd h hT

/-- **Aggregation of all rows** (C236): one row with the values of the items. -/
theorem C236_aggregated_queries (sem : Sem V) (views : String → Option (Tab V)) (q : Query V) (hn : NamesOK q.tables) (hv : ViewsOK views q)
    (hg : q.groupBy = none) (hord : q.orderBy = []) (hb : q.NoBang) (hl : q.Lexical) (hw : q.Whole) (hd : q.distinct = false) {T : Tab V}
    (h : Spec.aggregated sem views q = some T) (hT : T.labels.Nodup) : run sem views q = .ok T :=
  whole_run sem q hn hv hg hord hb hl hw hd h hT

/-- **DISTINCT** (C237): the result of a query with DISTINCT has each row of the result without DISTINCT exactly once. -/
theorem C237_distinct (sem : Sem V) (views : String → Option (Tab V)) (q : Query V) (hn : NamesOK q.tables) (hv : ViewsOK views q) (hg : q.groupBy = none)
    (hd : q.distinct = true) (hb : q.NoBang) {T : Tab V} (h : Spec.plain sem views q = some T) (hT : T.labels.Nodup) (hne : T.labels ≠ []) :
    ∃ R, run sem views q = .ok ⟨T.labels, R⟩ ∧ R.Nodup ∧ ∀ row, row ∈ R ↔ row ∈ T.rows := by
  obtain ⟨st, h1, h2, h3⟩ := plain_core sem q hn hv hg hb h hT
  refine ⟨sortBy (fun a b => lexBefore sem.lt (a.map fun v => (v, true)) b) T.rows.eraseDups, ?_, ?_, ?_⟩
  · rw [h1, hd]
    simp only [visitDistinct, h2, h3, Bool.true_eq_false, if_false, Bool.false_eq_true, false_and, false_or, ne_eq, not_true_eq_false]
    exact group_star sem T hT hne (plain_rows sem q hn hv hb h)
  · exact (sortBy_perm _ _).nodup_iff.2 (by
      have : ∀ (n : Nat) (l : List (List V)), l.length ≤ n → l.eraseDups.Nodup := by
        intro n
        induction n with
        | zero => intro l hl; have := List.length_eq_zero_iff.1 (by omega : l.length = 0); subst this; simp
        | succ n ih =>
          intro l hl
          cases l with
          | nil => simp
          | cons a l =>
            rw [List.eraseDups_cons]
            refine List.nodup_cons.2 ⟨?_, ih _ ?_⟩
            · rw [List.mem_eraseDups]
              simp
            · have := List.length_filter_le (fun b => !b == a) l
              simp only [List.length_cons] at hl
              omega
      exact this _ _ (Nat.le_refl _))
  · intro row
    rw [sortBy_mem, List.mem_eraseDups]

/-! ### Examples -/

/-- Integers. -/
def semI : Sem Int where
  bin
    | .mul, a, b => a * b
    | .div, a, b => a / b
    | .add, a, b => a + b
    | .sub, a, b => a - b
    | .eq, a, b => if a = b then 1 else 0
    | .neq, a, b => if a = b then 0 else 1
    | .lt, a, b => if a < b then 1 else 0
    | .le, a, b => if a ≤ b then 1 else 0
    | .gt, a, b => if b < a then 1 else 0
    | .ge, a, b => if b ≤ a then 1 else 0
    | .and, a, b => if a ≠ 0 ∧ b ≠ 0 then 1 else 0
    | .or, a, b => if a ≠ 0 ∨ b ≠ 0 then 1 else 0
  truthy := fun a => decide (a ≠ 0)
  cmp
    | .eq, a, b => decide (a = b)
    | .lt, a, b => decide (a < b)
    | .le, a, b => decide (a ≤ b)
    | .gt, a, b => decide (b < a)
    | .ge, a, b => decide (b ≤ a)
    | .ne, a, b => decide (a ≠ b)
  lt := fun a b => decide (a < b)
  ofNat := fun n => (n : Int)
  agg
    | .sum, l => l.sum
    | .max, l => l.foldl max (l.headD 0)
    | .min, l => l.foldl min (l.headD 0)
    | _, l => l.sum / l.length

def emp : Tab Int := ⟨["id", "dept", "pay"], [[1, 10, 50], [2, 20, 70], [3, 10, 60], [4, 20, 70]]⟩
def dep : Tab Int := ⟨["id", "boss"], [[10, 3], [20, 2], [30, 1]]⟩

/-- Two tables. -/
def db : String → Option (Tab Int)
  | "emp" => some emp
  | "dep" => some dep
  | _ => none

def col (f c : String) : SExpr Int := .ident ⟨some f, c⟩
def num (n : Int) (t : String) : SExpr Int := .lit n t

/-- `SELECT e.id, d.boss + 1 AS b FROM emp AS e JOIN dep AS d ON e.dept = d.id WHERE e.pay >= 60 ORDER BY e.pay DESC, e.id` -/
def q1 : Query Int :=
  ⟨false, ⟨col "e" "id", none⟩, [⟨.bin .add (col "d" "boss") (num 1 "1"), some "b"⟩], ⟨"emp", some "e"⟩, [], [⟨⟨"dep", some "d"⟩, ⟨⟨some "e", "dept"⟩, some .eq, ⟨some "d", "id"⟩⟩, []⟩],
    some (.bin .ge (col "e" "pay") (num 60 "60")), none, [(⟨some "e", "pay"⟩, false), (⟨some "e", "id"⟩, true)]⟩

/-- `SELECT e.dept, sum(e.pay) + count(e.id) AS s, max(e.pay) FROM emp AS e GROUP BY e.dept HAVING sum(e.pay) > 100 ORDER BY e.dept DESC` -/
def q2 : Query Int :=
  ⟨false, ⟨col "e" "dept", none⟩, [⟨.bin .add (.agg "sum" (col "e" "pay")) (.agg "count" (col "e" "id")), some "s"⟩, ⟨.agg "max" (col "e" "pay"), none⟩], ⟨"emp", some "e"⟩, [], [], none,
    some ⟨⟨some "e", "dept"⟩, [], some (.bin .gt (.agg "SUM" (col "e" "pay")) (num 100 "100"))⟩, [(⟨some "e", "dept"⟩, false)]⟩

/-- `SELECT sum(e.pay * 2) - 1 AS s, count(e.id) FROM emp AS e WHERE e.dept = 20` -/
def q3 : Query Int :=
  ⟨false, ⟨.bin .sub (.agg "sum" (.bin .mul (col "e" "pay") (num 2 "2"))) (num 1 "1"), some "s"⟩, [⟨.agg "count" (col "e" "id"), none⟩], ⟨"emp", some "e"⟩, [], [],
    some (.bin .eq (col "e" "dept") (num 20 "20")), none, []⟩

/-- `SELECT DISTINCT e.dept, e.pay FROM emp AS e` -/
def q4 : Query Int := ⟨true, ⟨col "e" "dept", none⟩, [⟨col "e" "pay", none⟩], ⟨"emp", some "e"⟩, [], [], none, none, []⟩

theorem tabOK_db (q : Query Int) : ViewsOK db q := by
  intro r _ t ht
  unfold db at ht
  split at ht
  · cases ht; exact ⟨by decide +kernel, by decide +kernel⟩
  · cases ht; exact ⟨by decide +kernel, by decide +kernel⟩
  · cases ht

example : NamesOK q1.tables ∧ ViewsOK db q1 ∧ q1.NoBang ∧ Spec.plain semI db q1 = some ⟨["e.id", "b"], [[2, 3], [4, 3], [3, 4]]⟩ :=
  ⟨⟨by simp [q1, Query.tables, Ref.corr], by simp [q1, Query.tables, Ref.corr]⟩, tabOK_db q1, by simp [q1, Query.NoBang, SExpr.NoBang, col, num], by decide +kernel⟩

example : run semI db q1 = .ok ⟨["e.id", "b"], [[2, 3], [4, 3], [3, 4]]⟩ := by decide +kernel

example : NamesOK q2.tables ∧ q2.GroupNames ∧ q2.Lexical ∧ q2.NoBang ∧
    Spec.grouped semI db q2 ⟨⟨some "e", "dept"⟩, [], some (.bin .gt (.agg "SUM" (col "e" "pay")) (num 100 "100"))⟩ = some ⟨["e.dept", "s", "max(e.pay)"], [[20, 142, 70], [10, 112, 60]]⟩ := by
  refine ⟨⟨by simp [q2, Query.tables, Ref.corr], by simp [q2, Query.tables, Ref.corr]⟩, ?_, ?_, ?_, by decide +kernel⟩
  · simp [Query.GroupNames, GroupName, q2, Query.tables, Ref.corr]
  · simp [Query.Lexical, q2, SExpr.Lexical, col, num]
  · simp [q2, Query.NoBang, SExpr.NoBang, col, num]

example : run semI db q2 = .ok ⟨["e.dept", "s", "max(e.pay)"], [[20, 142, 70], [10, 112, 60]]⟩ := by decide +kernel

example : q3.Whole ∧ q3.Lexical ∧ Spec.aggregated semI db q3 = some ⟨["s", "count(e.id)"], [[279, 2]]⟩ := by
  refine ⟨by simp [q3, Query.Whole, SExpr.Whole, SExpr.isCol, col, num], by simp [q3, Query.Lexical, SExpr.Lexical, col, num], by decide +kernel⟩

example : run semI db q4 = .ok ⟨["e.dept", "e.pay"], [[10, 50], [10, 60], [20, 70]]⟩ := by decide +kernel

/-! ### Queries that do not get their meaning -/

/-- `SELECT DISTINCT e.dept AS d FROM emp AS e GROUP BY e.dept, e.pay` -/
def q5 : Query Int := ⟨true, ⟨col "e" "dept", some "d"⟩, [], ⟨"emp", some "e"⟩, [], [], none, some ⟨⟨some "e", "dept"⟩, [⟨some "e", "pay"⟩], none⟩, []⟩

/-- **DISTINCT with GROUP BY returns rows more than once** (C238): the code takes it for granted that the rows of the result differ because the groups do. -/
theorem C238_distinct_group_by_partial : run semI db q5 = .ok ⟨["d"], [[10], [10], [20]]⟩ ∧ ¬ [[(10 : Int)], [10], [20]].Nodup := by decide +kernel

/-- `SELECT DISTINCT e.pay FROM emp AS e ORDER BY e.pay DESC` -/
def q6 : Query Int := ⟨true, ⟨col "e" "pay", none⟩, [], ⟨"emp", some "e"⟩, [], [], none, none, [(⟨some "e", "pay"⟩, false)]⟩

/-- **DISTINCT destroys the order of ORDER BY** (C239): it groups the ordered rows, and groups are in ascending order. -/
theorem C239_distinct_order_by_partial : run semI db q6 = .ok ⟨["e.pay"], [[50], [60], [70]]⟩ ∧
    Spec.plain semI db q6 = some ⟨["e.pay"], [[70], [70], [60], [50]]⟩ := by decide +kernel

/-- `SELECT a.id FROM dep AS emp, emp AS a` -/
def q7 : Query Int := ⟨false, ⟨col "a" "id", none⟩, [], ⟨"dep", some "emp"⟩, [⟨"emp", some "a"⟩], [], none, none, []⟩
/-- `SELECT emp.id FROM emp AS a, emp` -/
def q8 : Query Int := ⟨false, ⟨col "emp" "id", none⟩, [], ⟨"emp", some "a"⟩, [⟨"emp", none⟩], [], none, none, []⟩
/-- `SELECT emp.id FROM emp AS a, dep AS emp` -/
def q9 : Query Int := ⟨false, ⟨col "emp" "id", none⟩, [], ⟨"emp", some "a"⟩, [⟨"dep", some "emp"⟩], [], none, none, []⟩

/-- Whether the call ends with an exception. -/
def throws {α : Type} : Res α → Bool
  | .error (.throw _) => true
  | _ => false

/-- Whether the call has undefined behaviour. -/
def undefined {α : Type} : Res α → Bool
  | .error (.ub _) => true
  | _ => false

/-- **Aliases hide tables** (C240): an alias that is the name of a table is used as this table later in the same FROM clause (the first query reads the column
`id` of `dep` instead of `emp`), and FROM clauses that use a table without an alias after having given it one, or its name as an alias, are rejected. -/
theorem C240_alias_names_partial :
    (Spec.plain semI db q7).map (·.rows.length) = some 12 ∧ run semI db q7 = .ok ⟨["a.id"], [[10], [20], [30], [10], [20], [30], [10], [20], [30]]⟩ ∧
    (Spec.plain semI db q8).isSome ∧ throws (run semI db q8) ∧ (Spec.plain semI db q9).isSome ∧ throws (run semI db q9) := by decide +kernel

/-- `SELECT count(1) FROM emp` -/
def q10 : Query Int := ⟨false, ⟨.agg "count" (num 1 "1"), none⟩, [], ⟨"emp", none⟩, [], [], none, none, []⟩
/-- `SELECT e.id FROM emp AS e JOIN dep AS d ON e.dept = d.id AND e.id d.boss` -/
def q11 : Query Int := ⟨false, ⟨col "e" "id", none⟩, [], ⟨"emp", some "e"⟩, [], [⟨⟨"dep", some "d"⟩, ⟨⟨some "e", "dept"⟩, some .eq, ⟨some "d", "id"⟩⟩, [⟨⟨some "e", "id"⟩, none, ⟨some "d", "boss"⟩⟩]⟩], none, none, []⟩
/-- `SELECT e.id FROM emp AS e WHERE e.id != 1` -/
def q12 : Query Int := ⟨false, ⟨col "e" "id", none⟩, [], ⟨"emp", some "e"⟩, [], [], some (.bin .bang (col "e" "id") (num 1 "1")), none, []⟩
/-- `SELECT sum(e.pay) AS s, 1 AS one FROM emp AS e` -/
def q13 : Query Int := ⟨false, ⟨.agg "sum" (col "e" "pay"), some "s"⟩, [⟨num 1 "1", some "one"⟩], ⟨"emp", some "e"⟩, [], [], none, none, []⟩

/-- **Queries that the grammar accepts but the translation does not** (C241): an aggregation of a literal and a join condition without an operator make the
compiler dereference a null pointer; `!=` is rejected in expressions; a literal beside an aggregation of all rows fails (it gets as many rows as the table). -/
theorem C241_rejected_queries_partial :
    (Spec.aggregated semI db q10 = some ⟨["count(1)"], [[4]]⟩ ∧ undefined (run semI db q10)) ∧ undefined (run semI db q11) ∧
    (Spec.plain semI db q12 = some ⟨["e.id"], [[2], [3], [4]]⟩ ∧ throws (run semI db q12)) ∧
    (Spec.aggregated semI db q13 = some ⟨["s", "one"], [[250, 1]]⟩ ∧ throws (run semI db q13)) := by decide +kernel

/-- `SELECT *, sum(d.id) AS s FROM dep AS d GROUP BY d.id, d.boss`: all columns are keys, so `*` has a value in each group. -/
def q14 : Query Int := ⟨false, ⟨.star, none⟩, [⟨.agg "sum" (col "d" "id"), some "s"⟩], ⟨"dep", some "d"⟩, [], [], none, some ⟨⟨some "d", "id"⟩, [⟨some "d", "boss"⟩], none⟩, []⟩

/-- The same query with the columns written out. -/
def q14' : Query Int := { q14 with item := ⟨col "d" "id", none⟩, items := [⟨col "d" "boss", none⟩, ⟨.agg "sum" (col "d" "id"), some "s"⟩] }

/-- **`*` in queries with GROUP BY** (C242): with aggregations, `*` stands for the columns that are aggregated instead of all columns. -/
theorem C242_star_group_by_partial : run semI db q14 = .ok ⟨["d.id", "s"], [[10, 10], [20, 20], [30, 30]]⟩ ∧
    run semI db q14' = .ok ⟨["d.id", "d.boss", "s"], [[10, 3, 10], [20, 2, 20], [30, 1, 30]]⟩ ∧
    Spec.grouped semI db q14' ⟨⟨some "d", "id"⟩, [⟨some "d", "boss"⟩], none⟩ = some ⟨["d.id", "d.boss", "s"], [[10, 3, 10], [20, 2, 20], [30, 1, 30]]⟩ := by decide +kernel

end Verif.Sql
