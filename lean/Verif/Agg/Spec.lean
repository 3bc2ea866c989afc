/-
  Specification side of the aggregation properties: what the aggregate of a list of values is, and the lists of values of a
  matrix, of its rows and of its columns.  Independent of the kernels' loops.
-/
import Verif.Agg.Model

namespace Verif
variable {α : Type _}

/-- The cells of row `r`, left to right. -/
def Mat.rowList (a : Mat α) (r : Nat) : List α := (List.range a.cols).map fun c => a.cell r c

/-- The cells of column `c`, top to bottom. -/
def Mat.colList (a : Mat α) (c : Nat) : List α := (List.range a.rows).map fun r => a.cell r c

/-- All cells, row by row. -/
def Mat.cells (a : Mat α) : List α := (List.range a.rows).flatMap fun r => a.rowList r

namespace Agg
variable {ρ : Type}

/-- `v` results from the elements of `l`, each used exactly once, by applying `f` repeatedly, in some order and with some
bracketing. -/
inductive Combines (f : α → α → α) : List α → α → Prop where
  | one (x : α) : Combines f [x] x
  | node {l l' : List α} {a b : α} : Combines f l a → Combines f l' b → Combines f (l ++ l') (f a b)
  | perm {l l' : List α} {a : α} : l.Perm l' → Combines f l a → Combines f l' a

/-- Sum, product, minimum and maximum of a list in the arithmetic `A`. -/
def fold (A : VT ρ) (o : BinOp) (e : ρ) (l : List ρ) : ρ := l.foldr (A.ap o) e

def sumOf (A : VT ρ) (l : List ρ) : ρ := fold A .add A.zero l

/-- Sum divided by the number of values. -/
def meanOf (A : VT ρ) (l : List ρ) : Res ρ := A.div (sumOf A l) l.length

/-- Mean squared difference from the mean. -/
def varOf (A : VT ρ) (l : List ρ) : Res ρ := do
  let m ← meanOf A l
  A.div (sumOf A (l.map fun x => A.ap .mul (A.sub x m) (A.sub x m))) l.length

/-- The aggregate of a list of values. -/
def aggOf (A : VT ρ) (op : AggOp) (l : List ρ) : Res ρ :=
  match op with
  | .sum => .ok (sumOf A l)
  | .prod => .ok (fold A .mul A.one l)
  | .min => .ok (fold A .min A.top l)
  | .max => .ok (fold A .max A.bot l)
  | .mean => meanOf A l
  | .var => varOf A l
  | .stddev => do
    let w ← varOf A l
    .ok (A.sqrt w)
  | .idxmin => .error (.throw "no such aggregate value")
  | .idxmax => .error (.throw "no such aggregate value")

/-- `f` is associative and commutative with neutral element `e`. -/
structure CMon (f : ρ → ρ → ρ) (e : ρ) : Prop where
  assoc : ∀ a b c, f (f a b) c = f a (f b c)
  comm : ∀ a b, f a b = f b a
  unit : ∀ a, f a e = a

/-- The reductions by one binary operation: which operation, and its neutral element. -/
def reduction (A : VT ρ) : AggOp → Option (BinOp × ρ)
  | .sum => some (.add, A.zero)
  | .prod => some (.mul, A.one)
  | .min => some (.min, A.top)
  | .max => some (.max, A.bot)
  | _ => none

/-- The binary operation and its neutral element that an aggregation starts with: mean, variance and standard deviation sum up. -/
def summation (A : VT ρ) (op : AggOp) : BinOp × ρ := (reduction A op).getD (.add, A.zero)

/-- The laws of arithmetic under which the order of the operands does not matter and zeros can be treated together, as far as
they concern the aggregation `op`; true of mathematical numbers and of integers that wrap around, not of floating-point addition. -/
structure Lawful (A : VT ρ) (op : AggOp) : Prop where
  mon : CMon (A.ap (summation A op).1) (summation A op).2
  zeros : A.ap (summation A op).1 A.zero A.zero = A.zero
  /-- `n * m * m` is the sum of `n` times the square of `0 - m` -/
  times : op = .var ∨ op = .stddev → ∀ n m,
    A.ap .mul (A.times n m) m = sumOf A (List.replicate n (A.ap .mul (A.sub A.zero m) (A.sub A.zero m)))
  times' : op = .var ∨ op = .stddev → ∀ n m,
    A.times n (A.ap .mul m m) = sumOf A (List.replicate n (A.ap .mul (A.sub A.zero m) (A.sub A.zero m)))

/-- The conversions between argument and result type lose nothing: on a set `P` of values of the result type that contains the
converted arguments, zero and the neutral element, and is closed under the operation, computing in the argument type is computing
in the result type. True in particular if the two types are equal, and for sums of integers in a wider type. -/
def Conv.Exact (A : VT ρ) {α : Type} (K : Conv α ρ) (op : AggOp) : Prop := ∃ P : ρ → Prop, P A.zero ∧ P (summation A op).2 ∧
  (∀ v, P (K.cast v)) ∧ ∀ a b, P a → P b → P (A.ap (summation A op).1 a b) ∧
    K.bin (summation A op).1 a b = .ok (A.ap (summation A op).1 a b)

/-- `less` orders the values (a strict weak order; for floating-point numbers: no NaN among them). -/
structure StrictWeak (less : α → α → Bool) : Prop where
  irrefl : ∀ a, less a a = false
  trans : ∀ a b c, less a b = true → less b c = true → less a c = true
  negTrans : ∀ a b c, less a b = false → less b c = false → less a c = false

/-- `i` is the first position of the list at which its smallest value (w.r.t. `less`) occurs. -/
def FirstLeast (less : α → α → Bool) (l : List α) (i : Nat) : Prop :=
  ∃ v, l[i]? = some v ∧ (∀ w ∈ l, less w v = false) ∧ ∀ j w, j < i → l[j]? = some w → less v w = true

end Agg
end Verif
