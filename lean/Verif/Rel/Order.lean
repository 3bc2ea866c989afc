/-
  Model of `runtime/local/kernels/Order.h`: sorting row indexes by several key columns, with the list of groups of
  equal keys that `Group.h` consumes.
-/
import Verif.Basic.Res
import Mathlib.Data.List.Sort
import Mathlib.Data.List.Perm.Basic

namespace Verif.Rel
open Verif

/-- One key column: the value type `κ` with the `<` and `!=` the C++ code uses on it, and the value in each row.
    (`DenseMatrix<VT>`/`Matrix<VT>`/frame column; storage is modelled in `Verif/Dense`.) -/
structure Key where
  κ : Type
  lt : κ → κ → Bool
  ne : κ → κ → Bool
  val : Nat → κ

/-- `std::stable_sort` on a range, with comparator `cmp` (`cmp i j`: `i` goes strictly before `j`). Any stable sort
    gives this list (`stable_sort_unique` in `Verif/Rel/OrderProps.lean`). -/
def stableSort (cmp : Nat → Nat → Bool) (l : List Nat) : List Nat := l.mergeSort (fun i j => !cmp j i)

/-- The comparator of `columnIDSort` — Order.h:70-75 (dense), 87-90 (`Matrix`). -/
def Key.cmp (k : Key) (asc : Bool) (i j : Nat) : Bool :=
  if asc then k.lt (k.val i) (k.val j) else k.lt (k.val j) (k.val i)

/-- `std::stable_sort(indices + group.first, indices + group.second, compare)` — Order.h:77, 92. -/
def sortGroup (cmp : Nat → Nat → Bool) (idx : List Nat) (g : Nat × Nat) : List Nat :=
  idx.take g.1 ++ stableSort cmp ((idx.drop g.1).take (g.2 - g.1)) ++ idx.drop g.2

/-- `columnIDSort` — Order.h:65-78, 82-93, and `ColumnIDSort` for frames (Order.h:171-176). -/
def columnIDSort (k : Key) (asc : Bool) (groups : List (Nat × Nat)) (idx : List Nat) : List Nat :=
  groups.foldl (sortGroup (k.cmp asc)) idx

/-- `nextWithRowskip` — Order.h:95-101 (dense), 104-113 (`Matrix`): from `p`, the first row before `last` whose value
    differs from the one of row `first`, else `last`. `tmp` is the reordered column. -/
def nextDiff (ne : κ → κ → Bool) (tmp : List κ) (fv : κ) (p last : Nat) : Res Nat :=
  if p < last then
    match tmp[p]? with
    | none => .error (.ub "columnGroupScan: read past the end of the column")
    | some v => if ne v fv then .ok p else nextDiff ne tmp fv (p + 1) last
  else .ok last
termination_by last - p

/-- The `while(first != last)` loop of `columnGroupScan` — Order.h:128-135, 146-151. `fuel` bounds the number of
    iterations; `none` means that the loop is still running. -/
def scanGroup (ne : κ → κ → Bool) (tmp : List κ) : Nat → Nat → Nat → Res (Option (List (Nat × Nat)))
  | 0, first, last => .ok (if first = last then some [] else none)
  | fuel + 1, first, last =>
    if first = last then .ok (some [])
    else match tmp[first]? with
      | none => .error (.ub "columnGroupScan: read past the end of the column")
      | some fv => do
        let next ← nextDiff ne tmp fv first last
        let rest ← scanGroup ne tmp fuel next last
        .ok (rest.map fun r => if next - first > 1 then (first, next) :: r else r)

/-- `columnGroupScan` — Order.h:120-138, 141-155: the scans of the old groups, one after the other. -/
def columnGroupScan (fuel : Nat) (ne : κ → κ → Bool) (tmp : List κ) : List (Nat × Nat) → Res (Option (List (Nat × Nat)))
  | [] => .ok (some [])
  | g :: gs => do
    let a ← scanGroup ne tmp fuel g.1 g.2
    match a with
    | none => .ok none
    | some a =>
      let b ← columnGroupScan fuel ne tmp gs
      .ok (b.map (a ++ ·))

/-- `multiColumnIDSort` — Order.h:160-168, and `MultiColumnIDSort` for frames (Order.h:181-186). -/
def multiColumnIDSort (fuel : Nat) (k : Key) (asc : Bool) (st : List Nat × List (Nat × Nat)) :
    Res (Option (List Nat × List (Nat × Nat))) := do
  let idx := columnIDSort k asc st.2 st.1
  let tmp := idx.map k.val
  let gs ← columnGroupScan fuel k.ne tmp st.2
  .ok (gs.map fun g => (idx, g))

/-- A loop over key columns of `multiColumnIDSort` — Order.h:200-208, 300-304, 344-347. -/
def multiSorts (fuel : Nat) : List (Key × Bool) → List Nat × List (Nat × Nat) → Res (Option (List Nat × List (Nat × Nat)))
  | [], st => .ok (some st)
  | (k, asc) :: ks, st => do
    let st' ← multiColumnIDSort fuel k asc st
    match st' with
    | none => .ok none
    | some st' => multiSorts fuel ks st'

/-- The index computation of `order` — `OrderFrame::apply` (Order.h:188-228) and the first part of the matrix
    specializations (Order.h:281-311, 324-354). `keys` are the key columns with their sort direction, the last one
    given separately as `numColIdxs = 0` is rejected. With `wantGroups` (argument `groupsRes`), the last column is
    also scanned and the groups are returned. -/
def orderIdx (fuel n : Nat) (keys : List (Key × Bool)) (wantGroups : Bool) :
    Res (Option (List Nat × List (Nat × Nat))) :=
  match keys.getLast? with
  | none => .error (.throw "order-kernel called with invalid arguments")
  | some (k, asc) => do
    let st ← multiSorts fuel keys.dropLast (List.range n, [(0, n)])
    match st with
    | none => .ok none
    | some st =>
      if wantGroups then multiColumnIDSort fuel k asc st
      else .ok (some (columnIDSort k asc st.2 st.1, st.2))

/-! ## Specification -/

/-- What the key columns must satisfy: `<` is a strict weak order and `!=` is false exactly on incomparable values.
    True for integers, strings, and floating-point columns without NaN. -/
structure Key.Lawful (k : Key) : Prop where
  irrefl : ∀ a, k.lt a a = false
  trans : ∀ a b c, k.lt a b → k.lt b c → k.lt a c
  /-- "not less" is transitive -/
  ntrans : ∀ a b c, k.lt a b = false → k.lt b c = false → k.lt a c = false
  ne_iff : ∀ a b, k.ne a b = false ↔ k.lt a b = false ∧ k.lt b a = false

/-- Row `i` is strictly before row `j` in column `k` with direction `asc`. -/
def Before (k : Key) (asc : Bool) (i j : Nat) : Prop :=
  if asc then k.lt (k.val i) (k.val j) = true else k.lt (k.val j) (k.val i) = true

/-- Rows `i` and `j` have the same value in column `k`. -/
def Same (k : Key) (i j : Nat) : Prop := k.ne (k.val i) (k.val j) = false

/-- Lexicographic order of rows by a list of key columns. -/
def LexBefore : List (Key × Bool) → Nat → Nat → Prop
  | [], _, _ => False
  | (k, asc) :: ks, i, j => Before k asc i j ∨ (Same k i j ∧ LexBefore ks i j)

/-- The rows agree in all key columns. -/
def LexSame (ks : List (Key × Bool)) (i j : Nat) : Prop := ∀ p ∈ ks, Same p.1 i j

/-- `idx` is the stable sort of rows `0 … n-1` by the given key columns: every row once, lexicographically smaller rows
    first, and rows with the same keys in their original order. -/
structure IsStableOrder (n : Nat) (ks : List (Key × Bool)) (idx : List Nat) : Prop where
  perm : idx.Perm (List.range n)
  sorted : idx.Pairwise fun i j => LexBefore ks i j ∨ (LexSame ks i j ∧ i < j)

end Verif.Rel
