/-
  Model of columns and columnar kernels:
  src/runtime/local/datastructures/Column.h, kernels ColSelectCmp.h, ColProject.h, ColIntersect.h, ColMerge.h, ColJoin.h,
  ColSemiJoin.h, ColGroupFirst.h, ColGroupNext.h, ColAggGrp.h (all with null result pointers, as the compiler calls them).
  Positions and group ids are natural numbers where the kernel produces them, integers where it checks them.
-/
import Verif.Basic.Res

namespace Verif.Col
open Verif
variable {α δ : Type}

/-- Column.h:33-49: number of rows and the shared values array. -/
structure Column (α : Type) where
  numRows : Nat
  vals : Buf α

/-- Column.h:44-48 with `zero = false`: the contents are arbitrary. -/
def Column.create (n : Nat) (junk : Nat → α) : Column α := ⟨n, ⟨n, junk⟩⟩

/-- Column.h:104-109. -/
def Column.shrinkNumRows (c : Column α) (n : Nat) : Res (Column α) :=
  if n > c.numRows then .error (.throw "Column (shrinkNumRows): number of rows can only be shrunk") else .ok { c with numRows := n }

/-- The value of row `r`. -/
def Column.at (c : Column α) (r : Nat) : α := c.vals.data r

/-- The values of the rows, in order. -/
def Column.toList (c : Column α) : List α := c.vals.toList c.numRows

/-- The array is large enough for the rows (always true: see the constructors). -/
def Column.WF (c : Column α) : Prop := c.numRows ≤ c.vals.size

/-- ColSelectCmp.h:90-95: conditional writes of row numbers; `test r` reads and compares row `r`. -/
def selectLoop (n : Nat) (test : Nat → Res Bool) (out : Buf Nat) : Res (Nat × Buf Nat) :=
  forLoop 0 n (0, out) fun r (k, out) => do
    let t ← test r
    if t then do
      let out ← out.write k r
      .ok (k + 1, out)
    else .ok (k, out)

/-- Comparison codes, CmpOpCode.h. -/
inductive Cmp where
  | EQ | NEQ | GT | GE | LT | LE
  deriving DecidableEq

/-- ColSelectCmp.h:65-87: the comparison function, for a value type with decidable order. -/
def Cmp.func [_root_.LE α] [_root_.LT α] [DecidableEq α] [DecidableLT α] [DecidableLE α] : Cmp → α → α → Bool
  | .EQ => fun a b => a = b
  | .NEQ => fun a b => a ≠ b
  | .GT => fun a b => b < a
  | .GE => fun a b => b ≤ a
  | .LT => fun a b => a < b
  | .LE => fun a b => a ≤ b

/-- ColSelectCmp.h:53-98; `cmp v` compares a value with the scalar. -/
def select (cmp : α → Bool) (lhs : Column α) (junk : Nat → Nat) : Res (Column Nat) := do
  let res := Column.create lhs.numRows junk
  let (k, out) ← selectLoop lhs.numRows (fun r => do let v ← lhs.vals.read r; .ok (cmp v)) res.vals
  { res with vals := out }.shrinkNumRows k

/-- ColSelectCmp.h:53-98 with the comparison chosen by operation code. -/
def selectCmp [_root_.LE α] [_root_.LT α] [DecidableEq α] [DecidableLT α] [DecidableLE α] (op : Cmp) (lhs : Column α) (rhs : α)
    (junk : Nat → Nat) : Res (Column Nat) :=
  select (fun v => op.func v rhs) lhs junk

/-- ColProject.h:53-72; positions are read as integers. -/
def project (lhs : Column α) (pos : Column Int) (junk : Nat → α) : Res (Column α) := do
  let res := Column.create pos.numRows junk
  let out ← forLoop 0 pos.numRows res.vals fun r out => do
    let p ← pos.vals.read r
    if p < 0 ∨ p.toNat ≥ lhs.numRows then .error (.throw "out-of-bounds access")
    else do
      let v ← lhs.vals.read p.toNat
      out.write r v
  .ok { res with vals := out }

/-- ColIntersect.h:67-78: the loop; positions in lhs, rhs and result. The first argument bounds the iterations. -/
def intersectLoop (a b : Column Nat) : Nat → Nat → Nat → Nat → Buf Nat → Res (Nat × Buf Nat)
  | 0, _, _, k, out => .ok (k, out)
  | fuel + 1, l, r, k, out =>
    if l < a.numRows ∧ r < b.numRows then do
      let x ← a.vals.read l
      let y ← b.vals.read r
      if x < y then intersectLoop a b fuel (l + 1) r k out
      else if y < x then intersectLoop a b fuel l (r + 1) k out
      else do
        let out ← out.write k x
        intersectLoop a b fuel (l + 1) (r + 1) (k + 1) out
    else .ok (k, out)

/-- ColIntersect.h:51-82. -/
def intersect (a b : Column Nat) (junk : Nat → Nat) : Res (Column Nat) := do
  let res := Column.create (min a.numRows b.numRows) junk
  let (k, out) ← intersectLoop a b (a.numRows + b.numRows) 0 0 0 res.vals
  { res with vals := out }.shrinkNumRows k

/-- ColMerge.h:67-80: the first loop. -/
def mergeLoop (a b : Column Nat) : Nat → Nat → Nat → Nat → Buf Nat → Res (Nat × Nat × Nat × Buf Nat)
  | 0, l, r, k, out => .ok (l, r, k, out)
  | fuel + 1, l, r, k, out =>
    if l < a.numRows ∧ r < b.numRows then do
      let x ← a.vals.read l
      let y ← b.vals.read r
      if x < y then do
        let out ← out.write k x
        mergeLoop a b fuel (l + 1) r (k + 1) out
      else if y < x then do
        let out ← out.write k y
        mergeLoop a b fuel l (r + 1) (k + 1) out
      else do
        let out ← out.write k x
        mergeLoop a b fuel (l + 1) (r + 1) (k + 1) out
    else .ok (l, r, k, out)

/-- ColMerge.h:82-91: copying the rest of one operand. -/
def mergeRest (a : Column Nat) (l k : Nat) (out : Buf Nat) : Res (Nat × Buf Nat) :=
  forLoop l a.numRows (k, out) fun i (k, out) => do
    let x ← a.vals.read i
    let out ← out.write k x
    .ok (k + 1, out)

/-- ColMerge.h:51-94. -/
def merge (a b : Column Nat) (junk : Nat → Nat) : Res (Column Nat) := do
  let res := Column.create (a.numRows + b.numRows) junk
  let (l, r, k, out) ← mergeLoop a b (a.numRows + b.numRows) 0 0 0 res.vals
  let (k, out) ← mergeRest a l k out
  let (k, out) ← mergeRest b r k out
  { res with vals := out }.shrinkNumRows k

/-- A hash map (or `std::map`), as the list of its entries with unique keys. Iteration order is never used. -/
abbrev HMap (δ : Type) := List (δ × Nat)

/-- `ht.find(key)`. -/
def HMap.find [DecidableEq δ] (m : HMap δ) (k : δ) : Option Nat := List.lookup k m

/-- `ht[key] = v`. -/
def HMap.assign [DecidableEq δ] : HMap δ → δ → Nat → HMap δ
  | [], k, v => [(k, v)]
  | (j, w) :: m, k, v => if j = k then (j, v) :: m else (j, w) :: HMap.assign m k v

/-- ColJoin.h:72-76, ColSemiJoin.h:68-72: build phase (the set of the semi-join is the map's key set). -/
def build [DecidableEq α] (rhs : Column α) : Res (HMap α) :=
  forLoop 0 rhs.numRows ([] : HMap α) fun r ht => do
    let v ← rhs.vals.read r
    .ok (ht.assign v r)

/-- ColJoin.h:61-63: number of rows allocated for the result; `-1` is `none`. -/
def numAlloc (numRes : Option Nat) (numLhs : Nat) : Nat := numRes.getD numLhs

/-- ColJoin.h:78-88: probe phase. -/
def probe [DecidableEq α] (lhs : Column α) (ht : HMap α) (out : Nat × Buf Nat × Buf Nat) : Res (Nat × Buf Nat × Buf Nat) :=
  forLoop 0 lhs.numRows out fun r (k, o1, o2) => do
    let v ← lhs.vals.read r
    match ht.find v with
    | some q => do
      let o1 ← o1.write k r
      let o2 ← o2.write k q
      .ok (k + 1, o1, o2)
    | none => .ok (k, o1, o2)

/-- ColJoin.h:56-92. -/
def join [DecidableEq α] (lhs rhs : Column α) (numRes : Option Nat) (j1 j2 : Nat → Nat) : Res (Column Nat × Column Nat) := do
  let n := numAlloc numRes lhs.numRows
  let ht ← build rhs
  let (k, o1, o2) ← probe lhs ht (0, ⟨n, j1⟩, ⟨n, j2⟩)
  let c1 ← Column.shrinkNumRows ⟨n, o1⟩ k
  let c2 ← Column.shrinkNumRows ⟨n, o2⟩ k
  .ok (c1, c2)

/-- ColSemiJoin.h:55-82. -/
def semiJoin [DecidableEq α] (lhs rhs : Column α) (numRes : Option Nat) (junk : Nat → Nat) : Res (Column Nat) := do
  let n := numAlloc numRes lhs.numRows
  let ht ← build rhs
  let (k, out) ← selectLoop lhs.numRows (fun r => do let v ← lhs.vals.read r; .ok (ht.find v).isSome) ⟨n, junk⟩
  Column.shrinkNumRows ⟨n, out⟩ k

/-- ColGroupFirst.h:67-73: `grpId = map[key]; if(!grpId) { grpId = map.size(); … }`. Yields the entry, the map, and whether the key is
new. -/
def grpLookup [DecidableEq δ] (m : HMap δ) (key : δ) : Nat × HMap δ × Bool :=
  match m.find key with
  | some (g + 1) => (g + 1, m, false)
  | some 0 => (m.length, m.assign key m.length, true)
  | none => (m.length + 1, m.assign key (m.length + 1), true)

/-- ColGroupFirst.h:65-75, ColGroupNext.h:76-86: the loop. State: map, group ids, representatives and their number. -/
def groupLoop [DecidableEq δ] (n : Nat) (key : Nat → Res δ) (ids reprs : Buf Nat) : Res (HMap δ × Buf Nat × Nat × Buf Nat) :=
  forLoop 0 n ([], ids, 0, reprs) fun r (m, ids, k, reprs) => do
    let x ← key r
    let (g, m, new) := grpLookup m x
    if new then do
      let reprs ← reprs.write k r
      let ids ← ids.write r (g - 1)
      .ok (m, ids, k + 1, reprs)
    else do
      let ids ← ids.write r (g - 1)
      .ok (m, ids, k, reprs)

/-- ColGroupFirst.h:53-78: group ids and positions of representatives. -/
def groupFirst [DecidableEq α] (arg : Column α) (j1 j2 : Nat → Nat) : Res (Column Nat × Column Nat) := do
  let n := arg.numRows
  let (_, ids, k, reprs) ← groupLoop n arg.vals.read ⟨n, j1⟩ ⟨n, j2⟩
  let c ← Column.shrinkNumRows ⟨n, reprs⟩ k
  .ok (⟨n, ids⟩, c)

/-- ColGroupNext.h:58-89. -/
def groupNext [DecidableEq α] (arg : Column α) (grpIds : Column Nat) (j1 j2 : Nat → Nat) : Res (Column Nat × Column Nat) :=
  if arg.numRows ≠ grpIds.numRows then .error (.throw "input data and input group ids must have the same number of elements")
  else do
    let n := arg.numRows
    let (_, ids, k, reprs) ← groupLoop n (fun r => do let a ← arg.vals.read r; let g ← grpIds.vals.read r; .ok (a, g)) ⟨n, j1⟩ ⟨n, j2⟩
    let c ← Column.shrinkNumRows ⟨n, reprs⟩ k
    .ok (⟨n, ids⟩, c)

/-- Grouping by several columns, as the compiler chains the kernels. -/
def groupBy [DecidableEq α] (first : Column α) (rest : List (Column α)) (j1 j2 : Nat → Nat) : Res (Column Nat × Column Nat) := do
  let p ← groupFirst first j1 j2
  rest.foldlM (fun p c => groupNext c p.1 j1 j2) p

/-- ColAggGrp.h:59, 110: the check of a group id. -/
def checkGrp (g : Int) (numDistinct : Nat) : Res Nat :=
  if g < 0 ∨ g.toNat > numDistinct then .error (.throw "out-of-bounds access") else .ok g.toNat

/-- ColAggGrp.h:51-63: `applyAgg`. -/
def applyAgg (f : α → α → α) (grp : Buf Int) (data : Buf α) (numData numDistinct : Nat) (res : Buf α) : Res (Buf α) :=
  forLoop 0 numData res fun r res => do
    let g ← grp.read r
    let g ← checkGrp g numDistinct
    let a ← res.read g
    let v ← data.read r
    res.write g (f a v)

/-- Integer types as wrap-around arithmetic: conversion of an exact integer to the type. Signed overflow of the additions is
undefined in C++; the model takes the wrap-around result, which is what the compilers in use produce (see DESIGN.md). -/
structure IntTy where
  signed : Bool
  width : Nat

def IntTy.wrap (t : IntTy) (x : Int) : Int := if t.signed then Int.bmod x (2 ^ t.width) else x % (2 ^ t.width : Nat)

/-- ColAggGrp.h:118: `!((valuesData[r] >= 0) ^ (tmp < valuesData[r]))`. -/
def overflow (x tmp : Int) : Bool := !(Bool.xor (decide (x ≥ 0)) (decide (tmp < x)))

/-- ColAggGrp.h:108-127: one iteration. State: final accumulators and lower halves. -/
def splitStep (full half : IntTy) (grp : Buf Int) (data : Buf Int) (numDistinct r : Nat) (st : Buf Int × Buf Int) : Res (Buf Int × Buf Int) := do
  let g ← grp.read r
  let g ← checkGrp g numDistinct
  let x ← data.read r
  let lo ← st.2.read g
  let tmp := half.wrap (half.wrap x + lo)
  if overflow x tmp then do
    let a ← st.1.read g
    let res ← st.1.write g (full.wrap (a + full.wrap (x + lo)))
    let lows ← st.2.write g 0
    .ok (res, lows)
  else do
    let lows ← st.2.write g tmp
    .ok (st.1, lows)

/-- ColAggGrp.h:94-134: `applyAggOptimisticSplitting` (SUM). -/
def applyAggSplit (full half : IntTy) (grp : Buf Int) (data : Buf Int) (numData numDistinct : Nat) (res : Buf Int) : Res (Buf Int) := do
  let lows : Buf Int := ⟨numDistinct, fun _ => 0⟩
  let (res, lows) ← forLoop 0 numData (res, lows) fun r st => splitStep full half grp data numDistinct r st
  forLoop 0 numDistinct res fun g res => do
    let a ← res.read g
    let lo ← lows.read g
    res.write g (full.wrap (a + lo))

/-- ColAggGrp.h:160-191 without optimistic splitting: `f` is the scalar function, `neutral` its neutral element. -/
def aggGrp (f : α → α → α) (neutral : α) (data : Column α) (grpIds : Column Int) (numDistinct : Nat) : Res (Column α) :=
  if data.numRows ≠ grpIds.numRows then .error (.throw "input data and input group ids must have the same number of elements")
  else do
    let res ← applyAgg f grpIds.vals data.vals data.numRows numDistinct ⟨numDistinct, fun _ => neutral⟩
    .ok ⟨numDistinct, res⟩

/-- ColAggGrp.h:160-191 with optimistic splitting (SUM of integers). -/
def aggGrpSplit (full half : IntTy) (data : Column Int) (grpIds : Column Int) (numDistinct : Nat) : Res (Column Int) :=
  if data.numRows ≠ grpIds.numRows then .error (.throw "input data and input group ids must have the same number of elements")
  else do
    let res ← applyAggSplit full half grpIds.vals data.vals data.numRows numDistinct ⟨numDistinct, fun _ => 0⟩
    .ok ⟨numDistinct, res⟩

end Verif.Col
