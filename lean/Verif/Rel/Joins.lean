/-
  Model of the join kernels on frames: `InnerJoin.h`, `Cartesian.h`, `ThetaJoin.h`, `SemiJoin.h`, `GroupJoin.h` in
  `runtime/local/kernels`. Cells are values of a type `V` that represents every value type faithfully (two cells of a
  column are the same value exactly if the C++ values are equal; no NaN in key columns — keys are integers or strings).
-/
import Verif.Rel.FrameThms

namespace Verif.Rel
open Verif

/-- `getColumn<VT>(idx)->get(r, 0)` — Frame.h:370-376, DenseMatrix.h:250-252: the row is checked. -/
def Frame.getCell (f : Frame V) (vt : VTC) (c r : Nat) : Res V := do
  let col ← f.getColumn vt c
  if f.numRows ≤ r then .error (.throw "rowIdx is out of bounds") else col.data.read r

/-- `getColumn<VT>(idx)->set(r, 0, v)` — DenseMatrix.h:254-257: the row is checked. -/
def Frame.setCell (f : Frame V) (vt : VTC) (c r : Nat) (v : V) : Res (Frame V) := do
  let col ← f.getColumn vt c
  if f.numRows ≤ r then .error (.throw "rowIdx is out of bounds")
  else do
    let b ← col.data.write r v
    .ok { f with cols := f.cols.set c { col with data := b } }

/-- `innerJoinSet<VT>` (InnerJoin.h:48-57) and `cartesianSet<VT>` (Cartesian.h:25-32) for all value types `VT` of the list
    `sup`, one after the other: the cell is copied if the result column has one of these types. -/
def copyCell (sup : List VTC) (schema : List VTC) (arg : Frame V) (toRow toCol fromRow fromCol : Nat) (res : Frame V) :
    Res (Frame V) :=
  sup.foldlM (init := res) fun res vt =>
    if schema[toCol]? = some vt then do
      let v ← arg.getCell vt fromCol fromRow
      res.setCell vt toCol toRow v
    else .ok res

/-- One result row: cells of row `l` of `lhs`, then cells of row `r` of `rhs` — InnerJoin.h:97-121, Cartesian.h:64-77. -/
def copyRow (sup schema : List VTC) (lhs rhs : Frame V) (l r row : Nat) (res : Frame V) : Res (Frame V) := do
  let res ← (List.range lhs.cols.length).foldlM (init := res) fun res c => copyCell sup schema lhs row c l c res
  (List.range rhs.cols.length).foldlM (init := res) fun res c => copyCell sup schema rhs row (lhs.cols.length + c) r c res

/-- Result rows for the pairs of rows in the list, from result row `row` on; also returns the next result row. -/
def copyRows (sup schema : List VTC) (lhs rhs : Frame V) : List (Nat × Nat) → Nat × Frame V → Res (Nat × Frame V)
  | [], st => .ok st
  | (l, r) :: ps, st => do
    let res ← copyRow sup schema lhs rhs l r st.1 st.2
    copyRows sup schema lhs rhs ps (st.1 + 1, res)

/-- Cartesian.h:34-80. -/
def cartesian (lhs rhs : Frame V) (junk : Nat → Nat → V) : Res (Frame V) := do
  let schema := lhs.schema ++ rhs.schema
  let res ← Frame.create (rhs.numRows * lhs.numRows) schema (some (lhs.labels ++ rhs.labels)) junk
  let st ← (List.range lhs.numRows).foldlM (init := (0, res)) fun st l =>
    copyRows [.si64, .f64] schema lhs rhs ((List.range rhs.numRows).map fun r => (l, r)) st
  .ok st.2

/-- `res[key].push_back(row)` on an `unordered_map<VT, vector<size_t>>` -/
def hashPush [DecidableEq V] (h : List (V × List Nat)) (k : V) (row : Nat) : List (V × List Nat) :=
  match h with
  | [] => [(k, [row])]
  | (k', rows) :: h => if k' = k then (k', rows ++ [row]) :: h else (k', rows) :: hashPush h k row

/-- `find(key)` -/
def hashFind [DecidableEq V] (h : List (V × List Nat)) (k : V) : Option (List Nat) := (h.find? fun p => p.1 = k).map (·.2)

/-- `BuildHashRhs` — InnerJoin.h:60-72. -/
def buildHashRhs [DecidableEq V] (rhs : Frame V) (vt : VTC) (rhsOn : String) : Res (List (V × List Nat)) := do
  let c ← rhs.getColumnIdx rhsOn
  let _ ← rhs.getColumn vt c
  (List.range rhs.numRows).foldlM (init := []) fun h r => do
    let k ← rhs.getCell vt c r
    .ok (hashPush h k r)

/-- The types `innerJoinSet` is called for — InnerJoin.h:99-117. -/
def innerTypes : List VTC := [.str, .si64, .f64]

/-- `ProbeHashLhs` — InnerJoin.h:74-130. -/
def probeHashLhs [DecidableEq V] (res : Frame V) (schema : List VTC) (lhs rhs : Frame V) (vt : VTC) (lhsOn : String)
    (h : List (V × List Nat)) : Res (Nat × Frame V) := do
  let c ← lhs.getColumnIdx lhsOn
  let _ ← lhs.getColumn vt c
  (List.range lhs.numRows).foldlM (init := (0, res)) fun st l => do
    let k ← lhs.getCell vt c l
    match hashFind h k with
    | none => .ok st
    | some rows => copyRows innerTypes schema lhs rhs (rows.map fun r => (l, r)) st

/-- `innerJoin` — InnerJoin.h:136-188. `numRowRes = none` models `-1`. -/
def innerJoin [DecidableEq V] (lhs rhs : Frame V) (lhsOn rhsOn : String) (numRowRes : Option Nat) (junk : Nat → Nat → V) :
    Res (Frame V) := do
  let c ← lhs.getColumnIdx lhsOn
  let vtL ← lhs.getColumnType c
  let schema := lhs.schema ++ rhs.schema
  let res ← Frame.create (numRowRes.getD (rhs.numRows * lhs.numRows)) schema (some (lhs.labels ++ rhs.labels)) junk
  let vt := if vtL = .str then VTC.str else .si64
  let h ← buildHashRhs rhs vt rhsOn
  let st ← probeHashLhs res schema lhs rhs vt lhsOn h
  .ok (st.2.shrinkNumRows st.1)

/-! ### Theta join -/

/-- `CompareOperation` — DaphneOps.td. -/
inductive CmpOp where
  | eq | lt | le | gt | ge | ne
  deriving DecidableEq, Repr

/-- The types `DeduceValueTypeAndExecute` knows — DeduceType.h:78-135. -/
def VTC.deducible : VTC → Bool
  | .str | .fixedStr16 => false
  | _ => true

/-- One condition with the positions of its columns: `Equation` — ThetaJoin.h:60-70. -/
structure Equation where
  l : Nat
  r : Nat
  op : CmpOp

/-- C++ comparison of two values of one type, and `static_cast` from the first type to the second. -/
structure CmpSem (V : Type) where
  same : VTC → CmpOp → V → V → Bool
  cast : VTC → VTC → V → V

/-- `compareValues<VTLhs, VTRhs>` — ThetaJoin.h:238-275 (`static_cast` of a floating-point value that the integer type cannot
    represent is undefined in C++; here `cast` is a total function). -/
def compareValues (cmp : CmpSem V) (a b : VTC) (op : CmpOp) (x y : V) : Bool :=
  if a = b then cmp.same a op x y else cmp.same a op x (cmp.cast b a y)

/-- The condition on a pair of rows — ThetaJoin.h:301-334. -/
def Equation.holds (cmp : CmpSem V) (lhs rhs : Frame V) (e : Equation) (i j : Nat) : Res Bool :=
  match lhs.cols[e.l]?, rhs.cols[e.r]? with
  | some a, some b => do
    let x ← a.data.read i
    let y ← b.data.read j
    .ok (compareValues cmp a.vt b.vt e.op x y)
  | _, _ => .error (.ub "getColumnRaw out of bounds")

/-- `positions`, `writeOffset` — ThetaJoin.h:161-215; `set` checks the row. -/
def addPosPair (st : Buf (Nat × Nat) × Nat) (i j : Nat) : Res (Buf (Nat × Nat) × Nat) :=
  if st.1.size ≤ st.2 then .error (.throw "rowIdx is out of bounds")
  else do
    let b ← st.1.write st.2 (i, j)
    .ok (b, st.2 + 1)

/-- `CompareColumnPair::apply` — ThetaJoin.h:300-334. `none` is the missing position list; otherwise the buffer and
    `size_`. -/
def compareColumnPair (cmp : CmpSem V) (lhs rhs : Frame V) (depth : Nat) (e : Equation)
    (pos : Option (Buf (Nat × Nat) × Nat)) : Res (Option (Buf (Nat × Nat) × Nat)) := do
  let p := pos.getD (⟨lhs.numRows * rhs.numRows, fun _ => (0, 0)⟩, 0)
  if depth = 0 then do
    let st ← (List.range lhs.numRows).foldlM (init := (p.1, 0)) fun st i =>
      (List.range rhs.numRows).foldlM (init := st) fun st j => do
        let t ← e.holds cmp lhs rhs i j
        if t then addPosPair st i j else .ok st
    .ok (some st)
  else do
    let st ← (List.range p.2).foldlM (init := (p.1, 0)) fun st k => do
      let q ← st.1.read k
      let t ← e.holds cmp lhs rhs q.1 q.2
      if t then addPosPair st q.1 q.2 else .ok st
    .ok (some st)

/-- The loop over the conditions — ThetaJoin.h:341-350. -/
def thetaPositions (cmp : CmpSem V) (lhs rhs : Frame V) :
    Nat → List Equation → Option (Buf (Nat × Nat) × Nat) → Res (Option (Buf (Nat × Nat) × Nat))
  | _, [], pos => .ok pos
  | depth, e :: es, pos =>
    match lhs.cols[e.l]?, rhs.cols[e.r]? with
    | some a, some b =>
      if a.vt.deducible && b.vt.deducible then do
        let pos ← compareColumnPair cmp lhs rhs depth e pos
        thetaPositions cmp lhs rhs (depth + 1) es pos
      else .error (.throw "unknown value type code")
    | _, _ => .error (.ub "schema out of bounds")

/-- `WriteColumn::apply` — ThetaJoin.h:218-236. -/
def writeColumn (arg : FCol V) (sel : Nat × Nat → Nat) (pos : Buf (Nat × Nat)) (n : Nat) (out : FCol V) : Res (FCol V) :=
  if arg.vt.deducible then do
    let b ← (List.range n).foldlM (init := out.data) fun b i => do
      let q ← pos.read i
      let v ← arg.data.read (sel q)
      b.write i v
    .ok { out with data := b }
  else .error (.throw "unknown value type code")

/-- `ThetaJoin::apply` — ThetaJoin.h:326-365. The conditions are given by labels and an operation (three arrays of the same
    length in the code; other lengths are rejected). -/
def thetaJoin (cmp : CmpSem V) (lhs rhs : Frame V) (conds : List (String × String × CmpOp))
    (junk : Nat → Nat → V) : Res (Frame V) := do
  let eqs ← conds.mapM fun c => do
    let l ← lhs.getColumnIdx c.1
    let r ← rhs.getColumnIdx c.2.1
    .ok (⟨l, r, c.2.2⟩ : Equation)
  let pos ← thetaPositions cmp lhs rhs 0 eqs none
  match pos with
  | none => .error (.ub "resultPositions is a null pointer")
  | some (pos, n) => do
    let res ← Frame.create n (lhs.schema ++ rhs.schema) (some (lhs.labels ++ rhs.labels)) junk
    let cols ← ((lhs.cols.map fun c => (c, true)) ++ rhs.cols.map fun c => (c, false)).zip res.cols |>.mapM fun p =>
      writeColumn p.1.1 (if p.1.2 then (·.1) else (·.2)) pos n p.2
    .ok { res with cols := cols }

/-! ### Semi join -/

/-- `semiJoinCol<int64_t, int64_t>` — SemiJoin.h:40-92, with result objects that may exist already (second call). The
    identifiers of the rows are a matrix with one column, given as a buffer with its number of rows. -/
def semiJoinCol [DecidableEq V] (lhs rhs : Frame V) (cl cr : Nat) (numRowRes : Option Nat) (junk : Nat → Nat → V)
    (res : Option (Frame V)) (tid : Option (Nat × Buf Nat)) : Res (Frame V × (Nat × Buf Nat)) := do
  let hs ← (List.range rhs.numRows).foldlM (init := []) fun (hs : List V) i => do
    let v ← rhs.getCell .si64 cr i
    .ok (v :: hs)
  let n := numRowRes.getD lhs.numRows
  let res ← match res with
    | some r => .ok r
    | none => Frame.create n [.si64] none junk
  let tid := tid.getD (n, ⟨n, fun _ => 0⟩)
  let st ← (List.range lhs.numRows).foldlM (init := (0, res, tid.2)) fun st i => do
    let v ← lhs.getCell .si64 cl i
    if v ∈ hs then do
      let r ← st.2.1.setCell .si64 0 st.1 v
      if tid.1 ≤ st.1 then .error (.throw "rowIdx is out of bounds")
      else do
        let t ← st.2.2.write st.1 i
        .ok (st.1 + 1, r, t)
    else .ok st
  if tid.1 < st.1 then .error (.throw "number of rows can only be shrunk")
  else .ok (st.2.1.shrinkNumRows st.1, (st.1, st.2.2))

/-- `semiJoin` — SemiJoin.h:120-153: the kernel for (int64, int64) is tried twice; then the labels are set through the
    result pointer, which is null if the types are others. -/
def semiJoin [DecidableEq V] (lhs rhs : Frame V) (lhsOn rhsOn : String) (numRowRes : Option Nat) (junk : Nat → Nat → V) :
    Res (Frame V × (Nat × Buf Nat)) := do
  let cl ← lhs.getColumnIdx lhsOn
  let vl ← lhs.getColumnType cl
  let cr ← rhs.getColumnIdx rhsOn
  let vr ← rhs.getColumnType cr
  if vl = .si64 ∧ vr = .si64 then do
    let st ← semiJoinCol lhs rhs cl cr numRowRes junk none none
    let st ← semiJoinCol lhs rhs cl cr numRowRes junk (some st.1) (some st.2)
    let r ← st.1.setLabels [lhsOn]
    .ok (r, st.2)
  else .error (.ub "res is a null pointer")

/-! ### Group join -/

/-- An entry of the hash table: key, row of the first occurrence, sum, "has a partner". -/
structure GJEntry (V : Type) where
  key : V
  row : Nat
  sum : V
  found : Bool

/-- `ht.emplace(key, make_tuple(i, 0, false))`: no effect if the key exists — GroupJoin.h:60-63. -/
def gjEmplace [DecidableEq V] (zero : V) (ht : List (GJEntry V)) (k : V) (i : Nat) : List (GJEntry V) :=
  if ht.any fun e => e.key = k then ht else ht ++ [⟨k, i, zero, false⟩]

/-- The probe for one row — GroupJoin.h:70-76. -/
def gjProbe [DecidableEq V] (add : V → V → V) (ht : List (GJEntry V)) (k v : V) : List (GJEntry V) :=
  ht.map fun e => if e.key = k then { e with sum := add e.sum v, found := true } else e

/-- `groupJoinCol<int64_t, int64_t, VTAgg>` — GroupJoin.h:41-111. `ord` is the iteration order of the hash table (the same in
    both loops, as the table is not changed in between). -/
def groupJoinCol [DecidableEq V] (ops : Ops V) (vtAgg : VTC) (ord : List (GJEntry V) → List (GJEntry V)) (lhs rhs : Frame V)
    (cl cr ca : Nat) (junk : Nat → Nat → V) : Res (Frame V × (Nat × Buf Nat)) := do
  let ht ← (List.range lhs.numRows).foldlM (init := []) fun ht i => do
    let k ← lhs.getCell .si64 cl i
    .ok (gjEmplace (ops.zero vtAgg) ht k i)
  let ht ← (List.range rhs.numRows).foldlM (init := ht) fun ht i => do
    let k ← rhs.getCell .si64 cr i
    let v ← rhs.getCell vtAgg ca i
    .ok (gjProbe (ops.add vtAgg) ht k v)
  let es := ord ht
  let numRes := (es.filter (·.found)).length
  let res ← Frame.create numRes [.si64, vtAgg] none junk
  let st ← es.foldlM (init := (0, res, (⟨numRes, fun _ => 0⟩ : Buf Nat))) fun st e =>
    if e.found then do
      let r ← st.2.1.setCell .si64 0 st.1 e.key
      let r ← r.setCell vtAgg 1 st.1 e.sum
      if numRes ≤ st.1 then .error (.throw "rowIdx is out of bounds")
      else do
        let t ← st.2.2.write st.1 e.row
        .ok (st.1 + 1, r, t)
    else .ok st
  .ok (st.2.1, (numRes, st.2.2))

/-- `groupJoin` — GroupJoin.h:137-166. -/
def groupJoin [DecidableEq V] (ops : Ops V) (ord : List (GJEntry V) → List (GJEntry V)) (lhs rhs : Frame V)
    (lhsOn rhsOn rhsAgg : String) (junk : Nat → Nat → V) : Res (Frame V × (Nat × Buf Nat)) := do
  let cl ← lhs.getColumnIdx lhsOn
  let vl ← lhs.getColumnType cl
  let cr ← rhs.getColumnIdx rhsOn
  let vr ← rhs.getColumnType cr
  let ca ← rhs.getColumnIdx rhsAgg
  let va ← rhs.getColumnType ca
  if vl = .si64 ∧ vr = .si64 ∧ (va = .f64 ∨ va = .si64) then do
    let st ← groupJoinCol ops va ord lhs rhs cl cr ca junk
    let r ← st.1.setLabels [lhsOn, "SUM(" ++ rhsAgg ++ ")"]
    .ok (r, st.2)
  else .error (.ub "res is a null pointer")

end Verif.Rel
