/-
  Model of `src/compiler/lowering/RewriteToColumnarOpsPass.cpp`: each operation that the pass replaces, as the sequence of
  kernel calls it is replaced by, and the conversions between matrices, frames and columns in
  `src/runtime/local/kernels/CastObj.h`.

  Simplifications: value types that are inferred later are the run-time ones (`Column`s of a frame's columns carry the value
  type of the column); the replaced operations are considered one at a time, as the pass does.
-/
import Verif.Col.Model
import Verif.Dense.Ew
import Verif.Shape.CTable
import Verif.Agg.Model
import Verif.Rel.Joins
import Verif.Rel.Group

namespace Verif.Columnar
open Verif Verif.Dense

variable {α γ V : Type}

/-! ### Conversions -/

/-- `CastObj<Column<VT>, DenseMatrix<VT>>` — CastObj.h:414-442. The first case shares `getValuesSharedPtr()`, which points to the
    first value of a matrix or view. -/
def castToColumn (x : DM α) (junk : Nat → α) : Res (Col.Column α) :=
  if x.numCols = 1 then
    if x.h.rowSkip = 1 then .ok ⟨x.numRows, ⟨x.mem.size - x.h.base, fun i => x.mem.data (x.h.base + i)⟩⟩
    else do
      let m ← forLoop 0 x.numRows (⟨x.numRows, junk⟩ : Buf α) fun r m => do
        let v ← x.mem.read (x.h.start + r * x.h.rowSkip)
        m.write r v
      .ok ⟨x.numRows, m⟩
  else .error (.throw "cannot cast a matrix with zero or multiple columns to Column")

/-- `CastObj<DenseMatrix<VT>, Column<VT>>` — CastObj.h:449-455, DenseMatrix.cpp:85-96: the values are shared. -/
def castToMat (c : Col.Column α) : DM α := ⟨Hdr.new c.numRows 1, c.vals⟩

/-- A column of positions (`size_t`) as the operand of a kernel that checks for negative positions. -/
def intCol (c : Col.Column Nat) : Col.Column Int := ⟨c.numRows, ⟨c.vals.size, fun i => (c.vals.data i : Int)⟩⟩

/-! ### Operations on matrices -/

/-- `replaceCompareOp` — RewriteToColumnarOpsPass.cpp:77-106: cast, columnar selection, cast, conversion to a bitmap. -/
def compareColumnar (cmp : α → Bool) (zero one : γ) (x : DM α) (j1 : Nat → α) (j2 : Nat → Nat) : Res (DM γ) := do
  let c ← castToColumn x j1
  let p ← Col.select cmp c j2
  Shape.posListToBitmap zero one (castToMat p) x.numRows

/-- `replaceLogicalOp` — RewriteToColumnarOpsPass.cpp:108-138; `setOp` is `Col.intersect` for EwAndOp and `Col.merge` for
    EwOrOp (RewriteToColumnarOpsPass.cpp:254-257). -/
def logicalColumnar [DecidableEq γ] (setOp : Col.Column Nat → Col.Column Nat → (Nat → Nat) → Res (Col.Column Nat)) (zero one : γ)
    (x y : DM γ) (junk : Nat → Nat) : Res (DM γ) := do
  let px ← Shape.bitmapToPosList one x junk
  let py ← Shape.bitmapToPosList one y junk
  let cx ← castToColumn px junk
  let cy ← castToColumn py junk
  let r ← setOp cx cy junk
  Shape.posListToBitmap zero one (castToMat r) x.numRows

/-- What defines an operand of EwAndOp/EwOrOp, as far as the pass looks at it. -/
inductive DefOp where
  /-- EwEqOp … EwLeOp, EwAndOp, EwOrOp -/
  | cmpOrLogic
  /-- ConvertPosListToBitmapOp of a cast from a column to a matrix; whether the column is the result of a selection or set
      operation -/
  | bitmapOfColumn (ofSelectOrSet : Bool)
  /-- anything else -/
  | other
  deriving DecidableEq, Repr

/-- Whether EwAndOp/EwOrOp with operands defined like this is left alone — RewriteToColumnarOpsPass.cpp:487-517. -/
def logicalLegal : List DefOp → Bool
  | [] => false
  | .cmpOrLogic :: ds => logicalLegal ds
  | .bitmapOfColumn false :: ds => logicalLegal ds
  | _ :: _ => true

/-- `replaceBinaryOp` — RewriteToColumnarOpsPass.cpp:174-198 with `ColCalcBinary.h:56-68`: casts to columns, there casts to
    matrices, the kernel for matrices, and casts back. -/
def calcColumnar (f : α → α → γ) (x y : DM α) (j1 : Nat → α) (j2 : Nat → γ) : Res (DM γ) := do
  let cx ← castToColumn x j1
  let cy ← castToColumn y j1
  let r ← ewBinaryMat f j2 (castToMat cx) (castToMat cy)
  let c ← castToColumn r j2
  .ok (castToMat c)

/-- `replaceAllAggOp` — RewriteToColumnarOpsPass.cpp:200-221 with `ColAggAll.h:54-64` and the cast of the single-element column to
    a scalar (CastObjSca.h:106-125). -/
def sumColumnar {ρ : Type} (A : Agg.VT ρ) (K : Agg.Conv α ρ) (x : DM α) (j : Nat → α) : Res ρ := do
  let c ← castToColumn x j
  Agg.aggAllDense A K .sum (castToMat c)

/-! ### Operations on frames -/
open Rel

/-- `ExtractCol<Frame, Frame, char>` — ExtractCol.h:121-145. -/
def extractColLabel (f : Frame V) (l : String) : Res (Frame V) :=
  if colPart l = "*" then do
    let idxs ← (f.labels.filter fun k => framePart k = framePart l).mapM f.getColumnIdx
    f.sub 0 f.numRows idxs
  else do
    let i ← f.getColumnIdx l
    f.sub 0 f.numRows [i]

/-- `CastObj<Column<VT>, Frame>` — CastObj.h:461-480, for the value type of the column. -/
def frameToColumn (f : Frame V) : Res (VTC × Col.Column V) :=
  match f.cols with
  | [c] => .ok (c.vt, ⟨f.numRows, c.data⟩)
  | _ => .error (.throw "cannot cast Frame with multiple columns to Column")

/-- `projectAllColumns` — RewriteToColumnarOpsPass.cpp:41-75, without the final casts to matrices. -/
def projectAll (f : Frame V) (pos : Col.Column Int) (junk : Nat → V) : List String → Res (List (VTC × Col.Column V))
  | [] => .ok []
  | l :: ls => do
    let g ← extractColLabel f l
    let c ← frameToColumn g
    let p ← Col.project c.2 pos junk
    let ps ← projectAll f pos junk ls
    .ok ((c.1, p) :: ps)

/-- The cast of a column to a matrix, as an argument of `Frame.ofMats`. -/
def toColMat (c : VTC × Col.Column V) : ColMat V := ⟨c.2.numRows, 1, 1, c.1, c.2.vals⟩

/-- The rows at the positions `pos`: all columns projected, and a new frame created — RewriteToColumnarOpsPass.cpp:158-172;
    `labels` are the labels known to the compiler. -/
def rowsColumnar (f : Frame V) (labels : List String) (pos : Col.Column Int) (junk : Nat → V) : Res (Frame V) := do
  let cols ← projectAll f pos junk labels
  Frame.ofMats (cols.map toColMat) (some labels)

/-- ExtractRowOp on a frame — RewriteToColumnarOpsPass.cpp:140-172, 270-275. -/
def extractRowColumnar (f : Frame V) (labels : List String) (sel : DM Int) (j1 : Nat → Int) (junk : Nat → V) : Res (Frame V) := do
  let pos ← castToColumn sel j1
  rowsColumnar f labels pos junk

/-- FilterRowOp on a frame — RewriteToColumnarOpsPass.cpp:258-269. -/
def filterRowColumnar (f : Frame V) (labels : List String) (sel : DM Int) (j1 : Nat → Nat) (junk : Nat → V) : Res (Frame V) := do
  let p ← Shape.bitmapToPosList 1 sel j1
  let pos ← castToColumn p j1
  rowsColumnar f labels (intCol pos) junk

/-- A key column: extracted and cast — RewriteToColumnarOpsPass.cpp:296-299, 344-347, 393-401. -/
def keyColumn (f : Frame V) (l : String) : Res (VTC × Col.Column V) := do
  let g ← extractColLabel f l
  frameToColumn g

/-- InnerJoinOp — RewriteToColumnarOpsPass.cpp:283-329. The key columns must have the same value type (there is no kernel for
    two different ones). -/
def innerJoinColumnar [DecidableEq V] (lhs rhs : Frame V) (lhsLabels rhsLabels : List String) (lhsOn rhsOn : String)
    (numRowRes : Option Nat) (j : Nat → Nat) (junk : Nat → V) : Res (Frame V) := do
  let kl ← keyColumn lhs lhsOn
  let kr ← keyColumn rhs rhsOn
  let p ← Col.join kl.2 kr.2 numRowRes j j
  let cl ← projectAll lhs (intCol p.1) junk lhsLabels
  let cr ← projectAll rhs (intCol p.2) junk rhsLabels
  Frame.ofMats ((cl ++ cr).map toColMat) (some (lhsLabels ++ rhsLabels))

/-- SemiJoinOp — RewriteToColumnarOpsPass.cpp:330-373: the frame and the positions. -/
def semiJoinColumnar [DecidableEq V] (lhs rhs : Frame V) (lhsLabels : List String) (lhsOn rhsOn : String)
    (numRowRes : Option Nat) (j : Nat → Nat) (junk : Nat → V) : Res (Frame V × DM Nat) := do
  let kl ← keyColumn lhs lhsOn
  let kr ← keyColumn rhs rhsOn
  let p ← Col.semiJoin kl.2 kr.2 numRowRes j
  let res ← rowsColumnar lhs lhsLabels (intCol p) junk
  .ok (res, castToMat p)

/-- GroupOp with SUM aggregations only — RewriteToColumnarOpsPass.cpp:374-437. -/
def groupColumnar [DecidableEq V] (ops : Ops V) (f : Frame V) (keys aggs : List String) (j : Nat → Nat) (junk : Nat → V) : Res (Frame V) :=
  match keys with
  | [] => .error (.ub "keyLabels[0] of an empty range")
  | k :: ks => do
    let first ← keyColumn f k
    let rest ← ks.mapM (keyColumn f)
    let g ← Col.groupBy first.2 (rest.map (·.2)) j j
    let kcols ← (first :: rest).mapM fun c => do
      let p ← Col.project c.2 (intCol g.2) junk
      .ok (c.1, p)
    let acols ← aggs.mapM fun l => do
      let c ← keyColumn f l
      let a ← Col.aggGrp (ops.add c.1) (ops.zero c.1) c.2 (intCol g.1) g.2.numRows
      .ok (c.1, a)
    Frame.ofMats ((kcols ++ acols).map toColMat) (some (keys ++ aggs.map fun l => "SUM(" ++ l ++ ")"))

end Verif.Columnar
