/-
  Model of src/ir/daphneir/DaphneInferFrameLabelsOpInterface.cpp: the column labels of frames that the compiler infers, and programs of
  frame operations that run with the kernels modelled in `Verif/Rel` and `Verif/Ir/FrameRw.lean`. Properties C226-C229.
  Inference: `none` is the null pointer (labels unknown); an exception of the compiler is `throw`, dereferencing the null pointer is `ub`.
-/
import Verif.Basic.Post
import Verif.Ir.FrameRw
import Verif.Rel.SemiThms

namespace Verif.Labels
open Verif Verif.Rel Verif.Ir
variable {V : Type}

/-! ### Specification -/

/-- What the compiler knows about the labels of a frame agrees with the frame. -/
def Agree (known : Option (List String)) (actual : List String) : Prop := ∀ ls, known = some ls → ls = actual

/-! ### Kernels that are not in other files -/

/-- `LabelUtils::setPrefix` — src/runtime/local/datastructures/LabelUtils.h:26-29. -/
def setPrefix (prfx label : String) : String :=
  if '.' ∈ label.toList then prfx ++ String.ofList (label.toList.dropWhile (· ≠ '.')) else prfx ++ "." ++ label

/-- SetColLabelsPrefix.h:33-53. -/
def setColLabelsPrefix (f : Frame V) (prfx : String) : Res (Frame V) := do
  let g ← f.sub 0 f.numRows (List.range f.numCols)
  g.setLabels (f.labels.map (setPrefix prfx))

/-! ### Inference -/

/-- `*ft.getLabels()` -/
def deref : Option (List String) → Res (List String)
  | some ls => .ok ls
  | none => .error (.ub "labels of the frame are a null pointer")

/-- `ColBindOp::inferFrameLabels` on frames — DaphneInferFrameLabelsOpInterface.cpp:69-91. -/
def inferCbind : Option (List String) → Option (List String) → Res (Option (List String))
  | some l, some r => .ok (some (l ++ r))
  | _, _ => .error (.throw "ColBindOp can only infer its output labels if the labels of both input frames are known")

/-- `CreateFrameOp::inferFrameLabels` — 93-99 (the labels are constants). -/
def inferCreate (ls : List String) : Res (Option (List String)) := .ok (some ls)

/-- `ExtractColOp::inferFrameLabels` with a constant label — 101-128. -/
def inferExtractCol (src : Option (List String)) (sel : String) : Res (Option (List String)) :=
  if wild sel then do
    let ls ← deref src
    .ok (some (ls.filter fun l => beforeDot l = beforeDot sel))
  else .ok (some [sel])

/-- `inferFrameLabels_ExtractOrFilterRowOp` — 40-46, `OrderOp::inferFrameLabels` — 167-173. -/
def inferSame (src : Option (List String)) : Res (Option (List String)) := .ok src

/-- `GroupJoinOp::inferFrameLabels` — 134-141. -/
def inferGroupJoin (lhsOn rhsAgg : String) : Res (Option (List String)) := .ok (some [lhsOn, "SUM(" ++ rhsAgg ++ ")"])

/-- `SemiJoinOp::inferFrameLabels` — 143-148. -/
def inferSemiJoin (lhsOn : String) : Res (Option (List String)) := .ok (some [lhsOn])

/-- `CartesianOp::inferFrameLabels` — 150-165, `InnerJoinOp::inferFrameLabels` — 175-190. -/
def inferJoin (l r : Option (List String)) : Res (Option (List String)) := .ok (some (l.getD [] ++ r.getD []))

/-- `ThetaJoinOp::inferFrameLabels` — 192-209. -/
def inferThetaJoin : Option (List String) → Option (List String) → Res (Option (List String))
  | some l, some r => .ok (some (l ++ r))
  | _, _ => .ok none

/-- One key of `GroupOp::inferFrameLabels` — 216-240. -/
def inferGroupKey (src : Option (List String)) (k : String) : Res (List String) :=
  if k = "*" then deref src
  else if colPart k = "*" then do
    let ls ← deref src
    .ok (ls.filter fun l => framePart l = framePart k)
  else .ok [k]

/-- `GroupOp::inferFrameLabels` — 211-254. -/
def inferGroup (src : Option (List String)) (keyCols : List String) (aggs : List (String × GFn)) : Res (Option (List String)) := do
  let ks ← keyCols.mapM (inferGroupKey src)
  .ok (some (ks.flatten ++ aggs.map fun a => a.2.name ++ "(" ++ a.1 ++ ")"))

/-- The loop of `SetColLabelsOp::inferFrameLabels` — 258-269; a label that is not a constant is `none`. -/
def inferSetColLabelsLoop : List (Option String) → Option (List String) → Res (Option (List String))
  | [], acc => .ok acc
  | none :: ls, _ => inferSetColLabelsLoop ls none
  | some l :: ls, some acc => inferSetColLabelsLoop ls (some (acc ++ [l]))
  | some _ :: _, none => .error (.ub "newLabels is a null pointer")

/-- `SetColLabelsOp::inferFrameLabels` — 256-271. -/
def inferSetColLabels (ls : List (Option String)) : Res (Option (List String)) := inferSetColLabelsLoop ls (some [])

/-- `SetColLabelsPrefixOp::inferFrameLabels` — 273-287. -/
def inferSetColLabelsPrefix (src : Option (List String)) (prfx : String) : Res (Option (List String)) :=
  .ok (src.map fun ls => ls.map (setPrefix prfx))

/-! ### Programs -/

/-- A label operand: a constant, or a value that is only known at run time. -/
inductive LabelArg where
  | const (l : String)
  | computed (l : String)

/-- The value at run time. -/
def LabelArg.value : LabelArg → String
  | .const l => l
  | .computed l => l

/-- `constantOrThrow`: the value at compile time. -/
def LabelArg.known : LabelArg → Option String
  | .const l => some l
  | .computed _ => none

/-- A program of frame operations. `leaf` is a frame that comes from elsewhere (a file, a function argument). -/
inductive FExpr (V : Type) where
  | leaf (i : Nat)
  | createFrame (ms : List (ColMat V)) (labels : List String)
  | cbind (a b : FExpr V)
  | extractCol (a : FExpr V) (sel : String)
  | extractRow (a : FExpr V) (rows : List Nat)
  | order (a : FExpr V) (cols : List Nat) (asc : List Bool)
  | cartesian (a b : FExpr V)
  | innerJoin (a b : FExpr V) (lhsOn rhsOn : String)
  | thetaJoin (a b : FExpr V) (conds : List (String × String × CmpOp))
  | semiJoin (a b : FExpr V) (lhsOn rhsOn : String)
  | groupJoin (a b : FExpr V) (lhsOn rhsOn rhsAgg : String)
  | group (a : FExpr V) (keyCols : List String) (aggs : List (String × GFn))
  | setColLabels (a : FExpr V) (labels : List LabelArg)
  | setColLabelsPrefix (a : FExpr V) (prfx : String)

/-- What the run-time system provides: the operations of the value types, the contents of fresh memory, the iteration order of hash
tables, the behaviour of the allocator, and how many rows a join is expected to have. -/
structure Rt (V : Type) where
  ops : Ops V
  cmp : CmpSem V
  junk : Nat → Nat → V
  ord : List (GJEntry V) → List (GJEntry V)
  usable : Nat → Nat
  hint : Option Nat
  fuel : Nat

/-- The result of a kernel that may not terminate (`Order` on NaN keys, see C68): no frame then. -/
def arrived {α : Type} (r : Res (Option α)) : Res α :=
  match r with
  | .ok (some a) => .ok a
  | .ok none => .error (.ub "the kernel does not return")
  | .error e => .error e

/-- Run the program. -/
def FExpr.run [DecidableEq V] (rt : Rt V) (env : Nat → Frame V) : FExpr V → Res (Frame V)
  | .leaf i => .ok (env i)
  | .createFrame ms ls => Frame.ofMats ms (some ls)
  | .cbind a b => do
    let f ← a.run rt env
    let g ← b.run rt env
    f.bind g
  | .extractCol a sel => do
    let f ← a.run rt env
    extractLabel f sel
  | .extractRow a rows => do
    let f ← a.run rt env
    f.extractRow rows
  | .order a cols asc => do
    let f ← a.run rt env
    let r ← arrived (f.order rt.ops rt.fuel cols asc false)
    .ok r.1
  | .cartesian a b => do
    let f ← a.run rt env
    let g ← b.run rt env
    Rel.cartesian f g rt.junk
  | .innerJoin a b lhsOn rhsOn => do
    let f ← a.run rt env
    let g ← b.run rt env
    Rel.innerJoin f g lhsOn rhsOn rt.hint rt.junk
  | .thetaJoin a b conds => do
    let f ← a.run rt env
    let g ← b.run rt env
    Rel.thetaJoin rt.cmp f g conds rt.junk
  | .semiJoin a b lhsOn rhsOn => do
    let f ← a.run rt env
    let g ← b.run rt env
    let r ← Rel.semiJoin f g lhsOn rhsOn rt.hint rt.junk
    .ok r.1
  | .groupJoin a b lhsOn rhsOn rhsAgg => do
    let f ← a.run rt env
    let g ← b.run rt env
    let r ← Rel.groupJoin rt.ops rt.ord f g lhsOn rhsOn rhsAgg rt.junk
    .ok r.1
  | .group a keyCols aggs => do
    let f ← a.run rt env
    arrived (Rel.group rt.ops rt.usable rt.fuel f keyCols aggs rt.junk)
  | .setColLabels a ls => do
    let f ← a.run rt env
    Ir.setColLabels f (ls.map (·.value))
  | .setColLabelsPrefix a p => do
    let f ← a.run rt env
    Labels.setColLabelsPrefix f p

/-- Infer the labels of every frame of the program (InferencePass.cpp:247-250, one operation after the other). -/
def FExpr.infer (tenv : Nat → Option (List String)) : FExpr V → Res (Option (List String))
  | .leaf i => .ok (tenv i)
  | .createFrame _ ls => inferCreate ls
  | .cbind a b => do
    let s ← a.infer tenv
    let t ← b.infer tenv
    inferCbind s t
  | .extractCol a sel => do
    let s ← a.infer tenv
    inferExtractCol s sel
  | .extractRow a _ => do
    let s ← a.infer tenv
    inferSame s
  | .order a _ _ => do
    let s ← a.infer tenv
    inferSame s
  | .cartesian a b => do
    let s ← a.infer tenv
    let t ← b.infer tenv
    inferJoin s t
  | .innerJoin a b _ _ => do
    let s ← a.infer tenv
    let t ← b.infer tenv
    inferJoin s t
  | .thetaJoin a b _ => do
    let s ← a.infer tenv
    let t ← b.infer tenv
    inferThetaJoin s t
  | .semiJoin a b lhsOn _ => do
    let _ ← a.infer tenv
    let _ ← b.infer tenv
    inferSemiJoin lhsOn
  | .groupJoin a b lhsOn _ rhsAgg => do
    let _ ← a.infer tenv
    let _ ← b.infer tenv
    inferGroupJoin lhsOn rhsAgg
  | .group a keyCols aggs => do
    let s ← a.infer tenv
    inferGroup s keyCols aggs
  | .setColLabels a ls => do
    let _ ← a.infer tenv
    inferSetColLabels (ls.map (·.known))
  | .setColLabelsPrefix a p => do
    let s ← a.infer tenv
    inferSetColLabelsPrefix s p

/-- A key column of a grouping that stands for several columns. -/
def WildKey (k : String) : Prop := k = "*" ∨ ∃ p, k = p ++ ".*" ∧ '.' ∉ p.toList

/-- The programs for which the inference is right: `createFrame` has as many labels as columns; the labels of both inputs of a cartesian
product or an inner join are known; and a grouping has no wildcard keys, or only wildcard keys, without aggregating a column of the frame
if one of them is `*` (else see C227, C228). -/
def FExpr.Plain (tenv : Nat → Option (List String)) : FExpr V → Prop
  | .leaf _ => True
  | .createFrame ms ls => ls.length = ms.length
  | .cbind a b => a.Plain tenv ∧ b.Plain tenv
  | .extractCol a _ => a.Plain tenv
  | .extractRow a _ => a.Plain tenv
  | .order a _ _ => a.Plain tenv
  | .cartesian a b => a.Plain tenv ∧ b.Plain tenv ∧ a.infer tenv ≠ .ok none ∧ b.infer tenv ≠ .ok none
  | .innerJoin a b _ _ => a.Plain tenv ∧ b.Plain tenv ∧ a.infer tenv ≠ .ok none ∧ b.infer tenv ≠ .ok none
  | .thetaJoin a b _ => a.Plain tenv ∧ b.Plain tenv
  | .semiJoin a b _ _ => a.Plain tenv ∧ b.Plain tenv
  | .groupJoin a b _ _ _ => a.Plain tenv ∧ b.Plain tenv
  | .group a keyCols aggs => a.Plain tenv ∧
      ((∀ k ∈ keyCols, ¬ WildKey k) ∨
        ((∀ k ∈ keyCols, WildKey k) ∧ ("*" ∈ keyCols → ∀ ls, a.infer tenv = .ok (some ls) → ∀ x ∈ aggs, x.1 ∉ ls)))
  | .setColLabels a _ => a.Plain tenv
  | .setColLabelsPrefix a _ => a.Plain tenv

end Verif.Labels
