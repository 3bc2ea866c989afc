/-
  The operations that may become part of a vectorized pipeline: what they compute (specification), which kernel is called, how their
  operands are declared to be split and their results to be combined, and which output sizes are declared
  (src/ir/daphneir/DaphneVectorizableOpInterface.cpp).
  Simplifications: one value type; a scalar is a 1x1 matrix; the column positions of `extractCol` (declared as not split, so passed whole to
  every task) are a parameter of the operation; a scalar left operand of an elementwise operation is not modelled.
-/
import Verif.Vect.Props
import Verif.Mm.Blas
import Verif.Agg.All
import Verif.Agg.Rows
import Verif.Agg.Cols
import Verif.Shape.Cells

namespace Verif.Vect
open Verif Verif.Dense
variable {α : Type}

/-- The aggregations that are vectorizable, DaphneVectorizableOpInterface.cpp:313-350. -/
inductive AggK | sum | min | max
  deriving DecidableEq

/-- The kernel's operation code. -/
def AggK.code : AggK → Agg.AggOp
  | .sum => .sum
  | .min => .min
  | .max => .max

/-- The binary operation of an aggregation. -/
def AggK.bin : AggK → Agg.BinOp
  | .sum => .add
  | .min => .min
  | .max => .max

/-- The neutral element of an aggregation. -/
def AggK.unit (A : Agg.VT α) : AggK → α
  | .sum => A.zero
  | .min => A.top
  | .max => A.bot

/-- `getVectorCombines` of the column-wise and full aggregations, DaphneVectorizableOpInterface.cpp:314-318, 346-350. -/
def AggK.combine : AggK → Combine
  | .sum => .add
  | .min => .min
  | .max => .max

/-- The vectorizable operations. -/
inductive VOp (α : Type)
  | ewUn (f : α → α)
  | ewSca (f : α → α → α)
  | ewBin (f : α → α → α)
  | outer (f : α → α → α)
  | rowAgg (k : AggK)
  | colAgg (k : AggK)
  | allAgg (k : AggK)
  | matMul (transb : Bool)
  | extractCol (sel : List Int)
  | transpose
  | colBind
  | syrk (transLeft : Bool)
  | gemv

/-- `getVectorSplits` (matrix operands), DaphneVectorizableOpInterface.cpp:34-41, 56-58, 72-74, 89-91, 105-107, 125-132, 298-300,
358-360, 376, 386-388, 407-409, 427-429. -/
def VOp.splits : VOp α → List Split
  | .ewUn _ => [.rows]
  | .ewSca _ => [.rows, .none]
  | .ewBin _ => [.rows, .rows]
  | .outer _ => [.rows, .none]
  | .rowAgg _ => [.rows]
  | .colAgg _ => [.rows]
  | .allAgg _ => [.rows]
  | .matMul _ => [.rows, .none]
  | .extractCol _ => [.rows]
  | .transpose => [.rows]
  | .colBind => [.rows, .rows]
  | .syrk _ => [.rows]
  | .gemv => [.rows, .rows]

/-- `getVectorCombines`, DaphneVectorizableOpInterface.cpp:42-44, 59-61, 75-77, 92-94, 133, 314-318, 346-350, 361, 377, 389, 410, 430. -/
def VOp.combine : VOp α → Combine
  | .colAgg k => k.combine
  | .allAgg k => k.combine
  | .transpose => .cols
  | .syrk _ => .add
  | .gemv => .add
  | _ => .rows

/-- `createOpsOutputSizes` as a function of the operands' numbers of rows and columns, DaphneVectorizableOpInterface.cpp:45-53, 62-69,
78-86, 95-102, 108-115, 134-156, 301-305, 362-371, 378-384, 390-402, 411-426, 431-437. -/
def VOp.outSize : VOp α → List (Nat × Nat) → Nat × Nat
  | .ewUn _, [a] => a
  | .ewSca _, [a, _] => a
  | .ewBin _, [a, _] => a
  | .outer _, [a, b] => (a.1, b.2)
  | .rowAgg _, [a] => (a.1, 1)
  | .colAgg _, [a] => (1, a.2)
  | .allAgg _, [_] => (1, 1)
  | .matMul tb, [a, b] => (a.1, if tb then b.1 else b.2)
  | .extractCol s, [a] => (a.1, s.length)
  | .transpose, [a] => (a.2, a.1)
  | .colBind, [a, b] => (a.1, a.2 + b.2)
  | .syrk tl, [a] => if tl then (a.2, a.2) else (a.1, a.1)
  | .gemv, [a, _] => (a.2, 1)
  | _, _ => (0, 0)

/-! ### What the operations compute -/

/-- Addition and multiplication of the value type. -/
def arith (A : Agg.VT α) : Mm.Arith α := ⟨A.zero, A.ap .add, A.ap .mul⟩

/-- Which column a position means: negative positions count from the end. -/
def colOf (n : Nat) (v : Int) : Nat := if v < 0 then (v + n).toNat else v.toNat

/-- The result on whole matrices. -/
def VOp.value (A : Agg.VT α) : VOp α → List (Mat α) → Mat α
  | .ewUn f, [a] => Mat.map f a
  | .ewSca f, [a, s] => Mat.map (fun u => f u (s.cell 0 0)) a
  | .ewBin f, [a, b] => Mat.zip f a (b.stretch a.rows a.cols)
  | .outer f, [a, b] => Shape.outer f a b
  | .rowAgg k, [a] => ⟨a.rows, 1, fun r _ => Agg.fold A k.bin (k.unit A) (a.rowList r)⟩
  | .colAgg k, [a] => ⟨1, a.cols, fun _ c => Agg.fold A k.bin (k.unit A) (a.colList c)⟩
  | .allAgg k, [a] => ⟨1, 1, fun _ _ => Agg.fold A k.bin (k.unit A) a.cells⟩
  | .matMul tb, [a, b] => Mm.matProd (arith A) a (Mm.flip tb b)
  | .extractCol s, [a] => a.pickCols (s.map (colOf a.cols))
  | .transpose, [a] => a.transpose
  | .colBind, [a, b] => a.hcat b
  | .syrk tl, [a] => Mm.matProd (arith A) (Mm.flip tl a) (Mm.flip tl a).transpose
  | .gemv, [a, v] => Mm.matProd (arith A) a.transpose v
  | _, _ => ⟨0, 0, fun _ _ => A.zero⟩

/-- The shapes for which the result is the one above (all others are errors, or known defects of the kernels: C38, C85, C159, C163). -/
def VOp.Fits : VOp α → List (Mat α) → Prop
  | .ewUn _, [_] => True
  | .ewSca _, [_, s] => s.rows = 1 ∧ s.cols = 1
  | .ewBin _, [a, b] => Broadcastable a b
  | .outer _, [a, b] => a.cols = 1 ∧ b.rows = 1
  | .rowAgg _, [a] => 0 < a.cols
  | .colAgg _, [a] => 0 < a.rows
  | .allAgg _, [_] => True
  | .matMul tb, [a, b] => a.cols = (Mm.flip tb b).rows ∧ 0 < a.cols
  | .extractCol s, [a] => ∀ v ∈ s, Addresses v a.cols (colOf a.cols v)
  | .transpose, [_] => True
  | .colBind, [a, b] => a.rows = b.rows
  | .syrk tl, [a] => 0 < (Mm.flip tl a).cols
  | .gemv, [a, v] => v.rows = a.rows ∧ v.cols = 1 ∧ 0 < a.rows
  | _, _ => False

/-! ### The kernels -/

/-- A column of positions. -/
def posColumn (s : List Int) : DM Int := ⟨Hdr.new s.length 1, ⟨s.length, fun r => s.getD r 0⟩⟩

/-- The kernel calls: EwUnaryMat.h, EwBinaryObjSca.h, EwBinaryMat.h, OuterBinary.h, AggRow.h, AggCol.h, AggAll.h (the scalar result becomes a
1x1 matrix, VectorizeComputationsPass.cpp:311-321), MatMul.cpp, ExtractCol.h, Transpose.h, ColBind.h, Syrk.h, Gemv.h. `blas`: float or double. -/
def VOp.exec (A : Agg.VT α) (less : α → α → Bool) (ofIdx : Nat → α) (blas : Bool) (junk : Nat → α) : VOp α → List (DM α) → Res (DM α)
  | .ewUn f, [x] => ewUnaryMat f junk x
  | .ewSca f, [x, y] => do
    let v ← y.get 0 0
    ewBinaryObjSca f junk x v
  | .ewBin f, [x, y] => ewBinaryMat f junk x y
  | .outer f, [x, y] => Shape.outerBinary f x y junk
  | .rowAgg k, [x] => Agg.aggRowDense A id less ofIdx junk k.code x
  | .colAgg k, [x] => Agg.aggColDense A id less ofIdx junk junk k.code x
  | .allAgg k, [x] => do
    let v ← Agg.aggAllDense A (Agg.Conv.same A) k.code x
    .ok (DM.create 1 1 fun _ => v)
  | .matMul tb, [x, y] => Mm.denseDense (arith A) blas x y false tb junk
  | .extractCol s, [x] => Dense.extractCol junk x (posColumn s)
  | .transpose, [x] => Dense.transpose junk x
  | .colBind, [x, y] => Dense.colBind junk x y
  | .syrk tl, [x] => Mm.syrk (arith A) x tl junk
  | .gemv, [x, y] => Mm.gemvDense (arith A) x y junk
  | _, _ => .error (.throw "no such kernel")

/-- The laws of arithmetic that are used. -/
structure Laws (A : Agg.VT α) : Prop where
  sum : Agg.Lawful A .sum
  min : Agg.Lawful A .min
  max : Agg.Lawful A .max
  mulComm : ∀ a b, A.ap .mul a b = A.ap .mul b a

theorem Laws.of {A : Agg.VT α} (h : Laws A) (k : AggK) : Agg.Lawful A k.code := by cases k; exacts [h.sum, h.min, h.max]

theorem Laws.mon {A : Agg.VT α} (h : Laws A) (k : AggK) : Agg.CMon (A.ap k.bin) (k.unit A) := by
  cases k
  · exact h.sum.mon
  · exact h.min.mon
  · exact h.max.mon

theorem aggOf_code (A : Agg.VT α) (k : AggK) (l : List α) : Agg.aggOf A k.code l = .ok (Agg.fold A k.bin (k.unit A) l) := by
  cases k <;> rfl

theorem exact_same (A : Agg.VT α) (op : Agg.AggOp) : Agg.Conv.Exact A (Agg.Conv.same A) op :=
  ⟨fun _ => True, trivial, trivial, fun _ => trivial, fun _ _ _ _ => ⟨trivial, rfl⟩⟩

theorem posColumn_is (s : List Int) : IsPositions (posColumn s) s := by
  refine ⟨?_, rfl⟩
  have := is_new (m := (⟨s.length, fun r => s.getD r 0⟩ : Buf Int)) (rows := s.length) (cols := 1) (f := fun r _ => s.getD r 0) (by simp)
    fun r c hr hc => by
      have : c = 0 := by omega
      subst this
      simp
  exact this

/-- Case distinction on an operation with operands it accepts. -/
theorem VOp.Fits.cases {P : VOp α → List (Mat α) → Prop} {op : VOp α} {As : List (Mat α)} (hf : op.Fits As)
    (ewUn : ∀ f a, P (.ewUn f) [a]) (ewSca : ∀ f a s, s.rows = 1 ∧ s.cols = 1 → P (.ewSca f) [a, s])
    (ewBin : ∀ f a b, Broadcastable a b → P (.ewBin f) [a, b]) (outer : ∀ f a b, a.cols = 1 ∧ b.rows = 1 → P (.outer f) [a, b])
    (rowAgg : ∀ k a, 0 < a.cols → P (.rowAgg k) [a]) (colAgg : ∀ k a, 0 < a.rows → P (.colAgg k) [a]) (allAgg : ∀ k a, P (.allAgg k) [a])
    (matMul : ∀ tb a b, a.cols = (Mm.flip tb b).rows ∧ 0 < a.cols → P (.matMul tb) [a, b])
    (extractCol : ∀ s a, (∀ v ∈ s, Addresses v a.cols (colOf a.cols v)) → P (.extractCol s) [a])
    (transpose : ∀ a, P .transpose [a]) (colBind : ∀ a b, a.rows = b.rows → P .colBind [a, b])
    (syrk : ∀ tl a, 0 < (Mm.flip tl a).cols → P (.syrk tl) [a])
    (gemv : ∀ a v, v.rows = a.rows ∧ v.cols = 1 ∧ 0 < a.rows → P .gemv [a, v]) : P op As := by
  rcases As with _ | ⟨a, _ | ⟨b, _ | ⟨c, l⟩⟩⟩ <;> cases op <;> first | exact hf.elim | skip
  · exact ewUn _ _
  · exact rowAgg _ _ hf
  · exact colAgg _ _ hf
  · exact allAgg _ _
  · exact extractCol _ _ hf
  · exact transpose _
  · exact syrk _ _ hf
  · exact ewSca _ _ _ hf
  · exact ewBin _ _ _ hf
  · exact outer _ _ _ hf
  · exact matMul _ _ _ hf
  · exact colBind _ _ hf
  · exact gemv _ _ hf

/-- Each kernel computes its operation. -/
theorem exec_ok {A : Agg.VT α} (hA : Laws A) (less : α → α → Bool) (ofIdx : Nat → α) (blas : Bool) (junk : Nat → α) (op : VOp α) {xs : List (DM α)}
    {As : List (Mat α)} (h : List.Forall₂ DM.Is xs As) (hf : op.Fits As) :
    Res.Ok (op.exec A less ofIdx blas junk xs) (fun z => z.Is (op.value A As)) := by
  have un : ∀ {xs : List (DM α)} {a : Mat α}, List.Forall₂ DM.Is xs [a] → ∃ x, xs = [x] ∧ x.Is a := by
    intro xs a h
    match xs, h with | [x], .cons h .nil => exact ⟨x, rfl, h⟩
  have bi : ∀ {xs : List (DM α)} {a b : Mat α}, List.Forall₂ DM.Is xs [a, b] → ∃ x y, xs = [x, y] ∧ x.Is a ∧ y.Is b := by
    intro xs a b h
    match xs, h with | [x, y], .cons h (.cons h' .nil) => exact ⟨x, y, rfl, h, h'⟩
  revert xs h
  refine hf.cases (P := fun op As => ∀ {xs : List (DM α)}, List.Forall₂ DM.Is xs As →
    Res.Ok (op.exec A less ofIdx blas junk xs) (fun z => z.Is (op.value A As))) ?_ ?_ ?_ ?_ ?_ ?_ ?_ ?_ ?_ ?_ ?_ ?_ ?_
  · intro f a xs h; obtain ⟨x, rfl, hx⟩ := un h; exact C38_ewUnaryMat f junk x a hx
  · intro f a s hs xs h; obtain ⟨x, y, rfl, hx, hy⟩ := bi h
    show Res.Ok (do
      let v ← y.get 0 0
      ewBinaryObjSca f junk x v) _
    rw [hy.2.2.2 0 0 (by omega) (by omega)]
    exact C38_ewBinaryObjSca f junk x a _ hx
  · intro f a b hf xs h; obtain ⟨x, y, rfl, hx, hy⟩ := bi h; exact (C38_ewBinaryMat_partial f junk x y a b hx hy).1 hf
  · intro f a b hf xs h; obtain ⟨x, y, rfl, hx, hy⟩ := bi h; exact (Shape.C97_outerBinary f x y a b hx hy junk).1 hf
  · intro k a hf xs h; obtain ⟨x, rfl, hx⟩ := un h
    have := Agg.C81_row_dense A id less ofIdx junk x a hx hf k.code (hA.of k) (by cases k <;> exact ⟨by decide, by decide⟩)
    refine this.mono fun z hz => ?_
    obtain ⟨b, hb, e1, e2, e3⟩ := hz
    refine hb.congr ⟨e1, e2, fun r c hr hc => ?_⟩
    have e4 := e3 r (by omega)
    rw [aggOf_code, List.map_id] at e4
    have : c = 0 := by omega
    subst this
    exact (Except.ok.inj e4).symm
  · intro k a hf xs h; obtain ⟨x, rfl, hx⟩ := un h
    have := Agg.C82_col_dense A id less ofIdx junk junk x a hx hf k.code (hA.of k) (by cases k <;> exact ⟨by decide, by decide⟩)
    refine this.mono fun z hz => ?_
    obtain ⟨b, hb, e1, e2, e3⟩ := hz
    refine hb.congr ⟨e1, e2, fun r c hr hc => ?_⟩
    have e4 := e3 c (by omega)
    rw [aggOf_code, List.map_id] at e4
    have : r = 0 := by omega
    subst this
    exact (Except.ok.inj e4).symm
  · intro k a xs h; obtain ⟨x, rfl, hx⟩ := un h
    have := Agg.C79_all_dense A (Agg.Conv.same A) x a hx k.code (hA.of k) (exact_same A _) (by cases k <;> exact ⟨by decide, by decide⟩)
    show Res.Ok (do
      let v ← Agg.aggAllDense A (Agg.Conv.same A) k.code x
      .ok (DM.create 1 1 fun _ => v)) _
    rw [this, aggOf_code]
    refine ⟨_, rfl, ?_⟩
    have e : (Agg.Conv.same A).cast = id := rfl
    rw [e, List.map_id]
    exact is_new (m := (⟨1 * 1, fun _ => Agg.fold A k.bin (k.unit A) a.cells⟩ : Buf α)) rfl fun _ _ _ _ => rfl
  · intro tb a b hf xs h; obtain ⟨x, y, rfl, hx, hy⟩ := bi h
    exact (Mm.C158_dense_times_dense (arith A) blas x y a b hx hy false tb junk).1 hf.1 (fun _ => hf.2) (fun _ => rfl)
  · intro s a hf xs h; obtain ⟨x, rfl, hx⟩ := un h
    refine (C23_extractCol junk x a hx (posColumn s) s (posColumn_is s)).1 _ (by simp) fun i hi => ?_
    have := hf (s[i]) (List.getElem_mem hi)
    simpa [List.getD_eq_getElem _ _ hi, hi] using this
  · intro a xs h; obtain ⟨x, rfl, hx⟩ := un h; exact C25_transpose junk x a hx
  · intro a b hf xs h; obtain ⟨x, y, rfl, hx, hy⟩ := bi h; exact (C21_colBind junk x y a b hx hy).1 hf
  · intro tl a hf xs h; obtain ⟨x, rfl, hx⟩ := un h; exact Mm.C160_syrk (arith A) hA.mulComm x a hx tl hf junk
  · intro a b hf xs h; obtain ⟨x, y, rfl, hx, hy⟩ := bi h; exact Mm.C161_gemv (arith A) x y a b hx hy hf.1 hf.2.1 hf.2.2 junk

/-- The declared output size is that of the result. -/
theorem outSize_ok (A : Agg.VT α) (op : VOp α) {As : List (Mat α)} (hf : op.Fits As) :
    op.outSize (As.map fun a => (a.rows, a.cols)) = ((op.value A As).rows, (op.value A As).cols) := by
  refine hf.cases (P := fun op As => op.outSize (As.map fun a => (a.rows, a.cols)) = ((op.value A As).rows, (op.value A As).cols))
    ?_ ?_ ?_ ?_ ?_ ?_ ?_ ?_ ?_ ?_ ?_ ?_ ?_
  · intros; rfl
  · intros; rfl
  · intros; rfl
  · intros; rfl
  · intros; rfl
  · intros; rfl
  · intros; rfl
  · intro tb a b _; cases tb <;> rfl
  · intro s a _; simp [VOp.outSize, VOp.value, Mat.pickCols]
  · intros; rfl
  · intros; rfl
  · intro tl a _; cases tl <;> rfl
  · intro a v hf; simp [VOp.outSize, VOp.value, Mm.matProd, Mat.transpose, hf.2.1]

end Verif.Vect
