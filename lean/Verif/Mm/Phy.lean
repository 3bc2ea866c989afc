/-
  Model of the choice of physical operators for matrix multiplications: the canonicalization of `MatMulOp`
  (src/ir/daphneir/Canonicalize.cpp:131-186) and src/compiler/lowering/PhyOperatorSelectionPass.cpp:45-80, together with the kernels that
  the chosen operators call.
-/
import Verif.Mm.Blas
import Verif.Mm.CsrCsr

namespace Verif.Mm
open Verif Verif.Csr
variable {α : Type}

/-- `MatMulOp` with SSA values as numbers; `transa` is always false (Canonicalize.cpp:167-173). -/
structure MMOp where
  lhs : Nat
  rhs : Nat
  transb : Bool
  deriving DecidableEq

/-- What the compiler knows about SSA values: the argument of the defining `TransposeOp`, if any, and the known numbers of rows and
columns (absent: -1). -/
structure Facts where
  transposeOf : Nat → Option Nat
  numRows : Nat → Option Nat
  numCols : Nat → Option Nat

/-- Canonicalize.cpp:137-186. `denseRhs`: the known sparsity of the right-hand side is at least 0.25. -/
def canonMatMul (F : Facts) (denseRhs : Bool) (op : MMOp) : MMOp :=
  match F.transposeOf op.rhs with
  | none => op
  | some r => if denseRhs then ⟨op.lhs, r, !op.transb⟩ else op

/-- The physical operators. -/
inductive Phy
  | matMul (lhs rhs : Nat) (transb : Bool)
  | syrk (arg : Nat) (transLeft : Bool)
  | gemv (mat vec : Nat)
  deriving DecidableEq

/-- PhyOperatorSelectionPass.cpp:60-78, the third case. -/
def selectGemv (F : Facts) (op : MMOp) : Phy :=
  match F.transposeOf op.lhs with
  | none => .matMul op.lhs op.rhs op.transb
  | some m =>
    if (!op.transb && F.numCols op.rhs == some 1) || (op.transb && F.numRows op.rhs == some 1) then .gemv m op.rhs
    else .matMul op.lhs op.rhs op.transb

/-- PhyOperatorSelectionPass.cpp:45-80 (and the legality test 98-120, which has the same conditions). -/
def selectPhy (F : Facts) (op : MMOp) : Phy :=
  if F.transposeOf op.lhs = some op.rhs ∧ op.transb = false then .syrk op.rhs true
  else if (op.transb = false ∧ F.transposeOf op.rhs = some op.lhs) ∨ (op.transb = true ∧ op.rhs = op.lhs) then .syrk op.lhs false
  else selectGemv F op

/-- Execute a physical operator on dense matrices of float or double. -/
def runPhy (A : Arith α) (objs : Nat → Dense.DM α) (junk : Nat → α) : Phy → Res (Dense.DM α)
  | .matMul l r tb => denseDense A true (objs l) (objs r) false tb junk
  | .syrk m tl => syrk A (objs m) tl junk
  | .gemv m v => gemvDense A (objs m) (objs v) junk

/-- The compiler's facts hold for the matrices of a run. -/
structure Facts.Hold (F : Facts) (env : Nat → Mat α) : Prop where
  transposeOf : ∀ i j, F.transposeOf i = some j → env i = (env j).transpose
  numRows : ∀ i n, F.numRows i = some n → (env i).rows = n
  numCols : ∀ i n, F.numCols i = some n → (env i).cols = n

/-- What the operation means. -/
def MMOp.value (A : Arith α) (env : Nat → Mat α) (op : MMOp) : Mat α := matProd A (env op.lhs) (flip op.transb (env op.rhs))

/-- The operation is well-formed for the run: equal, positive inner dimensions. -/
def MMOp.Fits (env : Nat → Mat α) (op : MMOp) : Prop :=
  (env op.lhs).cols = (flip op.transb (env op.rhs)).rows ∧ 0 < (env op.lhs).cols

/-- The pattern handled wrongly (C163): `t(M) @ t(v)` with a row vector `v`. -/
def MMOp.rowVector (F : Facts) (op : MMOp) : Prop := op.transb = true ∧ F.numRows op.rhs = some 1 ∧ F.transposeOf op.lhs ≠ none

theorem flip_transpose (t : Bool) (a : Mat α) : flip t a.transpose = flip (!t) a := by cases t <;> rfl

theorem canonMatMul_value (A : Arith α) {F : Facts} {env : Nat → Mat α} (hF : F.Hold env) (dr : Bool) (op : MMOp) :
    (canonMatMul F dr op).value A env = op.value A env ∧ ((canonMatMul F dr op).Fits env ↔ op.Fits env) := by
  unfold canonMatMul
  split
  · exact ⟨rfl, Iff.rfl⟩
  · rename_i r h
    cases dr with
    | false => exact ⟨rfl, Iff.rfl⟩
    | true =>
      have := hF.transposeOf _ _ h
      simp only [if_true, MMOp.value, MMOp.Fits]
      rw [this, flip_transpose]
      exact ⟨rfl, Iff.rfl⟩

/-- **C162.** Folding a transposition into the multiplication and choosing `syrk`, `gemv` or `matMul` does not change the result: for
dense float or double operands with matching, positive inner dimension, the kernel that is called in the end returns the matrix product
that the program asked for (unless the program multiplies a transposed matrix by a transposed row vector, see C163). -/
theorem C162_physical_operator_choice (A : Arith α) (hcomm : ∀ u w, A.mul u w = A.mul w u) (F : Facts) (env : Nat → Mat α) (hF : F.Hold env)
    (objs : Nat → Dense.DM α) (hobj : ∀ i, (objs i).Is (env i)) (denseRhs : Bool) (op : MMOp) (hfit : op.Fits env)
    (hrow : ¬ (canonMatMul F denseRhs op).rowVector F) (junk : Nat → α) :
    Res.Ok (runPhy A objs junk (selectPhy F (canonMatMul F denseRhs op))) (fun z => z.Is (op.value A env)) := by
  obtain ⟨c1, c2⟩ := canonMatMul_value A hF denseRhs op
  rw [← c1]
  rw [← c2] at hfit
  generalize canonMatMul F denseRhs op = op' at hfit hrow ⊢
  obtain ⟨d1, d2⟩ := hfit
  have hmm : Res.Ok (runPhy A objs junk (.matMul op'.lhs op'.rhs op'.transb)) (fun z => z.Is (op'.value A env)) :=
    (C158_dense_times_dense A true _ _ _ _ (hobj op'.lhs) (hobj op'.rhs) false op'.transb junk).1 d1 (fun _ => d2) (fun h => by cases h)
  unfold selectPhy
  by_cases h1 : F.transposeOf op'.lhs = some op'.rhs ∧ op'.transb = false
  · rw [if_pos h1]
    have e := hF.transposeOf _ _ h1.1
    have hk : 0 < (flip true (env op'.rhs)).cols := by rw [e] at d2; exact d2
    have := C160_syrk A hcomm _ _ (hobj op'.rhs) true hk junk
    refine this.mono fun z hz => ?_
    have e2 : op'.value A env = matProd A (flip true (env op'.rhs)) (flip true (env op'.rhs)).transpose := by
      unfold MMOp.value; rw [h1.2, e]; rfl
    rw [e2]; exact hz
  · rw [if_neg h1]
    by_cases h2 : (op'.transb = false ∧ F.transposeOf op'.rhs = some op'.lhs) ∨ (op'.transb = true ∧ op'.rhs = op'.lhs)
    · rw [if_pos h2]
      have := C160_syrk A hcomm _ _ (hobj op'.lhs) false d2 junk
      refine this.mono fun z hz => ?_
      have e2 : op'.value A env = matProd A (flip false (env op'.lhs)) (flip false (env op'.lhs)).transpose := by
        unfold MMOp.value
        rcases h2 with ⟨h3, h4⟩ | ⟨h3, h4⟩
        · rw [h3, hF.transposeOf _ _ h4]; rfl
        · rw [h3, h4]; rfl
      rw [e2]; exact hz
    · rw [if_neg h2]
      unfold selectGemv
      split
      · exact hmm
      · rename_i m hm
        split
        · rename_i hc
          have htb : op'.transb = false := by
            by_contra hb
            have hb : op'.transb = true := by simpa using hb
            rw [hb] at hc
            simp at hc
            exact hrow ⟨hb, hc, by rw [hm]; simp⟩
          rw [htb] at hc
          simp at hc
          have e := hF.transposeOf _ _ hm
          have hcol := hF.numCols _ _ hc
          unfold MMOp.value
          rw [htb] at d1 ⊢
          rw [e] at d1 d2 ⊢
          exact C161_gemv A _ _ _ _ (hobj m) (hobj op'.rhs) d1.symm hcol d2 junk
        · exact hmm

/-- A run that meets the hypotheses of C162 in a non-trivial way: `t(M) @ M` with the 2 × 1 matrix `M = (3, 4)`, i.e. `(25)`. -/
example : Res.Ok (runPhy (α := Int) ⟨0, (· + ·), (· * ·)⟩ (fun i => if i = 0 then ⟨Dense.Hdr.new 2 1, ⟨2, fun p => if p = 0 then 3 else 4⟩⟩
    else ⟨Dense.Hdr.new 1 2, ⟨2, fun p => if p = 0 then 3 else 4⟩⟩) (fun _ => 0)
    (selectPhy ⟨fun i => if i = 1 then some 0 else none, fun _ => none, fun _ => none⟩ ⟨1, 0, false⟩)) (fun z => z.get 0 0 = .ok 25) :=
  ⟨_, rfl, rfl⟩

/-! ### What goes wrong -/

/-- Gemv.h:78-114: the sparse `gemv`, a sequential sparse × dense multiplication *without* transposing the matrix. -/
def gemvCsr (A : Arith α) (x : CM α) (v : Dense.DM α) (junk : Nat → α) : Res (Dense.DM α) := do
  let S ← stepsOf x v.h.numCols (List.range x.h.numRows)
  csrDense A x v junk S

/-- MatMul.h:205-217: the sparse × dense kernel ignores both transposition flags. -/
def csrDenseFlags (A : Arith α) (x : CM α) (y : Dense.DM α) (_ta _tb : Bool) (junk : Nat → α) (S : List Step) : Res (Dense.DM α) :=
  csrDense A x y junk S

theorem interleave_single {β : Type} {t s : List β} (h : Interleave [t] s) : s = t := by
  have := h.filter (fun _ => true) 0 rfl (by
    intro i u hu hi
    obtain ⟨i, rfl⟩ : ∃ k, i = k + 1 := ⟨i - 1, by omega⟩
    simp at hu)
  simpa using this

/-- **C163 (refuted).** The sparse `gemv` computes `M @ v`, not `t(M) @ v` as the operator is defined and as it is chosen for
`t(M) @ v`: for every sparse `M` and every `v` of length `ncol(M)` it returns `M @ v`, and if the length is not `ncol(M)` it throws. -/
theorem C163_sparse_gemv_partial (A : Arith α) (hz : ∀ s w, A.add s (A.mul A.zero w) = s) (x : CM α) (v : Dense.DM α) (a b : Mat α)
    (hx : x.Is A.zero a) (hv : v.Is b) (junk : Nat → α) :
    (a.cols = b.rows → Res.Ok (gemvCsr A x v junk) (fun z => z.Is (matProd A a b))) ∧
    (a.cols ≠ b.rows → Res.Throws (gemvCsr A x v junk)) := by
  have e1 := hx.rows
  have hs := stepsOf_ok hx.wf v.h.numCols (List.range x.h.numRows) fun r hr => List.mem_range.1 hr
  obtain ⟨h1, h2⟩ := C154_sparse_times_dense A hz .rowWise x v a b hx hv junk
  unfold gemvCsr
  rw [hs, Res.ok_bind]
  refine ⟨fun hd => ?_, fun hd => h2 hd _⟩
  obtain ⟨ts, t1, _, t2⟩ := h1 hd
  refine t2 _ ?_
  have : ts = [(List.range x.h.numRows).flatMap (rowList x v.h.numCols)] := by
    rw [threadSteps_ok hx.wf _ _ (by
      intro t ht r hr
      simp only [threadRows, List.mem_singleton] at ht
      subst ht; exact List.mem_range.1 hr)] at t1
    cases t1; rfl
  rw [this]
  have := Interleave.inOrder [(List.range x.h.numRows).flatMap (rowList x v.h.numCols)]
  simpa using this

/-- The two differ: `M = [[0, 1], [0, 0]]`, `v = (1, 0)`. -/
theorem C163_sparse_gemv_differs_partial : ∃ a b : Mat Int, a.cols = b.rows ∧ a.rows = b.rows ∧ b.cols = 1 ∧
    ¬ (matProd ⟨0, (· + ·), (· * ·)⟩ a b).Same (matProd ⟨0, (· + ·), (· * ·)⟩ a.transpose b) := by
  refine ⟨⟨2, 2, fun r c => if r = 0 ∧ c = 1 then 1 else 0⟩, ⟨2, 1, fun r _ => if r = 0 then 1 else 0⟩, rfl, rfl, rfl, ?_⟩
  rintro ⟨_, _, h⟩
  have := h 1 0 (by decide) (by decide)
  exact absurd this (by decide)

/-- **C163 (refuted).** `A @ t(B)` with sparse `A` and dense `B`, after the transposition has been folded into the flag `transb`, is
computed as `A @ B`, or throws if the inner dimensions of `A` and `B` differ although those of `A` and `t(B)` agree. -/
theorem C163_sparse_transb_partial (A : Arith α) (hz : ∀ s w, A.add s (A.mul A.zero w) = s) (v : Variant) (x : CM α) (y : Dense.DM α)
    (a b : Mat α) (hx : x.Is A.zero a) (hy : y.Is b) (junk : Nat → α) :
    (a.cols = b.rows → ∃ ts, threadSteps x y.h.numCols (threadRows v x.h.numRows) = .ok ts ∧
      ∀ S, Interleave ts S → Res.Ok (csrDenseFlags A x y false true junk S) (fun z => z.Is (matProd A a b))) ∧
    (a.cols = b.cols → a.cols ≠ b.rows → ∀ S, Res.Throws (csrDenseFlags A x y false true junk S)) := by
  obtain ⟨h1, h2⟩ := C154_sparse_times_dense A hz v x y a b hx hy junk
  refine ⟨fun hd => ?_, fun _ hd => h2 hd⟩
  obtain ⟨ts, t1, _, t2⟩ := h1 hd
  exact ⟨ts, t1, t2⟩

/-- **C163 (refuted).** `t(M) @ t(v)` with an `n × k` matrix `M` and a `1 × n` row vector `v`, `n ≥ 2`, both freshly allocated: the chosen `gemv` reads
beyond the end of `v`. -/
theorem C163_row_vector_partial (A : Arith α) (n k : Nat) (hn : 1 < n) (hk : 0 < k) (jm jv junk : Nat → α) (F : Facts)
    (hF : F.transposeOf 1 = some 0) (hv : F.numRows 2 = some 1) :
    selectPhy F ⟨1, 2, true⟩ = .gemv 0 2 ∧ Res.IsUB (gemvDense A (Dense.DM.create n k jm) (Dense.DM.create 1 n jv) junk) := by
  refine ⟨?_, ?_⟩
  · unfold selectPhy
    rw [if_neg (by simp), if_neg (by simp)]
    simp [selectGemv, hF, hv]
  · have hr0 : vecRead (Dense.DM.create 1 n jv) n 0 = .ok (jv 0) := by
      unfold vecRead
      rw [show (Dense.DM.create 1 n jv).h.start = 0 from (new_start 1 n).1]
      rw [Buf.read_eq (by simp [Dense.DM.create]; omega)]
      simp [Dense.DM.create]
    have hr1 : vecRead (Dense.DM.create 1 n jv) n 1 = .error (.ub "out-of-bounds read") := by
      unfold vecRead Buf.read
      rw [show (Dense.DM.create 1 n jv).h.start = 0 from (new_start 1 n).1]
      rw [if_neg (by simp [Dense.DM.create])]
    have hx : ∀ p, p < n → opRead (Dense.DM.create n k jm) true 0 p = .ok (jm (p * k)) := by
      intro p hp
      unfold opRead
      rw [show (Dense.DM.create n k jm).h.start = 0 from (new_start n k).1]
      have := rm_lt (c := 0) hp hk (Nat.le_refl k)
      simp only [if_true]
      rw [Buf.read_eq (by simpa [Dense.DM.create, Dense.Hdr.new] using this)]
      simp [Dense.DM.create, Dense.Hdr.new]
    have hdot : dotLoop A n (opRead (Dense.DM.create n k jm) true 0) (vecRead (Dense.DM.create 1 n jv) n) =
        .error (.ub "out-of-bounds read") := by
      unfold dotLoop forLoop
      obtain ⟨q, rfl⟩ : ∃ q, n = q + 2 := ⟨n - 2, by omega⟩
      rw [show q + 2 - 0 = (q + 1) + 1 by omega]
      simp only [forFrom]
      rw [hx 0 (by omega), hr0]
      simp only [Res.ok_bind]
      rw [hx (0 + 1) (by omega), show (0 + 1 : Nat) = 1 from rfl, hr1]
      rfl
    unfold gemvDense launchGemv
    simp only
    rw [if_neg (by simp [Dense.DM.create, Dense.Hdr.new]; omega)]
    unfold gemvLoop forLoop
    obtain ⟨q, rfl⟩ : ∃ q, k = q + 1 := ⟨k - 1, by omega⟩
    rw [show (if true = true then (Dense.DM.create n (q + 1) jm).h.numCols else (Dense.DM.create n (q + 1) jm).h.numRows) - 0 = q + 1 from rfl]
    simp only [forFrom, if_true]
    rw [show (Dense.DM.create n (q + 1) jm).h.numRows = n from rfl, show (Dense.DM.create 1 n jv).h.rowSkip = n from rfl, hdot]
    exact ⟨_, rfl⟩

end Verif.Mm
