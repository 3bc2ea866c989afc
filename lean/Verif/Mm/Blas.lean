/-
  Model of the dense × dense matrix multiplication (src/runtime/local/kernels/MatMul.cpp), of `syrk` (Syrk.h) and `gemv` (Gemv.h).
  The BLAS and Eigen routines are not part of the repository; they are modelled by their documented contract: which addresses they read
  and write for the arguments passed, when they return without touching the result (BLAS: empty operand or illegal leading dimension),
  and the value computed, with the sum taken in ascending order (an actual BLAS may re-associate floating-point sums).
  Simplification: dimensions and strides fit into `int32_t`.
-/
import Verif.Mm.DenseCsr
import Mathlib.Tactic.FinCases

namespace Verif.Mm
open Verif Verif.Csr
variable {α : Type}

/-- The inner loop of every routine: the sum of products of two sequences read from memory. -/
def dotLoop (A : Arith α) (k : Nat) (ra rb : Nat → Res α) : Res α :=
  forLoop 0 k A.zero fun p acc => do
    let u ← ra p
    let w ← rb p
    .ok (A.add acc (A.mul u w))

/-- Element `(i, p)` of `op(X)`, `X` stored row-major at `getValues()` with leading dimension `getRowSkip()`. -/
def opRead (x : Dense.DM α) (t : Bool) (i p : Nat) : Res α :=
  x.mem.read (x.h.start + (if t then p * x.h.rowSkip + i else i * x.h.rowSkip + p))

/-- Element `p` of a vector at `getValues()` with the given stride. -/
def vecRead (x : Dense.DM α) (inc p : Nat) : Res α := x.mem.read (x.h.start + p * inc)

/-- `launch_dot`, MatMul.cpp:28-57: `cblas_?dot` or an Eigen dot product of two strided vectors. -/
def launchDot (A : Arith α) (n : Nat) (x : Dense.DM α) (incx : Nat) (y : Dense.DM α) (incy : Nat) : Res α :=
  dotLoop A n (vecRead x incx) (vecRead y incy)

/-- The loop of `gemv`: result element `i` at `i * incy`. -/
def gemvLoop (A : Arith α) (ta : Bool) (m n : Nat) (x y : Dense.DM α) (incx incy : Nat) (c : Buf α) : Res (Buf α) :=
  forLoop 0 (if ta then n else m) c fun i c => do
    let v ← dotLoop A (if ta then m else n) (opRead x ta i) (vecRead y incx)
    c.write (i * incy) v

/-- `launch_gemv`, MatMul.cpp:62-127, with `alpha = 1`, `beta = 0`: `cblas_?gemv` (`blas`) or Eigen. -/
def launchGemv (A : Arith α) (blas ta : Bool) (m n : Nat) (x y : Dense.DM α) (incx incy : Nat) (c : Buf α) : Res (Buf α) :=
  if blas ∧ (m = 0 ∨ n = 0 ∨ x.h.rowSkip < max 1 n) then .ok c
  else gemvLoop A ta m n x y incx incy c

/-- The loop of `gemm`. -/
def gemmLoop (A : Arith α) (ta tb : Bool) (m n k : Nat) (x y : Dense.DM α) (ldc : Nat) (c : Buf α) : Res (Buf α) :=
  forLoop 0 m c fun i c => forLoop 0 n c fun j c => do
    let v ← dotLoop A k (opRead x ta i) (fun p => opRead y tb p j)
    c.write (i * ldc + j) v

/-- `launch_gemm<float>`, `launch_gemm<double>`, MatMul.cpp:136-151. -/
def gemmBlas (A : Arith α) (ta tb : Bool) (m n k : Nat) (x y : Dense.DM α) (ldc : Nat) (c : Buf α) : Res (Buf α) :=
  if m = 0 ∨ n = 0 ∨ x.h.rowSkip < max 1 (if ta then m else k) ∨ y.h.rowSkip < max 1 (if tb then k else n) ∨ ldc < max 1 n then .ok c
  else gemmLoop A ta tb m n k x y ldc c

/-- `launch_gemm<int32_t>`, `launch_gemm<int64_t>`, MatMul.cpp:153-232. With `transa`, the result is mapped as `n × m`, and without
`transb` the right-hand side as `n × k`; Eigen asserts matching dimensions. -/
def gemmEigen (A : Arith α) (ta tb : Bool) (m n k : Nat) (x y : Dense.DM α) (ldc : Nat) (c : Buf α) : Res (Buf α) :=
  match ta, tb with
  | true, true => if n = m then gemmLoop A true true m n k x y ldc c else .error (.ub "Eigen: dimensions do not match")
  | true, false => if n = k ∧ n = m then gemmLoop A true false m n k x y ldc c else .error (.ub "Eigen: dimensions do not match")
  | false, tb => gemmLoop A false tb m n k x y ldc c

/-- MatMul.cpp:234-277. `blas`: float and double; otherwise the integer types. -/
def denseDense (A : Arith α) (blas : Bool) (x y : Dense.DM α) (ta tb : Bool) (junk : Nat → α) : Res (Dense.DM α) :=
  let nr1 := if ta then x.h.numCols else x.h.numRows
  let nc1 := if ta then x.h.numRows else x.h.numCols
  let nr2 := if tb then y.h.numCols else y.h.numRows
  let nc2 := if tb then y.h.numRows else y.h.numCols
  if nc1 ≠ nr2 then .error (.throw "#cols of lhs and #rows of rhs must be the same")
  else
    let res := Dense.DM.create nr1 nc2 junk
    if nr1 = 1 ∧ nc2 = 1 then do
      let v ← launchDot A nc1 x (if ta then x.h.rowSkip else 1) y (if tb then 1 else y.h.rowSkip)
      let m ← res.h.set res.mem 0 0 v
      .ok ⟨res.h, m⟩
    else if nc2 = 1 then do
      let m ← launchGemv A blas ta x.h.numRows x.h.numCols x y (if tb then 1 else y.h.rowSkip) res.h.rowSkip res.mem
      .ok ⟨res.h, m⟩
    else do
      let m ← if blas then gemmBlas A ta tb nr1 nc2 nc1 x y res.h.rowSkip res.mem else gemmEigen A ta tb nr1 nc2 nc1 x y res.h.rowSkip res.mem
      .ok ⟨res.h, m⟩

/-! ### Correctness -/

theorem dotLoop_ok (A : Arith α) {k : Nat} {ra rb : Nat → Res α} {f g : Nat → α} (hf : ∀ p, p < k → ra p = .ok (f p))
    (hg : ∀ p, p < k → rb p = .ok (g p)) : dotLoop A k ra rb = .ok (dot A k f g) := by
  unfold dotLoop
  obtain ⟨v, e, h⟩ := forLoop_ok (fun k acc => acc = dot A k f g) 0 k A.zero (Nat.zero_le _) rfl (body := fun p acc => do
      let u ← ra p
      let w ← rb p
      .ok (A.add acc (A.mul u w))) (by
    rintro p s - hp rfl
    rw [hf p hp, hg p hp]
    exact Res.ok_iff.2 rfl)
  rw [e, h]

theorem opRead_ok {x : Dense.DM α} {a : Mat α} (h : x.Is a) (t : Bool) {i p : Nat} (hi : i < (flip t a).rows) (hp : p < (flip t a).cols) :
    opRead x t i p = .ok ((flip t a).cell i p) := by
  unfold opRead
  cases t with
  | false =>
    have := h.read (r := i) (c := p) hi hp
    simpa [Dense.DM.addr, Nat.add_assoc, flip] using this
  | true =>
    have := h.read (r := p) (c := i) hp hi
    simpa [Dense.DM.addr, Nat.add_assoc, flip, Mat.transpose] using this

theorem vecRead_col {x : Dense.DM α} {a : Mat α} (h : x.Is a) {p : Nat} (hp : p < a.rows) (hc : 0 < a.cols) :
    vecRead x x.h.rowSkip p = .ok (a.cell p 0) := by
  have := h.read (r := p) (c := 0) hp hc
  simpa [vecRead, Dense.DM.addr, Nat.add_assoc] using this

theorem vecRead_row {x : Dense.DM α} {a : Mat α} (h : x.Is a) {p : Nat} (hp : p < a.cols) (hr : 0 < a.rows) :
    vecRead x 1 p = .ok (a.cell 0 p) := by
  have := h.read (r := 0) (c := p) hr hp
  simpa [vecRead, Dense.DM.addr, Nat.add_assoc] using this

/-- The right-hand-side vector as the kernel passes it: stride 1 if it is a transposed row, the row skip if it is a column. -/
theorem vecRead_flip {x : Dense.DM α} {a : Mat α} (h : x.Is a) (t : Bool) {p : Nat} (hp : p < (flip t a).rows) (hc : (flip t a).cols = 1) :
    vecRead x (if t then 1 else x.h.rowSkip) p = .ok ((flip t a).cell p 0) := by
  cases t with
  | false => exact vecRead_col h hp (by simp only [flip] at hc; simp at hc; omega)
  | true => exact vecRead_row h hp (by simp only [flip] at hc; simp [Mat.transpose] at hc; omega)

/-- The left-hand-side vector: stride 1 if it is a row, the row skip if it is a transposed column. -/
theorem vecRead_flip' {x : Dense.DM α} {a : Mat α} (h : x.Is a) (t : Bool) {p : Nat} (hp : p < (flip t a).cols) (hr : (flip t a).rows = 1) :
    vecRead x (if t then x.h.rowSkip else 1) p = .ok ((flip t a).cell 0 p) := by
  cases t with
  | false => exact vecRead_row h hp (by simp only [flip] at hr; simp at hr; omega)
  | true => exact vecRead_col h hp (by simp only [flip] at hr; simp [Mat.transpose] at hr; omega)

theorem gemvLoop_ok (A : Arith α) {x y : Dense.DM α} {a : Mat α} (hx : x.Is a) (ta : Bool) (incx : Nat) {g : Nat → α}
    (hg : ∀ p, p < (flip ta a).cols → vecRead y incx p = .ok (g p)) (c : Buf α) (hs : c.size = (flip ta a).rows * 1) :
    Res.Ok (gemvLoop A ta x.h.numRows x.h.numCols x y incx 1 c) (fun m => m.size = (flip ta a).rows * 1 ∧
      ∀ i j, i < (flip ta a).rows → j < 1 → m.data (i * 1 + j) = dot A (flip ta a).cols (fun k => (flip ta a).cell i k) g) := by
  have f1 : (if ta then x.h.numCols else x.h.numRows) = (flip ta a).rows := by rw [flip_rows, hx.rows, hx.cols]
  have f2 : (if ta then x.h.numRows else x.h.numCols) = (flip ta a).cols := by rw [flip_cols, hx.rows, hx.cols]
  unfold gemvLoop
  rw [f1, f2]
  refine forLoop_ok (fun k (m : Buf α) => m.size = (flip ta a).rows * 1 ∧ ∀ i j, i < k → j < 1 → m.data (i * 1 + j) =
    dot A (flip ta a).cols (fun k => (flip ta a).cell i k) g) 0 _ c (Nat.zero_le _) ⟨hs, fun i j h => by omega⟩ ?_
  rintro i m - hi ⟨i1, i2⟩
  rw [dotLoop_ok A (fun p hp => opRead_ok hx ta hi hp) hg]
  simp only [Res.ok_bind]
  rw [Buf.write_eq (by omega)]
  refine Res.ok_iff.2 ⟨by simpa using i1, fun i' j hi' hj => ?_⟩
  rw [Buf.put_data]
  by_cases e : i' = i
  · subst e; rw [if_pos (by omega)]
  · rw [if_neg (by omega)]; exact i2 i' j (by omega) hj

theorem gemmLoop_ok (A : Arith α) {x y : Dense.DM α} {a b : Mat α} (hx : x.Is a) (hy : y.Is b) (ta tb : Bool)
    (hd : (flip ta a).cols = (flip tb b).rows) (c : Buf α) (hs : c.size = (flip ta a).rows * (flip tb b).cols) :
    Res.Ok (gemmLoop A ta tb (flip ta a).rows (flip tb b).cols (flip ta a).cols x y (flip tb b).cols c)
      (fun m => m.size = (flip ta a).rows * (flip tb b).cols ∧ ∀ i j, i < (flip ta a).rows → j < (flip tb b).cols →
        m.data (i * (flip tb b).cols + j) = (matProd A (flip ta a) (flip tb b)).cell i j) := by
  unfold gemmLoop
  refine Dense.fill_cells hs (fun i j => (matProd A (flip ta a) (flip tb b)).cell i j) _ ?_
  intro i j m hi hj hm
  rw [dotLoop_ok A (fun p hp => opRead_ok hx ta hi hp) (fun p hp => opRead_ok hy tb (by omega) hj)]
  simp only [Res.ok_bind]
  have := rm_lt hi hj (Nat.le_refl (flip tb b).cols)
  rw [Buf.write_eq (by omega)]
  rfl

/-- **C158.** Dense × dense multiplication yields the product of the (optionally transposed) operands, for all four value types and for
views with any row skip; unequal inner dimensions are rejected by an exception. For float and double the inner dimension must be
positive, for the integer types the left operand must not be flagged as transposed (see C159). -/
theorem C158_dense_times_dense (A : Arith α) (blas : Bool) (x y : Dense.DM α) (a b : Mat α) (hx : x.Is a) (hy : y.Is b) (ta tb : Bool)
    (junk : Nat → α) :
    ((flip ta a).cols = (flip tb b).rows → (blas = true → 0 < (flip ta a).cols) → (blas = false → ta = false) →
      Res.Ok (denseDense A blas x y ta tb junk) (fun z => z.Is (matProd A (flip ta a) (flip tb b)))) ∧
    ((flip ta a).cols ≠ (flip tb b).rows → Res.Throws (denseDense A blas x y ta tb junk)) := by
  have f1 : (if ta then x.h.numCols else x.h.numRows) = (flip ta a).rows := by rw [flip_rows, hx.rows, hx.cols]
  have f2 : (if ta then x.h.numRows else x.h.numCols) = (flip ta a).cols := by rw [flip_cols, hx.rows, hx.cols]
  have f3 : (if tb then y.h.numCols else y.h.numRows) = (flip tb b).rows := by rw [flip_rows, hy.rows, hy.cols]
  have f4 : (if tb then y.h.numRows else y.h.numCols) = (flip tb b).cols := by rw [flip_cols, hy.rows, hy.cols]
  unfold denseDense
  simp only
  rw [f1, f2, f3, f4]
  refine ⟨fun hd hb hi => ?_, fun hd => ?_⟩
  · rw [if_neg (by omega)]
    by_cases hv : (flip ta a).rows = 1 ∧ (flip tb b).cols = 1
    · rw [if_pos hv, launchDot, dotLoop_ok A (fun p hp => vecRead_flip' hx ta hp hv.1) (fun p hp => vecRead_flip hy tb (by omega) hv.2)]
      simp only [Res.ok_bind, Dense.Hdr.set]
      have hp : (Dense.DM.create (flip ta a).rows (flip tb b).cols junk).h.pos 0 0 false = .ok 0 := by
        simp [Dense.Hdr.pos, Dense.DM.create, Dense.Hdr.new, hv.1, hv.2]
      rw [hp]
      simp only [Res.ok_bind]
      have hst : (Dense.DM.create (flip ta a).rows (flip tb b).cols junk).h.start = 0 := by
        simp [Dense.DM.create, Dense.Hdr.new, Dense.Hdr.start, Dense.Hdr.isPartial]
      rw [hst, Buf.write_eq (by simp [Dense.DM.create, hv.1, hv.2])]
      simp only [Res.ok_bind]
      refine Res.ok_iff.2 (Dense.is_new rfl fun r c hr hc => ?_)
      have : r = 0 := by omega
      have : c = 0 := by omega
      subst r c
      simp
    · rw [if_neg hv]
      by_cases hc : (flip tb b).cols = 1
      · rw [if_pos hc]
        have hres : (Dense.DM.create (flip ta a).rows (flip tb b).cols junk).h.rowSkip = 1 := hc
        rw [hres]
        have hloop := gemvLoop_ok A (y := y) hx ta (if tb then 1 else y.h.rowSkip) (g := fun p => (flip tb b).cell p 0)
          (fun p hp => vecRead_flip hy tb (by omega) hc) (Dense.DM.create (flip ta a).rows (flip tb b).cols junk).mem
          (by simp [Dense.DM.create, hc])
        have hfin : ∀ m : Buf α, (m.size = (flip ta a).rows * 1 ∧ ∀ i j, i < (flip ta a).rows → j < 1 → m.data (i * 1 + j) =
            dot A (flip ta a).cols (fun k => (flip ta a).cell i k) (fun p => (flip tb b).cell p 0)) →
            Res.Ok (.ok ⟨(Dense.DM.create (flip ta a).rows (flip tb b).cols junk).h, m⟩ : Res (Dense.DM α))
              (fun z => z.Is (matProd A (flip ta a) (flip tb b))) := by
          rintro m ⟨k1, k2⟩
          refine Res.ok_iff.2 (Dense.is_new (by rw [hc]; exact k1) fun r c hr hcc => ?_)
          have hc0 : c = 0 := by omega
          have := k2 r c hr (by omega)
          rw [hc]; rw [this, hc0]
        unfold launchGemv
        by_cases hq : blas = true ∧ (x.h.numRows = 0 ∨ x.h.numCols = 0 ∨ x.h.rowSkip < max 1 x.h.numCols)
        · rw [if_pos hq]
          simp only [Res.ok_bind]
          refine hfin _ ⟨by simp [Dense.DM.create, hc], fun i j h1 _ => ?_⟩
          have hk := hb hq.1
          have hsk := hx.wf.skip
          rw [flip_cols] at hk; rw [flip_rows] at h1
          have := hx.rows; have := hx.cols
          cases ta <;> simp at hk h1 <;> omega
        · rw [if_neg hq]
          exact hloop.bind hfin
      · rw [if_neg hc]
        have hres : (Dense.DM.create (flip ta a).rows (flip tb b).cols junk).h.rowSkip = (flip tb b).cols := rfl
        rw [hres]
        have hloop := gemmLoop_ok A hx hy ta tb hd (Dense.DM.create (flip ta a).rows (flip tb b).cols junk).mem rfl
        have hfin : ∀ m : Buf α, (m.size = (flip ta a).rows * (flip tb b).cols ∧ ∀ i j, i < (flip ta a).rows → j < (flip tb b).cols →
            m.data (i * (flip tb b).cols + j) = (matProd A (flip ta a) (flip tb b)).cell i j) →
            Res.Ok (.ok ⟨(Dense.DM.create (flip ta a).rows (flip tb b).cols junk).h, m⟩ : Res (Dense.DM α))
              (fun z => z.Is (matProd A (flip ta a) (flip tb b))) := by
          rintro m ⟨k1, k2⟩
          exact Res.ok_iff.2 (Dense.is_new k1 k2)
        cases blas with
        | true =>
          simp only [if_true]
          unfold gemmBlas
          by_cases hq : (flip ta a).rows = 0 ∨ (flip tb b).cols = 0 ∨ x.h.rowSkip < max 1 (if ta then (flip ta a).rows else (flip ta a).cols) ∨
              y.h.rowSkip < max 1 (if tb then (flip ta a).cols else (flip tb b).cols) ∨ (flip tb b).cols < max 1 (flip tb b).cols
          · rw [if_pos hq]
            simp only [Res.ok_bind]
            refine hfin _ ⟨rfl, fun i j h1 h2 => ?_⟩
            exfalso
            have hk := hb rfl
            have s1 := hx.wf.skip; have s2 := hy.wf.skip
            have q1 := hx.cols; have q2 := hy.cols
            rw [flip_cols] at hk hd h2; rw [flip_rows] at h1 hd
            rw [flip_rows, flip_cols, flip_cols] at hq
            cases ta <;> cases tb <;> simp at hk h1 h2 hd hq <;> omega
          · rw [if_neg hq]
            exact hloop.bind hfin
        | false =>
          have := hi rfl
          subst this
          simp only [Bool.false_eq_true, if_false]
          unfold gemmEigen
          exact hloop.bind hfin
  · rw [if_pos (by omega)]
    exact ⟨_, rfl⟩

/-- **C159 (refuted).** A product with an empty inner dimension and several result rows in one column is not the zero matrix: for float
and double, the result consists of whatever was in the freshly allocated memory. -/
theorem C159_empty_inner_dimension_partial (A : Arith α) (n : Nat) (hn : 1 < n) (junk j1 j2 : Nat → α) :
    ∃ z : Dense.DM α, denseDense A true (Dense.DM.create n 0 j1) (Dense.DM.create 0 1 j2) false false junk = .ok z ∧
      ∀ r, r < n → z.get r 0 = .ok (junk r) := by
  refine ⟨Dense.DM.create n 1 junk, ?_, fun r hr => ?_⟩
  · unfold denseDense
    simp only [Dense.DM.create, Dense.Hdr.new, Bool.false_eq_true, if_false]
    rw [if_neg (by omega), if_neg (by omega), if_pos trivial]
    unfold launchGemv
    rw [if_pos ⟨rfl, .inr (.inl rfl)⟩]
    rfl
  · have := (Dense.is_new (m := ⟨n * 1, junk⟩) (rows := n) (cols := 1) (f := fun r c => junk (r * 1 + c)) rfl fun r c _ _ => rfl).2.2.2 r 0 hr
      (by simp)
    simpa [Dense.DM.create] using this

/-- **C159 (refuted).** For integer matrices, the flag that transposes the left operand works only if all dimensions are equal: for
`k × m` and `k × n` operands with `n ≥ 2` and not `m = n = k`, the routine computes with mismatching dimensions. -/
theorem C159_integer_transposed_left_partial (A : Arith α) (m n k : Nat) (hn : 1 < n) (h : ¬ (n = k ∧ n = m)) (junk j1 j2 : Nat → α) :
    Res.IsUB (denseDense A false (Dense.DM.create k m j1) (Dense.DM.create k n j2) true false junk) := by
  unfold denseDense
  simp only [Dense.DM.create, Dense.Hdr.new, if_true, Bool.false_eq_true, if_false]
  rw [if_neg (by omega), if_neg (by omega), if_neg (by omega)]
  unfold gemmEigen
  simp only
  rw [if_neg h]
  exact ⟨_, rfl⟩

/-! ### `syrk` and `gemv` -/

/-- `cblas_?syrk(CblasRowMajor, CblasUpper, transLeft ? CblasTrans : CblasNoTrans, n, k, 1, A, lda, 0, C, ldc)`: writes the cells on and
above the diagonal. -/
def blasSyrk (A : Arith α) (tl : Bool) (n k : Nat) (x : Dense.DM α) (ldc : Nat) (c : Buf α) : Res (Buf α) :=
  if n = 0 ∨ x.h.rowSkip < max 1 (if tl then n else k) then .ok c
  else forLoop 0 n c fun i c => forLoop i n c fun j c => do
    let v ← dotLoop A k (opRead x tl i) (opRead x tl j)
    c.write (i * ldc + j) v

/-- Syrk.h:66-70: `res->set(c, r, res->get(r, c))`. -/
def mirrorCell (h : Dense.Hdr) (r c : Nat) (m : Buf α) : Res (Buf α) := do
  let v ← h.get m r c
  h.set m c r v

/-- Syrk.h:50-71 and 75-96 (double, float). -/
def syrk (A : Arith α) (x : Dense.DM α) (tl : Bool) (junk : Nat → α) : Res (Dense.DM α) := do
  let n := if tl then x.h.numCols else x.h.numRows
  let k := if tl then x.h.numRows else x.h.numCols
  let res := Dense.DM.create n n junk
  let m ← blasSyrk A tl n k x res.h.rowSkip res.mem
  let m ← forLoop 0 n m fun r m => forLoop (r + 1) n m fun c m => mirrorCell res.h r c m
  .ok ⟨res.h, m⟩

/-- Gemv.h:49-60 and 63-74 (double, float): `cblas_?gemv(CblasRowMajor, CblasTrans, numRows, numCols, …)`. -/
def gemvDense (A : Arith α) (x v : Dense.DM α) (junk : Nat → α) : Res (Dense.DM α) := do
  let res := Dense.DM.create x.h.numCols 1 junk
  let m ← launchGemv A true true x.h.numRows x.h.numCols x v v.h.rowSkip res.h.rowSkip res.mem
  .ok ⟨res.h, m⟩

theorem new_pos {n c : Nat} {i j : Nat} (hi : i < n) (hj : j < c) : (Dense.Hdr.new n c).pos i j false = .ok (i * c + j) := by
  unfold Dense.Hdr.pos
  rw [if_neg (by simpa [Dense.Hdr.new] using hi), if_neg (by simpa [Dense.Hdr.new] using hj)]; rfl

theorem new_start (n c : Nat) : (Dense.Hdr.new n c).start = 0 ∧ (Dense.Hdr.new n c).isPartial = false := by
  simp [Dense.Hdr.new, Dense.Hdr.start, Dense.Hdr.isPartial]

theorem mirrorCell_ok {n r c : Nat} {m : Buf α} (hs : m.size = n * n) (hr : r < n) (hc : c < n) :
    mirrorCell (Dense.Hdr.new n n) r c m = .ok (m.put (c * n + r) (m.data (r * n + c))) := by
  have h1 := rm_lt hr hc (Nat.le_refl n)
  have h2 := rm_lt hc hr (Nat.le_refl n)
  unfold mirrorCell Dense.Hdr.get Dense.Hdr.set
  rw [(new_start n n).2, new_pos hr hc]
  simp only [Res.ok_bind]
  rw [(new_start n n).1, Nat.zero_add, Buf.read_eq (by omega)]
  simp only [Res.ok_bind]
  rw [new_pos hc hr]
  simp only [Res.ok_bind]
  rw [Nat.zero_add, Buf.write_eq (by omega)]

/-- **C160.** `syrk` yields `t(M) @ M` respectively `M @ t(M)`, both triangles, if multiplication commutes and the inner dimension is
positive. -/
theorem C160_syrk (A : Arith α) (hcomm : ∀ u w, A.mul u w = A.mul w u) (x : Dense.DM α) (a : Mat α) (hx : x.Is a) (tl : Bool)
    (hk : 0 < (flip tl a).cols) (junk : Nat → α) :
    Res.Ok (syrk A x tl junk) (fun z => z.Is (matProd A (flip tl a) (flip tl a).transpose)) := by
  have f1 : (if tl then x.h.numCols else x.h.numRows) = (flip tl a).rows := by rw [flip_rows, hx.rows, hx.cols]
  have f2 : (if tl then x.h.numRows else x.h.numCols) = (flip tl a).cols := by rw [flip_cols, hx.rows, hx.cols]
  unfold syrk
  simp only
  rw [f1, f2]
  generalize hn : (flip tl a).rows = n
  let f : Nat → Nat → α := fun i j => dot A (flip tl a).cols (fun p => (flip tl a).cell i p) (fun p => (flip tl a).cell j p)
  have hsym : ∀ i j, f i j = f j i := fun i j => dot_comm A hcomm _ _ _
  have hup : Res.Ok (blasSyrk A tl n (flip tl a).cols x (Dense.DM.create n n junk).h.rowSkip (Dense.DM.create n n junk).mem)
      (fun m => m.size = n * n ∧ ∀ i j, i < n → j < n → i ≤ j → m.data (i * n + j) = f i j) := by
    unfold blasSyrk
    by_cases hq : n = 0 ∨ x.h.rowSkip < max 1 (if tl then n else (flip tl a).cols)
    · rw [if_pos hq]
      refine Res.ok_iff.2 ⟨rfl, fun i j hi _ _ => ?_⟩
      exfalso
      have s1 := hx.wf.skip; have q1 := hx.cols
      rw [flip_cols] at hk hq; rw [flip_rows] at hn
      cases tl <;> simp at hk hn hq <;> omega
    · rw [if_neg hq]
      show Res.Ok (forLoop 0 n _ _) _
      refine (forLoop_ok (fun k (m : Buf α) => m.size = n * n ∧ ∀ i j, i < k → j < n → i ≤ j → m.data (i * n + j) = f i j)
        0 n _ (Nat.zero_le _) ⟨rfl, fun i j h => by omega⟩ ?_)
      rintro i m - hi ⟨i1, i2⟩
      refine (forLoop_ok (fun k (m' : Buf α) => m'.size = n * n ∧ (∀ i' j, i' < i → j < n → i' ≤ j → m'.data (i' * n + j) = f i' j) ∧
        ∀ j, i ≤ j → j < k → m'.data (i * n + j) = f i j) i n m (by omega) ⟨i1, i2, fun j h1 h2 => by omega⟩ ?_).mono ?_
      · rintro j m' h1 h2 ⟨k1, k2, k3⟩
        rw [dotLoop_ok A (fun p hp => opRead_ok hx tl (by omega) hp) (fun p hp => opRead_ok hx tl (by omega) hp)]
        simp only [Res.ok_bind]
        have hb := rm_lt hi h2 (Nat.le_refl n)
        have hres : (Dense.DM.create n n junk).h.rowSkip = n := rfl
        rw [hres, Buf.write_eq (by omega)]
        refine Res.ok_iff.2 ⟨by simpa using k1, fun i' j' hi' hj' hle => ?_, fun j' h3 h4 => ?_⟩
        · rw [Buf.put_data, if_neg, k2 i' j' hi' hj' hle]
          intro e; have := (rm_inj hj' h2 e).1; omega
        · rw [Buf.put_data]
          by_cases e : j' = j
          · subst e; rw [if_pos rfl]
          · rw [if_neg (by omega), k3 j' h3 (by omega)]
      · rintro m' ⟨k1, k2, k3⟩
        refine ⟨k1, fun i' j h1 h2 h3 => ?_⟩
        by_cases e : i' = i
        · subst e; exact k3 j h3 h2
        · exact k2 i' j (by omega) h2 h3
  refine hup.bind ?_
  rintro m0 ⟨s0, u0⟩
  refine (forLoop_ok (fun k (m : Buf α) => m.size = n * n ∧ (∀ i j, i < n → j < n → i ≤ j → m.data (i * n + j) = f i j) ∧
    ∀ i j, i < k → j < n → i < j → m.data (j * n + i) = f j i) 0 n m0 (Nat.zero_le _) ⟨s0, u0, fun i j h => by omega⟩ ?_).bind ?_
  · rintro r m - hr ⟨i1, i2, i3⟩
    refine (forLoop_ok (fun k (m' : Buf α) => m'.size = n * n ∧ (∀ i j, i < n → j < n → i ≤ j → m'.data (i * n + j) = f i j) ∧
      (∀ i j, i < r → j < n → i < j → m'.data (j * n + i) = f j i) ∧ ∀ j, r < j → j < k → m'.data (j * n + r) = f j r)
      (r + 1) n m (by omega) ⟨i1, i2, i3, fun j h1 h2 => by omega⟩ ?_).mono ?_
    · rintro c m' h1 h2 ⟨k1, k2, k3, k4⟩
      rw [show (Dense.DM.create n n junk).h = Dense.Hdr.new n n from rfl, mirrorCell_ok k1 hr h2]
      refine Res.ok_iff.2 ⟨by simpa using k1, fun i j hi hj hle => ?_, fun i j hi hj hlt => ?_, fun j h3 h4 => ?_⟩
      · rw [Buf.put_data, if_neg, k2 i j hi hj hle]
        intro e; obtain ⟨_, _⟩ := rm_inj hj hr e; omega
      · rw [Buf.put_data, if_neg, k3 i j hi hj hlt]
        intro e; obtain ⟨_, _⟩ := rm_inj (by omega) hr e; omega
      · rw [Buf.put_data]
        by_cases e : j = c
        · subst e; rw [if_pos rfl, k2 r j hr h2 (by omega), hsym]
        · rw [if_neg, k4 j h3 (by omega)]
          intro e2; exact e (rm_inj hr hr e2).1
    · rintro m' ⟨k1, k2, k3, k4⟩
      refine ⟨k1, k2, fun i j hi hj hlt => ?_⟩
      by_cases e : i = r
      · subst e; exact k4 j hlt hj
      · exact k3 i j (by omega) hj hlt
  · rintro m ⟨k1, k2, k3⟩
    have key : Dense.DM.Is ⟨Dense.Hdr.new n n, m⟩ ⟨n, n, f⟩ := Dense.is_new k1 fun i j hi hj => by
      rcases Nat.lt_or_ge j i with h | h
      · exact k3 j i hj hi h
      · exact k2 i j hi hj h
    refine Res.ok_iff.2 (key.congr ⟨hn.symm, hn.symm, fun i j _ _ => rfl⟩)

theorem gemvDense_ok (A : Arith α) (x v : Dense.DM α) (a b : Mat α) (hx : x.Is a) (hv : v.Is b) (hlen : a.rows ≤ b.rows) (hcol : b.cols = 1)
    (hpos : 0 < a.rows) (junk : Nat → α) : Res.Ok (gemvDense A x v junk) (fun z => z.Is (matProd A a.transpose b)) := by
  unfold gemvDense
  simp only
  rw [hx.cols]
  have hres : (Dense.DM.create a.cols 1 junk).h.rowSkip = 1 := rfl
  rw [hres]
  have hloop := gemvLoop_ok A (y := v) hx true v.h.rowSkip (g := fun p => b.cell p 0)
    (fun p hp => vecRead_col hv (Nat.lt_of_lt_of_le hp hlen) (by omega)) (Dense.DM.create a.cols 1 junk).mem (by simp [Dense.DM.create, flip, Mat.transpose])
  rw [hx.cols] at hloop
  have hfin : ∀ m : Buf α, (m.size = (flip true a).rows * 1 ∧ ∀ i j, i < (flip true a).rows → j < 1 → m.data (i * 1 + j) =
      dot A (flip true a).cols (fun k => (flip true a).cell i k) (fun p => b.cell p 0)) →
      Res.Ok (.ok ⟨(Dense.DM.create a.cols 1 junk).h, m⟩ : Res (Dense.DM α)) (fun z => z.Is (matProd A a.transpose b)) := by
    rintro m ⟨k1, k2⟩
    have : Dense.DM.Is ⟨Dense.Hdr.new a.cols 1, m⟩ ⟨a.cols, 1, (matProd A a.transpose b).cell⟩ := Dense.is_new k1 fun r c hr hc => by
      have hc0 : c = 0 := by omega
      rw [k2 r c hr hc, hc0]; rfl
    refine Res.ok_iff.2 (this.congr ⟨rfl, hcol.symm, fun _ _ _ _ => rfl⟩)
  unfold launchGemv
  by_cases hq : true = true ∧ (x.h.numRows = 0 ∨ a.cols = 0 ∨ x.h.rowSkip < max 1 a.cols)
  · rw [if_pos hq]
    simp only [Res.ok_bind]
    refine hfin _ ⟨rfl, fun i j h1 _ => ?_⟩
    exfalso
    have s1 := hx.wf.skip; have := hx.rows; have := hx.cols
    simp only [flip, if_true, Mat.transpose] at h1
    omega
  · rw [if_neg hq]
    exact hloop.bind hfin

/-- **C161.** `gemv` on dense operands yields `t(M) @ v` for every column vector `v` whose length is the (positive) number of rows of `M`. -/
theorem C161_gemv (A : Arith α) (x v : Dense.DM α) (a b : Mat α) (hx : x.Is a) (hv : v.Is b) (hlen : b.rows = a.rows) (hcol : b.cols = 1)
    (hpos : 0 < a.rows) (junk : Nat → α) : Res.Ok (gemvDense A x v junk) (fun z => z.Is (matProd A a.transpose b)) :=
  gemvDense_ok A x v a b hx hv (by omega) hcol hpos junk

/-- **C163 (refuted).** `gemv` does not check the length of the vector: where the multiplication it replaces throws, it silently ignores
the surplus elements of a longer vector. -/
theorem C163_gemv_unchecked_partial (A : Arith α) (x y v : Dense.DM α) (a b : Mat α) (hx : x.Is a) (hy : y.Is a.transpose) (hv : v.Is b)
    (hlen : a.rows < b.rows) (hcol : b.cols = 1) (hpos : 0 < a.rows) (junk : Nat → α) :
    Res.Throws (denseDense A true y v false false junk) ∧
    Res.Ok (gemvDense A x v junk) (fun z => z.Is (matProd A a.transpose (b.window 0 a.rows 0 1))) := by
  refine ⟨(C158_dense_times_dense A true y v _ _ hy hv false false junk).2 ?_, (gemvDense_ok A x v a b hx hv (by omega) hcol hpos junk).mono ?_⟩
  · show a.rows ≠ b.rows
    omega
  · intro z hz
    refine hz.congr ⟨rfl, hcol, fun i j _ hj => ?_⟩
    have hj0 : j = 0 := by have : j < b.cols := hj
                           omega
    subst hj0
    exact dot_congr A _ (fun _ _ => rfl) fun k _ => by simp [Mat.window]

end Verif.Mm
