/-
  Model of the sparse × sparse matrix multiplication, src/runtime/local/kernels/MatMul.h:338-384, and the proof that it yields the matrix
  product and that the estimated number of entries of the result always suffices.
-/
import Verif.Mm.DenseCsr
import Verif.Csr.Set
import Mathlib.Data.List.Perm.Subperm

namespace Verif.Mm
open Verif Verif.Csr
variable {α : Type}

/-- MatMul.h:376-377: `while (i < endRhsRow && colIdxsRhs[i] < col) i++`; the first argument bounds the number of iterations
(`endRhsRow - i` suffices). -/
def scanCol (cols : Buf Nat) (col e : Nat) : Nat → Nat → Res Nat
  | 0, i => .ok i
  | fuel + 1, i =>
    if i < e then do
      let c ← cols.read i
      if c < col then scanCol cols col e fuel (i + 1) else .ok i
    else .ok i

/-- MatMul.h:378-379: add the product if the entry was found. -/
def addIfHit (A : Arith α) (y : CM α) (col e i : Nat) (v sum : α) : Res α :=
  if i < e then do
    let c ← y.mem.cols.read i
    if c = col then do
      let w ← y.mem.vals.read i
      .ok (A.add sum (A.mul v w))
    else .ok sum
  else .ok sum

/-- MatMul.h:364-380: the value of one result cell. -/
def csrCsrCell (A : Arith α) (x y : CM α) (row col : Nat) : Res α := do
  let b ← x.h.off x.mem row
  let e ← x.h.off x.mem (row + 1)
  forLoop b e A.zero fun j sum => do
    let k ← x.mem.cols.read j
    let i ← y.h.off y.mem k
    let re ← y.h.off y.mem (k + 1)
    let i ← scanCol y.mem.cols col re (re - i) i
    let v ← x.mem.vals.read j
    addIfHit A y col re i v sum

/-- MatMul.h:340-383. Simplification: the product of the two numbers of entries does not overflow `size_t`. -/
def csrCsr [DecidableEq α] (A : Arith α) (x y : CM α) : Res (CM α) :=
  if x.h.numCols ≠ y.h.numRows then .error (.throw "#cols of lhs and #rows of rhs must be the same")
  else do
    let n1 ← x.h.numNonZeros x.mem
    let n2 ← y.h.numNonZeros y.mem
    let res := CM.createZero x.h.numRows y.h.numCols (n1 * n2) A.zero
    let m ← forLoop 0 x.h.numRows res.mem fun r m => forLoop 0 y.h.numCols m fun c m => do
      let v ← csrCsrCell A x y r c
      res.h.set A.zero m r c v
    .ok ⟨res.h, m⟩

theorem scanCol_ok {zero : α} {cols : Buf Nat} {vals : Nat → α} {b e C col : Nat} {cell : Nat → α}
    (h : RowOk zero cols.data vals b e C cell) (hs : e ≤ cols.size) : ∀ (fuel i : Nat), b ≤ i → i ≤ e → e ≤ i + fuel →
    (∀ p, b ≤ p → p < i → cols.data p < col) →
    ∃ i', scanCol cols col e fuel i = .ok i' ∧ b ≤ i' ∧ i' ≤ e ∧ (∀ p, b ≤ p → p < i' → cols.data p < col) ∧ (i' < e → col ≤ cols.data i')
  | 0, i, h1, h2, h3, h4 => ⟨i, rfl, h1, h2, h4, fun h5 => by omega⟩
  | fuel + 1, i, h1, h2, h3, h4 => by
    unfold scanCol
    by_cases hi : i < e
    · rw [if_pos hi, Buf.read_eq (by omega)]
      simp only [Res.ok_bind]
      by_cases hc : cols.data i < col
      · rw [if_pos hc]
        refine scanCol_ok h hs fuel (i + 1) (by omega) (by omega) (by omega) fun p p1 p2 => ?_
        by_cases e2 : p = i
        · subst e2; exact hc
        · exact h4 p p1 (by omega)
      · rw [if_neg hc]
        exact ⟨i, rfl, h1, h2, h4, fun _ => by omega⟩
    · rw [if_neg hi]
      exact ⟨i, rfl, h1, h2, h4, fun h5 => by omega⟩

theorem csrCsrCell_ok (A : Arith α) (hz1 : ∀ s w, A.add s (A.mul A.zero w) = s) (hz2 : ∀ s v, A.add s (A.mul v A.zero) = s)
    {x y : CM α} {a b : Mat α} (hx : x.Is A.zero a) (hy : y.Is A.zero b) (hd : a.cols = b.rows) {r c : Nat} (hr : r < a.rows) (hc : c < b.cols) :
    csrCsrCell A x y r c = .ok ((matProd A a b).cell r c) := by
  have e1 := hx.rows; have g1 := hy.rows
  have tx := hx.wf.rowTop (r := r) (by omega)
  have hA := hx.row hr
  unfold csrCsrCell
  rw [hx.wf.off (by omega), hx.wf.off (by omega)]
  simp only [Res.ok_bind]
  have key : Res.Ok (forLoop (x.o r) (x.o (r + 1)) A.zero fun j sum => do
      let k ← x.mem.cols.read j
      let i ← y.h.off y.mem k
      let re ← y.h.off y.mem (k + 1)
      let i ← scanCol y.mem.cols c re (re - i) i
      let v ← x.mem.vals.read j
      addIfHit A y c re i v sum) (fun s => s = (List.range' (x.o r) (x.o (r + 1) - x.o r)).foldl
        (fun acc i => A.add acc (A.mul (x.mem.vals.data i) (b.cell (x.mem.cols.data i) c))) A.zero) := by
    refine forLoop_ok (fun i s => s = (List.range' (x.o r) (i - x.o r)).foldl
        (fun acc i => A.add acc (A.mul (x.mem.vals.data i) (b.cell (x.mem.cols.data i) c))) A.zero) (x.o r) (x.o (r + 1)) A.zero hA.le
        (by simp) ?_
    rintro j s h1 h2 rfl
    have bj := hA.bound j h1 h2
    rw [Buf.read_eq (by omega)]
    simp only [Res.ok_bind]
    generalize hk : x.mem.cols.data j = k at bj
    have ty := hy.wf.rowTop (r := k) (by omega)
    have hB := hy.row (r := k) (by omega)
    rw [hy.wf.off (by omega), hy.wf.off (by omega)]
    simp only [Res.ok_bind]
    have hle := hB.le
    obtain ⟨i, i0, i1, i2, i3, i4⟩ := scanCol_ok (col := c) hB (by omega) (y.o (k + 1) - y.o k) (y.o k) (Nat.le_refl _) hB.le (by omega)
      (fun p p1 p2 => by omega)
    rw [i0]
    simp only [Res.ok_bind]
    rw [Buf.read_eq (by omega)]
    simp only [Res.ok_bind]
    have hsum : ∀ s v, addIfHit A y c (y.o (k + 1)) i v s = .ok (A.add s (A.mul v (b.cell k c))) := by
      intro s v
      unfold addIfHit
      by_cases hi : i < y.o (k + 1)
      · rw [if_pos hi, Buf.read_eq (by omega)]
        simp only [Res.ok_bind]
        by_cases hcc : y.mem.cols.data i = c
        · rw [if_pos hcc, Buf.read_eq (by omega)]
          simp only [Res.ok_bind]
          rw [← hB.entry i i1 hi, hcc]
        · rw [if_neg hcc, hB.rest c hc, hz2]
          intro p p1 p2 p3
          have := i4 hi
          rcases Nat.lt_trichotomy p i with h5 | h5 | h5
          · have := i3 p p1 h5; omega
          · subst h5; exact hcc p3
          · have := hB.sorted i p i1 h5 p2; omega
      · rw [if_neg hi, hB.rest c hc, hz2]
        intro p p1 p2 p3
        have := i3 p p1 (by omega); omega
    rw [hsum]
    refine Res.ok_iff.2 ?_
    rw [show j + 1 - x.o r = (j - x.o r) + 1 by omega, List.range'_concat, List.foldl_append]
    simp only [List.foldl_cons, List.foldl_nil, Nat.one_mul]
    rw [show x.o r + (j - x.o r) = j by omega, hk]
  obtain ⟨s, hs, rfl⟩ := key
  rw [hs, sparse_dot A hz1 (g := fun k => b.cell k c) hA]
  rfl

/-! ### How many cells of the product can be non-zero -/

/-- Number of columns below `n` in which row `r` of the matrix is not zero. -/
def nzRow [DecidableEq α] (zero : α) (p : Mat α) (r n : Nat) : Nat := ((List.range n).filter fun c => decide (p.cell r c ≠ zero)).length

/-- Number of non-zero cells in the first `r` rows. -/
def nzRows [DecidableEq α] (zero : α) (p : Mat α) : Nat → Nat
  | 0 => 0
  | r + 1 => nzRows zero p r + nzRow zero p r p.cols

theorem nzRow_succ [DecidableEq α] (zero : α) (p : Mat α) (r n : Nat) :
    nzRow zero p r (n + 1) = nzRow zero p r n + if p.cell r n = zero then 0 else 1 := by
  unfold nzRow
  rw [List.range_succ, List.filter_append, List.length_append]
  congr 1
  by_cases h : p.cell r n = zero <;> simp [h]

theorem nzRow_mono [DecidableEq α] (zero : α) (p : Mat α) (r : Nat) {m n : Nat} (h : m ≤ n) : nzRow zero p r m ≤ nzRow zero p r n := by
  induction n with
  | zero => have : m = 0 := by omega
            subst this; exact Nat.le_refl _
  | succ n ih =>
    rw [nzRow_succ]
    by_cases e : m = n + 1
    · subst e; rw [nzRow_succ]
    · have := ih (by omega); omega

theorem nzRows_mono [DecidableEq α] (zero : α) (p : Mat α) {m n : Nat} (h : m ≤ n) : nzRows zero p m ≤ nzRows zero p n := by
  induction n with
  | zero => have : m = 0 := by omega
            subst this; exact Nat.le_refl _
  | succ n ih =>
    by_cases e : m = n + 1
    · subst e; exact Nat.le_refl _
    · have := ih (by omega); simp only [nzRows]; omega

/-- A non-zero cell of the product needs an entry in the row of the left and one in the column of the right operand. -/
theorem nz_witness (A : Arith α) (hz1 : ∀ s w, A.add s (A.mul A.zero w) = s) (hz2 : ∀ s v, A.add s (A.mul v A.zero) = s)
    {x y : CM α} {a b : Mat α} (hx : x.Is A.zero a) (hy : y.Is A.zero b) (hd : a.cols = b.rows) {r c : Nat} (hr : r < a.rows) (hc : c < b.cols)
    (h : (matProd A a b).cell r c ≠ A.zero) : x.o r < x.o (r + 1) ∧ ∃ i, y.o 0 ≤ i ∧ i < y.o b.rows ∧ y.mem.cols.data i = c := by
  have g1 := hy.rows
  by_contra hcon
  apply h
  show dot A a.cols _ _ = _
  have hA := hx.row hr
  refine (dot_tail A (m := 0) (Nat.zero_le _) fun k _ hk s => ?_).trans rfl
  by_cases hrow : x.o r < x.o (r + 1)
  · have hB := hy.row (r := k) (by omega)
    show A.add s (A.mul (a.cell r k) (b.cell k c)) = s
    rw [hB.rest c hc, hz2]
    intro p p1 p2 p3
    apply hcon
    have h1 := hy.wf.mono' (r := 0) (r' := k) (Nat.zero_le _) (by omega)
    have h2 := hy.wf.mono' (r := k + 1) (r' := b.rows) (by omega) (by omega)
    exact ⟨hrow, p, by omega, by omega, p3⟩
  · show A.add s (A.mul (a.cell r k) (b.cell k c)) = s
    rw [hA.rest k hk, hz1]
    intro p p1 p2; omega

theorem nzRow_le [DecidableEq α] (A : Arith α) (hz1 : ∀ s w, A.add s (A.mul A.zero w) = s) (hz2 : ∀ s v, A.add s (A.mul v A.zero) = s)
    {x y : CM α} {a b : Mat α} (hx : x.Is A.zero a) (hy : y.Is A.zero b) (hd : a.cols = b.rows) {r : Nat} (hr : r < a.rows) :
    nzRow A.zero (matProd A a b) r b.cols ≤ (x.o (r + 1) - x.o r) * (y.o b.rows - y.o 0) := by
  by_cases hrow : x.o r < x.o (r + 1)
  · have h1 : nzRow A.zero (matProd A a b) r b.cols ≤ y.o b.rows - y.o 0 := by
      unfold nzRow
      have hsub : ((List.range b.cols).filter fun c => decide ((matProd A a b).cell r c ≠ A.zero)) ⊆
          (List.range' (y.o 0) (y.o b.rows - y.o 0)).map y.mem.cols.data := by
        intro c hc
        rw [List.mem_filter, List.mem_range, decide_eq_true_eq] at hc
        obtain ⟨_, i, i1, i2, i3⟩ := nz_witness A hz1 hz2 hx hy hd hr hc.1 hc.2
        exact List.mem_map.2 ⟨i, by rw [List.mem_range'_1]; omega, i3⟩
      have := ((List.nodup_range.filter _).subperm hsub).length_le
      simpa using this
    calc _ ≤ 1 * (y.o b.rows - y.o 0) := by omega
      _ ≤ _ := Nat.mul_le_mul_right _ (by omega)
  · have : nzRow A.zero (matProd A a b) r b.cols = 0 := by
      unfold nzRow
      rw [List.length_eq_zero_iff, List.filter_eq_nil_iff]
      intro c hc
      simp only [decide_eq_true_eq, not_not]
      by_contra h
      exact hrow (nz_witness A hz1 hz2 hx hy hd hr (List.mem_range.1 hc) h).1
    omega

theorem nzRows_le [DecidableEq α] (A : Arith α) (hz1 : ∀ s w, A.add s (A.mul A.zero w) = s) (hz2 : ∀ s v, A.add s (A.mul v A.zero) = s)
    {x y : CM α} {a b : Mat α} (hx : x.Is A.zero a) (hy : y.Is A.zero b) (hd : a.cols = b.rows) : ∀ (r : Nat), r ≤ a.rows →
    nzRows A.zero (matProd A a b) r ≤ (x.o r - x.o 0) * (y.o b.rows - y.o 0)
  | 0, _ => by simp [nzRows]
  | r + 1, hr => by
    have e1 := hx.rows
    have ih := nzRows_le A hz1 hz2 hx hy hd r (by omega)
    have h := nzRow_le A hz1 hz2 hx hy hd (r := r) (by omega)
    have m1 := hx.wf.mono' (r := 0) (r' := r) (Nat.zero_le _) (by omega)
    have m2 := hx.wf.mono r (by omega)
    simp only [nzRows]
    have : (x.o (r + 1) - x.o 0) = (x.o r - x.o 0) + (x.o (r + 1) - x.o r) := by omega
    rw [this, Nat.add_mul]
    exact Nat.add_le_add ih h

/-- The product restricted to the cells before `(r, c)` in row-major order, the rest still zero. -/
def upto (zero : α) (p : Mat α) (r c : Nat) : Mat α :=
  ⟨p.rows, p.cols, fun i j => if i < r ∨ (i = r ∧ j < c) then p.cell i j else zero⟩

/-- Loop invariant. -/
structure CInv [DecidableEq α] (zero : α) (p : Mat α) (cap r c : Nat) (m : CMem α) : Prop where
  is : CM.Is zero ⟨whole p.rows p.cols, m⟩ (upto zero p r c)
  sv : m.vals.size = cap
  sc : m.cols.size = cap
  nz : ∀ q, q < m.offs.data p.rows → m.vals.data q ≠ zero
  cnt : m.offs.data p.rows = nzRows zero p r + nzRow zero p r c

theorem cinv_step [DecidableEq α] {zero : α} {p : Mat α} {cap r c : Nat} {m : CMem α} (h : CInv zero p cap r c m) (hr : r < p.rows)
    (hc : c < p.cols) (hcap : nzRows zero p r + nzRow zero p r (c + 1) ≤ cap) :
    Res.Ok ((whole p.rows p.cols).set zero m r c (p.cell r c)) (CInv zero p cap r (c + 1)) := by
  have hold : (upto zero p r c).cell r c = zero := by simp [upto]
  have hon : (whole p.rows p.cols).On p.rows p.cols := ⟨by simp [whole, CHdr.new], by simp [whole, CHdr.new], rfl⟩
  rw [nzRow_succ] at hcap
  have room : (m.offs.data p.rows < m.vals.size ∧ m.offs.data p.rows < m.cols.size) ∨
      ((p.cell r c = zero ↔ (upto zero p r c).cell ((whole p.rows p.cols).rowOff + r) c = zero) ∧
        ∀ q, q < m.offs.data p.rows → m.vals.data q ≠ zero) := by
    by_cases hv : p.cell r c = zero
    · right
      refine ⟨?_, h.nz⟩
      simp only [whole, CHdr.new, Nat.zero_add, hold, hv]
    · left
      rw [if_neg hv] at hcap
      rw [h.sv, h.sc, h.cnt]; omega
  refine (set_ok h.is hon (by simpa [whole, CHdr.new] using hr) hc (p.cell r c) room).mono ?_
  rintro m' ⟨k1, k2, k3, k4⟩
  obtain ⟨k5, k6⟩ := k4 h.nz
  refine ⟨?_, k2.trans h.sv, k3.trans h.sc, k5, ?_⟩
  · refine k1.congr ⟨rfl, rfl, fun i j hi hj => ?_⟩
    simp only [Mat.setCell, upto, whole, CHdr.new, Nat.zero_add]
    by_cases e : i = r ∧ j = c
    · obtain ⟨rfl, rfl⟩ := e
      simp
    · rw [if_neg e]
      by_cases h1 : i < r ∨ (i = r ∧ j < c)
      · rw [if_pos h1, if_pos (by omega)]
      · rw [if_neg h1, if_neg (by omega)]
  · rw [k6, h.cnt, nzRow_succ]
    simp only [whole, CHdr.new, Nat.zero_add, hold]
    by_cases hv : p.cell r c = zero
    · simp [hv, nnzAfter]
    · simp [hv, nnzAfter]; omega

theorem cinv_row [DecidableEq α] {zero : α} {p : Mat α} {cap r : Nat} {m : CMem α} (h : CInv zero p cap r p.cols m) : CInv zero p cap (r + 1) 0 m := by
  refine ⟨h.is.congr ⟨rfl, rfl, fun i j hi hj => ?_⟩, h.sv, h.sc, h.nz, ?_⟩
  · simp only [upto] at hi hj ⊢
    by_cases h1 : i < r ∨ (i = r ∧ j < p.cols)
    · rw [if_pos h1, if_pos (by omega)]
    · rw [if_neg h1, if_neg (by omega)]
  · rw [h.cnt]; simp [nzRows, nzRow]

/-- **C157.** Sparse × sparse multiplication yields the matrix product, as a well-formed sparse matrix, and never overruns the arrays
that were allocated from the estimate; operands of unequal inner dimension are rejected by an exception. -/
theorem C157_sparse_times_sparse [DecidableEq α] (A : Arith α) (hz1 : ∀ s w, A.add s (A.mul A.zero w) = s)
    (hz2 : ∀ s v, A.add s (A.mul v A.zero) = s) (x y : CM α) (a b : Mat α) (hx : x.Is A.zero a) (hy : y.Is A.zero b) :
    (a.cols = b.rows → Res.Ok (csrCsr A x y) (fun z => z.Is A.zero (matProd A a b))) ∧
    (a.cols ≠ b.rows → Res.Throws (csrCsr A x y)) := by
  have e1 := hx.rows; have e2 := hx.cols; have g1 := hy.rows; have g2 := hy.cols
  refine ⟨fun hd => ?_, fun hd => ?_⟩
  · unfold csrCsr
    rw [if_neg (by omega)]
    have n1 : x.h.numNonZeros x.mem = .ok (x.o a.rows - x.o 0) := by
      unfold CHdr.numNonZeros
      rw [hx.wf.off (Nat.le_refl _), hx.wf.off (Nat.zero_le _), e1]; rfl
    have n2 : y.h.numNonZeros y.mem = .ok (y.o b.rows - y.o 0) := by
      unfold CHdr.numNonZeros
      rw [hy.wf.off (Nat.le_refl _), hy.wf.off (Nat.zero_le _), g1]; rfl
    rw [n1, n2]
    simp only [Res.ok_bind]
    rw [e1, g2]
    generalize hcap : (x.o a.rows - x.o 0) * (y.o b.rows - y.o 0) = cap
    have hbound : ∀ r c, r < a.rows → c ≤ b.cols → nzRows A.zero (matProd A a b) r + nzRow A.zero (matProd A a b) r c ≤ cap := by
      intro r c hr hc
      have h1 := nzRows_le A hz1 hz2 hx hy hd a.rows (Nat.le_refl _)
      have h2 := nzRows_mono A.zero (matProd A a b) (m := r + 1) (n := a.rows) hr
      have h3 := nzRow_mono A.zero (matProd A a b) r hc
      simp only [nzRows] at h2
      have h4 : (matProd A a b).cols = b.cols := rfl
      rw [h4] at h2
      omega
    have h0 : CInv A.zero (matProd A a b) cap 0 0 (CM.createZero a.rows b.cols cap A.zero).mem := by
      have ho : ∀ r, CM.o ⟨whole a.rows b.cols, (CM.createZero a.rows b.cols cap A.zero).mem⟩ r = 0 := fun r => rfl
      refine ⟨CM.Is.ofRows rfl rfl ?_ ?_ ?_ fun r hr => ?_, rfl, rfl, ?_, ?_⟩
      · simp [whole, CHdr.new, CM.createZero, matProd]
      · rw [show (⟨whole (matProd A a b).rows (matProd A a b).cols, (CM.createZero a.rows b.cols cap A.zero).mem⟩ : CM α) =
          ⟨whole a.rows b.cols, (CM.createZero a.rows b.cols cap A.zero).mem⟩ from rfl, ho]; exact Nat.zero_le _
      · rw [show (⟨whole (matProd A a b).rows (matProd A a b).cols, (CM.createZero a.rows b.cols cap A.zero).mem⟩ : CM α) =
          ⟨whole a.rows b.cols, (CM.createZero a.rows b.cols cap A.zero).mem⟩ from rfl, ho]; exact Nat.zero_le _
      · rw [show (⟨whole (matProd A a b).rows (matProd A a b).cols, (CM.createZero a.rows b.cols cap A.zero).mem⟩ : CM α) =
          ⟨whole a.rows b.cols, (CM.createZero a.rows b.cols cap A.zero).mem⟩ from rfl, ho, ho]
        exact ⟨Nat.le_refl _, by omega, by omega, by omega, fun c hc _ => by simp [upto]⟩
      · intro q hq; simp [CM.createZero] at hq
      · simp [CM.createZero, nzRows, nzRow]
    refine (forLoop_ok (fun r m => CInv A.zero (matProd A a b) cap r 0 m) 0 a.rows _ (Nat.zero_le _) h0 ?_).bind ?_
    · rintro r m - hr inv
      refine (forLoop_ok (fun c m => CInv A.zero (matProd A a b) cap r c m) 0 b.cols m (Nat.zero_le _) inv ?_).mono fun m' h => cinv_row h
      rintro c m' - hc inv'
      rw [csrCsrCell_ok A hz1 hz2 hx hy hd hr hc]
      simp only [Res.ok_bind]
      exact cinv_step inv' hr hc (hbound r (c + 1) hr (by omega))
    · rintro m inv
      refine Res.ok_iff.2 (inv.is.congr ⟨rfl, rfl, fun i j hi hj => ?_⟩)
      simp only [upto] at hi ⊢
      have : i < a.rows := hi
      rw [if_pos (.inl this)]
  · unfold csrCsr
    rw [if_pos (by omega)]
    exact ⟨_, rfl⟩

end Verif.Mm
