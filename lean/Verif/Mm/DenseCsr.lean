/-
  Model of the dense × sparse matrix multiplication (src/runtime/local/kernels/MatMul.h:256-296) and of the kernel for the abstract
  supertype `Matrix` (MatMul.h:302-332), with proofs that they yield the matrix product.
-/
import Verif.Mm.CsrDense
import Verif.Dense.Append

namespace Verif.Mm
open Verif Verif.Csr
variable {α : Type}

/-- MatMul.h:281-292: the contribution of row `n` of the right-hand side to row `r` of the result. -/
def denseCsrRow (A : Arith α) (x : Dense.DM α) (y : CM α) (res : Dense.DM α) (r n : Nat) (m : Buf α) : Res (Buf α) := do
  let lhsVal ← x.mem.read (x.addr r n)
  let k ← y.h.rowNumNonZeros y.mem n
  let b ← y.h.rowPtr y.mem n
  forLoop b (b + k) m fun i m => do
    let c ← y.mem.cols.read i
    let v ← y.mem.vals.read i
    let old ← m.read (res.addr r c)
    m.write (res.addr r c) (A.add old (A.mul lhsVal v))

/-- MatMul.h:257-295. -/
def denseCsr (A : Arith α) (x : Dense.DM α) (y : CM α) : Res (Dense.DM α) :=
  if x.h.numCols ≠ y.h.numRows then .error (.throw "#cols of lhs and #rows of rhs must be the same")
  else do
    let res := Dense.DM.createZero x.h.numRows y.h.numCols A.zero
    let m ← forLoop 0 x.h.numRows res.mem fun r m => forLoop 0 y.h.numRows m fun n m => denseCsrRow A x y res r n m
    .ok ⟨res.h, m⟩

theorem denseCsrRow_ok (A : Arith α) (hz : ∀ s v, A.add s (A.mul v A.zero) = s) {x : Dense.DM α} {y : CM α} {a b : Mat α} (hx : x.Is a)
    (hy : y.Is A.zero b) (hd : a.cols = b.rows) {r n : Nat} (hr : r < a.rows) (hn : n < b.rows) (m : Buf α) (hs : m.size = a.rows * b.cols) :
    Res.Ok (denseCsrRow A x y (Dense.DM.createZero a.rows b.cols A.zero) r n m) (fun m' => m'.size = a.rows * b.cols ∧
      ∀ r' c, r' < a.rows → c < b.cols → m'.data (r' * b.cols + c) =
        if r' = r then A.add (m.data (r * b.cols + c)) (A.mul (a.cell r n) (b.cell n c)) else m.data (r' * b.cols + c)) := by
  have e1 := hy.rows; have e2 := hy.cols
  have haddr : ∀ r c, (Dense.DM.createZero a.rows b.cols A.zero).addr r c = r * b.cols + c := by
    intro r c; simp [Dense.DM.createZero, Dense.DM.addr, Dense.Hdr.new, Dense.Hdr.start, Dense.Hdr.isPartial]
  have hB := hy.row hn
  have ty := hy.wf.rowTop (r := n) (by omega)
  have my := hy.wf.mono n (by omega)
  unfold denseCsrRow
  rw [hx.read hr (by omega), hy.wf.rowNum (by omega), hy.wf.rowPtr (by omega)]
  simp only [Res.ok_bind]
  rw [show y.o n + (y.o (n + 1) - y.o n) = y.o (n + 1) by omega]
  refine (forLoop_ok (fun i (m' : Buf α) => m'.size = a.rows * b.cols ∧ ∀ r' c, r' < a.rows → c < b.cols →
    (r' ≠ r → m'.data (r' * b.cols + c) = m.data (r' * b.cols + c)) ∧
    (r' = r → ((∃ q, y.o n ≤ q ∧ q < i ∧ y.mem.cols.data q = c) →
        m'.data (r' * b.cols + c) = A.add (m.data (r * b.cols + c)) (A.mul (a.cell r n) (b.cell n c))) ∧
      ((∀ q, y.o n ≤ q → q < i → y.mem.cols.data q ≠ c) → m'.data (r' * b.cols + c) = m.data (r * b.cols + c))))
    (y.o n) (y.o (n + 1)) m my ⟨hs, fun r' c _ _ => ⟨fun _ => rfl, fun h => ⟨?_, fun _ => by rw [h]⟩⟩⟩ ?_).mono ?_
  · rintro ⟨q, q1, q2, _⟩; omega
  · rintro i m' h1 h2 ⟨k1, k2⟩
    have bi := hB.bound i h1 h2
    rw [Buf.read_eq (by omega)]
    simp only [Res.ok_bind]
    rw [Buf.read_eq (by omega)]
    simp only [Res.ok_bind]
    have hin : r * b.cols + y.mem.cols.data i < a.rows * b.cols := rm_lt hr bi (Nat.le_refl _)
    rw [haddr, Buf.read_eq (by omega)]
    simp only [Res.ok_bind]
    rw [Buf.write_eq (by omega)]
    refine Res.ok_iff.2 ⟨by simpa using k1, fun r' c hr' hc' => ?_⟩
    obtain ⟨l1, l2⟩ := k2 r' c hr' hc'
    rw [Buf.put_data]
    by_cases e : r' * b.cols + c = r * b.cols + y.mem.cols.data i
    · obtain ⟨rfl, rfl⟩ := rm_inj hc' bi e
      rw [if_pos rfl]
      refine ⟨fun h => absurd rfl h, fun _ => ⟨fun _ => ?_, fun h => absurd rfl (h i h1 (by omega))⟩⟩
      rw [(l2 rfl).2 ?_, ← hB.entry i h1 h2]
      intro q q1 q2 q3
      have := hB.sorted q i q1 q2 h2
      omega
    · rw [if_neg e]
      refine ⟨l1, fun hrr => ⟨?_, fun h => (l2 hrr).2 fun q q1 q2 => h q q1 (by omega)⟩⟩
      rintro ⟨q, q1, q2, q3⟩
      refine (l2 hrr).1 ⟨q, q1, ?_, q3⟩
      by_contra hh
      have : q = i := by omega
      subst this
      exact e (by rw [hrr, q3])
  · rintro m' ⟨k1, k2⟩
    refine ⟨k1, fun r' c hr' hc' => ?_⟩
    obtain ⟨l1, l2⟩ := k2 r' c hr' hc'
    by_cases h2 : r' = r
    · rw [if_pos h2]
      by_cases hex : ∃ q, y.o n ≤ q ∧ q < y.o (n + 1) ∧ y.mem.cols.data q = c
      · exact (l2 h2).1 hex
      · have hno : ∀ q, y.o n ≤ q → q < y.o (n + 1) → y.mem.cols.data q ≠ c := fun q q1 q2 q3 => hex ⟨q, q1, q2, q3⟩
        rw [(l2 h2).2 hno, hB.rest c hc' hno, hz]
    · rw [if_neg h2]; exact l1 h2

/-- **C155.** Dense × sparse multiplication yields the matrix product; operands of unequal inner dimension are rejected by an exception. -/
theorem C155_dense_times_sparse (A : Arith α) (hz : ∀ s v, A.add s (A.mul v A.zero) = s) (x : Dense.DM α) (y : CM α) (a b : Mat α)
    (hx : x.Is a) (hy : y.Is A.zero b) :
    (a.cols = b.rows → Res.Ok (denseCsr A x y) (fun z => z.Is (matProd A a b))) ∧
    (a.cols ≠ b.rows → Res.Throws (denseCsr A x y)) := by
  have e1 := hx.rows; have e2 := hx.cols; have g1 := hy.rows; have g2 := hy.cols
  refine ⟨fun hd => ?_, fun hd => ?_⟩
  · unfold denseCsr
    rw [if_neg (by omega)]
    simp only
    rw [e1, g2, g1]
    refine (forLoop_ok (fun k (m : Buf α) => m.size = a.rows * b.cols ∧ ∀ r c, r < a.rows → c < b.cols →
      m.data (r * b.cols + c) = if r < k then dot A a.cols (fun k => a.cell r k) (fun k => b.cell k c) else A.zero)
      0 a.rows _ (Nat.zero_le _) ⟨by simp [Dense.DM.createZero], fun r c _ _ => by simp [Dense.DM.createZero]⟩ ?_).bind ?_
    · rintro k m - hk ⟨i1, i2⟩
      refine (forLoop_ok (fun n (m' : Buf α) => m'.size = a.rows * b.cols ∧ ∀ r c, r < a.rows → c < b.cols →
        m'.data (r * b.cols + c) = if r = k then dot A n (fun k => a.cell r k) (fun k => b.cell k c) else m.data (r * b.cols + c))
        0 b.rows m (Nat.zero_le _) ⟨i1, fun r c hr hc => ?_⟩ ?_).mono ?_
      · split
        · rename_i h; rw [i2 r c hr hc, if_neg (by omega)]; rfl
        · rfl
      · rintro n m' - hn ⟨j1, j2⟩
        refine (denseCsrRow_ok A hz hx hy hd hk hn m' j1).mono ?_
        rintro m'' ⟨k1, k2⟩
        refine ⟨k1, fun r c hr hc => ?_⟩
        rw [k2 r c hr hc]
        by_cases h : r = k
        · subst h
          rw [if_pos rfl, if_pos rfl, j2 r c hr hc, if_pos rfl]; rfl
        · rw [if_neg h, if_neg h, j2 r c hr hc, if_neg h]
      · rintro m' ⟨j1, j2⟩
        refine ⟨j1, fun r c hr hc => ?_⟩
        rw [j2 r c hr hc, ← hd]
        by_cases h : r = k
        · rw [if_pos h, if_pos (by omega)]
        · rw [if_neg h, i2 r c hr hc]
          by_cases h2 : r < k
          · rw [if_pos h2, if_pos (by omega)]
          · rw [if_neg h2, if_neg (by omega)]
    · rintro m ⟨k1, k2⟩
      exact Res.ok_iff.2 (Dense.is_new k1 fun r c hr hc => by rw [k2 r c hr hc, if_pos hr])
  · unfold denseCsr
    rw [if_pos (by omega)]
    exact ⟨_, rfl⟩

/-! ### The kernel for the abstract supertype -/

/-- A matrix of any kind, seen through the interface `Matrix<VT>`: its dimensions and its virtual `get`. -/
structure AnyMat (α : Type) where
  numRows : Nat
  numCols : Nat
  get : Nat → Nat → Res α

/-- The interface shows the matrix `a`. -/
def AnyMat.Is (x : AnyMat α) (a : Mat α) : Prop :=
  x.numRows = a.rows ∧ x.numCols = a.cols ∧ ∀ r c, r < a.rows → c < a.cols → x.get r c = .ok (a.cell r c)

/-- MatMul.h:324-325: element access to a possibly transposed operand. -/
def AnyMat.at (x : AnyMat α) (t : Bool) (r c : Nat) : Res α := if t then x.get c r else x.get r c

/-- MatMul.h:322-327: the value of one result cell. -/
def genericCell (A : Arith α) (x y : AnyMat α) (ta tb : Bool) (k r c : Nat) : Res α :=
  forLoop 0 k A.zero fun cell acc => do
    let l ← x.at ta r cell
    let w ← y.at tb cell c
    .ok (A.add acc (A.mul l w))

/-- MatMul.h:321-329: the cells of one row, in the order in which they are appended. -/
def genericRow (A : Arith α) (x y : AnyMat α) (ta tb : Bool) (k r : Nat) : List Nat → Res (List (Nat × Nat × α))
  | [] => .ok []
  | c :: cs => do
    let v ← genericCell A x y ta tb k r c
    let rest ← genericRow A x y ta tb k r cs
    .ok ((r, c, v) :: rest)

/-- MatMul.h:320-330: all cells. -/
def genericRows (A : Arith α) (x y : AnyMat α) (ta tb : Bool) (k n : Nat) : List Nat → Res (List (Nat × Nat × α))
  | [] => .ok []
  | r :: rs => do
    let row ← genericRow A x y ta tb k r (List.range n)
    let rest ← genericRows A x y ta tb k n rs
    .ok (row ++ rest)

/-- MatMul.h:303-331. The result is always a dense matrix. Simplification: the cells are computed before the first is appended (the
operands are not modified by appending to the result). -/
def generic (A : Arith α) (x y : AnyMat α) (ta tb : Bool) (junk : Nat → α) : Res (Dense.DM α) :=
  let lr := if ta then x.numCols else x.numRows
  let lc := if ta then x.numRows else x.numCols
  let rr := if tb then y.numCols else y.numRows
  let rc := if tb then y.numRows else y.numCols
  if lc ≠ rr then .error (.throw "#cols of lhs and #rows of rhs must be the same")
  else do
    let cells ← genericRows A x y ta tb lc rc (List.range lr)
    Dense.buildByAppend (Dense.DM.create lr rc junk) A.zero cells

theorem flip_rows (t : Bool) (a : Mat α) : (flip t a).rows = if t then a.cols else a.rows := by cases t <;> rfl
theorem flip_cols (t : Bool) (a : Mat α) : (flip t a).cols = if t then a.rows else a.cols := by cases t <;> rfl

theorem AnyMat.Is.flipGet {x : AnyMat α} {a : Mat α} (h : x.Is a) (t : Bool) {r c : Nat} (hr : r < (flip t a).rows)
    (hc : c < (flip t a).cols) : x.at t r c = .ok ((flip t a).cell r c) := by
  cases t with
  | false => exact h.2.2 r c hr hc
  | true => exact h.2.2 c r hc hr

theorem genericCell_ok (A : Arith α) {x y : AnyMat α} {a b : Mat α} (hx : x.Is a) (hy : y.Is b) (ta tb : Bool) {r c : Nat}
    (hd : (flip ta a).cols = (flip tb b).rows) (hr : r < (flip ta a).rows) (hc : c < (flip tb b).cols) :
    genericCell A x y ta tb (flip ta a).cols r c = .ok ((matProd A (flip ta a) (flip tb b)).cell r c) := by
  unfold genericCell
  obtain ⟨v, e, h⟩ := forLoop_ok (fun k acc => acc = dot A k (fun k => (flip ta a).cell r k) (fun k => (flip tb b).cell k c)) 0
    (flip ta a).cols A.zero (Nat.zero_le _) rfl (body := fun cell acc => do
      let l ← x.at ta r cell
      let w ← y.at tb cell c
      .ok (A.add acc (A.mul l w))) (by
    rintro k s - hk rfl
    rw [hx.flipGet ta hr hk]
    simp only [Res.ok_bind]
    rw [hy.flipGet tb (by omega) hc]
    exact Res.ok_iff.2 rfl)
  rw [e, h]; rfl

theorem genericRow_ok (A : Arith α) {x y : AnyMat α} {a b : Mat α} (hx : x.Is a) (hy : y.Is b) (ta tb : Bool) {r : Nat}
    (hd : (flip ta a).cols = (flip tb b).rows) (hr : r < (flip ta a).rows) : ∀ (cs : List Nat), (∀ c ∈ cs, c < (flip tb b).cols) →
    genericRow A x y ta tb (flip ta a).cols r cs = .ok (cs.map fun c => (r, c, (matProd A (flip ta a) (flip tb b)).cell r c))
  | [], _ => rfl
  | c :: cs, h => by
    rw [genericRow, genericCell_ok A hx hy ta tb hd hr (h c (by simp)), genericRow_ok A hx hy ta tb hd hr cs fun c' h' => h c' (by simp [h'])]
    rfl

theorem genericRows_ok (A : Arith α) {x y : AnyMat α} {a b : Mat α} (hx : x.Is a) (hy : y.Is b) (ta tb : Bool)
    (hd : (flip ta a).cols = (flip tb b).rows) : ∀ (rs : List Nat), (∀ r ∈ rs, r < (flip ta a).rows) →
    genericRows A x y ta tb (flip ta a).cols (flip tb b).cols rs =
      .ok (rs.flatMap fun r => (List.range (flip tb b).cols).map fun c => (r, c, (matProd A (flip ta a) (flip tb b)).cell r c))
  | [], _ => rfl
  | r :: rs, h => by
    rw [genericRows, genericRow_ok A hx hy ta tb hd (h r (by simp)) _ fun c hc => List.mem_range.1 hc,
      genericRows_ok A hx hy ta tb hd rs fun r' h' => h r' (by simp [h'])]
    rfl

/-- **C156.** The multiplication kernel for matrices of any kind yields the product of the (optionally transposed) operands; unequal inner
dimensions are rejected by an exception. -/
theorem C156_any_times_any (A : Arith α) (x y : AnyMat α) (a b : Mat α) (hx : x.Is a) (hy : y.Is b) (ta tb : Bool) (junk : Nat → α) :
    ((flip ta a).cols = (flip tb b).rows →
      Res.Ok (generic A x y ta tb junk) (fun z => z.Is (matProd A (flip ta a) (flip tb b)))) ∧
    ((flip ta a).cols ≠ (flip tb b).rows → Res.Throws (generic A x y ta tb junk)) := by
  have f1 : (if ta then x.numCols else x.numRows) = (flip ta a).rows := by rw [flip_rows, hx.1, hx.2.1]
  have f2 : (if ta then x.numRows else x.numCols) = (flip ta a).cols := by rw [flip_cols, hx.1, hx.2.1]
  have f3 : (if tb then y.numCols else y.numRows) = (flip tb b).rows := by rw [flip_rows, hy.1, hy.2.1]
  have f4 : (if tb then y.numRows else y.numCols) = (flip tb b).cols := by rw [flip_cols, hy.1, hy.2.1]
  unfold generic
  simp only
  rw [f1, f2, f3, f4]
  refine ⟨fun hd => ?_, fun hd => ?_⟩
  · rw [if_neg (by omega), genericRows_ok A hx hy ta tb hd _ fun r hr => List.mem_range.1 hr, Res.ok_bind]
    have hmem : ∀ r c v, (r, c, v) ∈ ((List.range (flip ta a).rows).flatMap fun r => (List.range (flip tb b).cols).map fun c =>
        (r, c, (matProd A (flip ta a) (flip tb b)).cell r c)) ↔
        r < (flip ta a).rows ∧ c < (flip tb b).cols ∧ v = (matProd A (flip ta a) (flip tb b)).cell r c := by
      intro r c v
      simp only [List.mem_flatMap, List.mem_range, List.mem_map, Prod.mk.injEq]
      constructor
      · rintro ⟨r', h1, c', h2, rfl, rfl, rfl⟩; exact ⟨h1, h2, rfl⟩
      · rintro ⟨h1, h2, rfl⟩; exact ⟨r, h1, c, h2, rfl, rfl, rfl⟩
    refine (Dense.C19_append_in_order (Dense.DM.create _ _ junk) ?_ rfl A.zero _ ?_ ?_).mono ?_
    · exact (Dense.is_new (f := fun r c => junk (r * (flip tb b).cols + c)) rfl fun r c _ _ => rfl).wf
    · rintro ⟨r, c, v⟩ ht
      rw [hmem] at ht
      exact ⟨ht.1, ht.2.1⟩
    · rw [List.pairwise_flatMap]
      refine ⟨fun r _ => ?_, ?_⟩
      · rw [List.pairwise_map]
        exact List.pairwise_lt_range.imp fun h => .inr ⟨rfl, h⟩
      · refine List.pairwise_lt_range.imp fun {r r'} h => ?_
        intro p hp q hq
        obtain ⟨c, _, rfl⟩ := List.mem_map.1 hp
        obtain ⟨c', _, rfl⟩ := List.mem_map.1 hq
        exact .inl h
    · rintro z ⟨w, z1, z2, z3, _⟩
      exact ⟨w, z1, z2, fun r c hr hc => z3 r c _ ((hmem r c _).2 ⟨hr, hc, rfl⟩)⟩
  · rw [if_pos (by omega)]
    exact ⟨_, rfl⟩

/-- Dense and sparse matrices seen through the interface (non-vacuity of `C156_any_times_any`). -/
theorem anyMat_dense {x : Dense.DM α} {a : Mat α} (h : x.Is a) : AnyMat.Is ⟨x.h.numRows, x.h.numCols, x.get⟩ a := ⟨h.rows, h.cols, h.2.2.2⟩
theorem anyMat_sparse {zero : α} {x : CM α} {a : Mat α} (h : x.Is zero a) : AnyMat.Is ⟨x.h.numRows, x.h.numCols, x.h.get zero x.mem⟩ a :=
  ⟨h.rows, h.cols, fun _ _ hr hc => h.get hr hc⟩

end Verif.Mm
