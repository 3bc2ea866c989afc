/-
  Model of src/runtime/local/kernels/{Reshape,Reverse}.h and their properties (C88-C91).

  Simplifications: `res == nullptr` on entry; `size_t` products do not wrap; a pointer advanced once per iteration is
  written as a position; the fresh arrays have arbitrary contents.
-/
import Verif.Dense.KernelProps
import Verif.Csr.Bind

namespace Verif.Shape
open Verif Verif.Dense Verif.Csr
variable {α : Type}

/-! ### Specification -/

/-- The cells of `a`, read row by row, written row by row into an `R × C` matrix. -/
def reshaped (a : Mat α) (R C : Nat) : Mat α :=
  ⟨R, C, fun r c => a.cell ((r * C + c) / a.cols) ((r * C + c) % a.cols)⟩

/-- The rows of `a` in reverse order. -/
def reversed (a : Mat α) : Mat α := ⟨a.rows, a.cols, fun r c => a.cell (a.rows - 1 - r) c⟩

/-! ### Model -/

/-- Reshape.h:55-94. Same shape: the argument itself. Contiguous cells: the result shares the allocation, starting at the
argument's value pointer (DenseMatrix.cpp:94-101). Otherwise row-wise copy. -/
def reshapeDense (junk : Nat → α) (x : DM α) (R C : Nat) : Res (DM α) :=
  if R = x.numRows ∧ C = x.numCols then .ok x
  else if R * C ≠ x.numRows * x.numCols then .error (.throw "reshape must retain the number of cells")
  else if x.h.rowSkip = x.numCols ∨ x.numRows = 1 then
    .ok ⟨⟨R, C, C, x.h.base, 0, 0, R * C, false, 0, 0⟩, x.mem⟩
  else do
    let res := DM.create R C junk
    let m ← forLoop 0 x.numRows res.mem fun r m => x.mem.copy (x.addr r 0) m (res.h.start + r * x.numCols) x.numCols
    .ok ⟨res.h, m⟩

/-- State of the loops of the sparse case: row offsets, `rowOffsetsRes` as a position, column indexes, `rResPrev`, and
`numNonZerosProcessed` (which is also the position of `colIdxsRes`). -/
structure RS where
  offs : Buf Nat
  next : Nat
  cols : Buf Nat
  prev : Nat
  n : Nat

/-- Reshape.h:157-158 and 164-165: write the offset of every row from `rResPrev` up to `upto`. -/
def fillOffs (s : RS) (upto : Nat) : Res RS :=
  forLoop s.prev upto s fun _ s => do
    let o ← s.offs.write s.next s.n
    .ok { s with offs := o, next := s.next + 1 }

/-- `pos / numColsRes`, `pos % numColsRes`; division by zero is undefined. -/
def divMod (p C : Nat) : Res (Nat × Nat) :=
  if C = 0 then .error (.ub "division by zero") else .ok (p / C, p % C)

/-- Reshape.h:153-161: one stored entry at array position `b + i` of row `r`. -/
def reshapeEntry (x : CM α) (C r b i : Nat) (s : RS) : Res RS := do
  let c ← x.mem.cols.read (b + i)
  let rc ← divMod (r * x.h.numCols + c) C
  let s ← fillOffs s rc.1
  let cs ← s.cols.write s.n rc.2
  .ok { s with cols := cs, prev := rc.1, n := s.n + 1 }

/-- Reshape.h:149-163: one row. -/
def reshapeRow (x : CM α) (C r : Nat) (s : RS) : Res RS := do
  let e ← x.h.off x.mem (r + 1)
  let b ← x.h.off x.mem r
  let p ← x.h.rowPtr x.mem r
  forLoop 0 (e - b) s fun i s => reshapeEntry x C r p i s

/-- Reshape.h:121-137: the values of the result; the argument's own array (from its start) if it is no view. -/
def reshapeVals (x : CM α) (nnz : Nat) (jv : Nat → α) : Res (Buf α) :=
  if x.h.isView then do
    let b ← x.h.rowPtr x.mem 0
    x.mem.vals.copy b ⟨nnz, jv⟩ 0 nnz
  else .ok x.mem.vals

/-- Reshape.h:100-167. -/
def reshapeCsr (x : CM α) (R C : Nat) (jv : Nat → α) (jc jo : Nat → Nat) : Res (CM α) :=
  if R = x.h.numRows ∧ C = x.h.numCols then .ok x
  else if R * C ≠ x.h.numRows * x.h.numCols then .error (.throw "reshape must retain the number of cells")
  else do
    let nnz ← x.h.numNonZeros x.mem
    let vals ← reshapeVals x nnz jv
    let o ← (⟨R + 1, jo⟩ : Buf Nat).write 0 0
    let s ← forLoop 0 x.h.numRows (⟨o, 1, ⟨nnz, jc⟩, 0, 0⟩ : RS) fun r s => reshapeRow x C r s
    let s ← fillOffs s R
    .ok ⟨CHdr.new R C, ⟨vals, s.cols, s.offs⟩⟩

/-- Reverse.h:54-78. In the first branch `std::reverse_copy` copies `numRows` values. For `numRows = 0` the code's start
pointer is out of range but never dereferenced. -/
def reverseDense (junk : Nat → α) (x : DM α) : Res (DM α) :=
  let res := DM.create x.numRows x.numCols junk
  if x.h.rowSkip = 1 then do
    let m ← forLoop 0 x.numRows res.mem fun i m => do
      let v ← x.mem.read (x.h.start + (x.numRows - 1 - i))
      m.write (res.h.start + i) v
    .ok ⟨res.h, m⟩
  else do
    let m ← forLoop 0 x.numRows res.mem fun r m => x.mem.copy (x.addr (x.numRows - 1 - r) 0) m (res.addr r 0) x.numCols
    .ok ⟨res.h, m⟩

/-! ### Dense -/

theorem lin_split {p R C : Nat} (h : p < R * C) : p / C < R ∧ p % C < C ∧ p / C * C + p % C = p := by
  have hC : 0 < C := by
    rcases Nat.eq_zero_or_pos C with e | e
    · subst e; simp at h
    · exact e
  refine ⟨?_, Nat.mod_lt _ hC, ?_⟩
  · exact (Nat.div_lt_iff_lt_mul hC).2 h
  · rw [Nat.mul_comm]; exact Nat.div_add_mod p C

/-- **C88.** Reshaping a dense matrix or a view of one keeps the row-major sequence of its cells; a shape with another
number of cells is rejected. -/
theorem C88_reshape (junk : Nat → α) (x : DM α) (a : Mat α) (hx : x.Is a) (R C : Nat) :
    (R * C = a.rows * a.cols → Res.Ok (reshapeDense junk x R C) (fun y => y.Is (reshaped a R C))) ∧
    (R * C ≠ a.rows * a.cols → Res.Throws (reshapeDense junk x R C)) := by
  have e1 : x.numRows = a.rows := hx.rows
  have e2 : x.numCols = a.cols := hx.cols
  unfold reshapeDense
  rw [e1, e2]
  constructor
  · intro hn
    by_cases hs : R = a.rows ∧ C = a.cols
    · rw [if_pos hs]
      refine ⟨x, rfl, hx.congr ⟨hs.1.symm, hs.2.symm, fun r c hr hc => ?_⟩⟩
      simp only [reshaped]
      rw [hs.2]
      have hp : 0 < a.cols := by omega
      rw [Nat.mul_comm r, Nat.mul_add_div hp, Nat.mul_add_mod, Nat.div_eq_of_lt hc, Nat.mod_eq_of_lt hc, Nat.add_zero]
    · rw [if_neg hs, if_neg (by omega)]
      by_cases hc : x.h.rowSkip = a.cols ∨ a.rows = 1
      · rw [if_pos hc]
        have key : ∀ r c, r < R → c < C → ∃ i j, i < a.rows ∧ j < a.cols ∧ (r * C + c) / a.cols = i ∧ (r * C + c) % a.cols = j ∧
            r * C + c = i * x.h.rowSkip + j := by
          intro r c hr hc'
          have hlt := rm_lt hr hc' (Nat.le_refl C)
          rw [hn] at hlt
          obtain ⟨l1, l2, l3⟩ := lin_split hlt
          refine ⟨_, _, l1, l2, rfl, rfl, ?_⟩
          rcases hc with hc | hc
          · rw [hc]; exact l3.symm
          · rw [hc] at l1
            have : (r * C + c) / a.cols = 0 := Nat.lt_one_iff.1 l1
            rw [this] at l3 ⊢
            omega
        refine ⟨_, rfl, is_of_data ⟨Nat.le_refl _, rfl, ?_, fun _ => rfl⟩ rfl rfl ?_⟩
        · intro r c hr hc'
          simp only at hr hc' ⊢
          obtain ⟨i, j, h1, h2, -, -, h5⟩ := key r c hr hc'
          have := hx.inb h1 h2
          omega
        · intro r c hr hc'
          simp only [reshaped] at hr hc' ⊢
          obtain ⟨i, j, h1, h2, h3, h4, h5⟩ := key r c hr hc'
          rw [h3, h4, Nat.add_assoc, h5, ← Nat.add_assoc]
          exact hx.data h1 h2
      · rw [if_neg hc]
        have hf := fill_rows (lo := 0) (hi := a.rows) (rows := a.rows) (cols := a.cols) (m := (DM.create R C junk).mem)
          (Nat.zero_le _) (by rw [create_size, hn]) a.cell
          (fun r m => x.mem.copy (x.addr r 0) m ((DM.create R C junk).h.start + r * a.cols) a.cols)
          (by
            intro r m _ hr hm
            rw [create_start, Nat.zero_add]
            have hb := hx.wf.start
            rcases Nat.eq_zero_or_pos a.cols with h0 | h0
            · rw [h0]
              exact ⟨m, by simp [Buf.copy], by rw [hm, h0], fun r' c hc => by omega⟩
            · refine (Buf.copy_ok (Or.inr ?_) (Or.inr ?_)).mono ?_
              · have := hx.inb (r := r) (c := a.cols - 1) hr (by omega)
                unfold DM.addr; rw [hb]; omega
              · rw [hm]
                have := rm_lt (r := r) (c := a.cols - 1) hr (by omega) (Nat.le_refl a.cols)
                omega
              · rintro m' ⟨g1, g2⟩
                refine ⟨by rw [g1, hm], fun r' c hc' => ?_⟩
                rw [g2]
                have hseg := rm_seg_iff (r := r') (r' := r) (c0 := 0) (c1 := a.cols) hc' (Nat.le_refl a.cols)
                rw [Nat.add_zero] at hseg
                by_cases e : r' = r
                · subst e
                  rw [if_pos (hseg.2 ⟨rfl, Nat.zero_le _, hc'⟩), if_pos rfl]
                  have := hx.data hr hc'
                  unfold DM.addr; rw [hb, ← this]
                  congr 1; omega
                · rw [if_neg (fun h => e (hseg.1 h).1), if_neg e])
        refine hf.bind ?_
        rintro m ⟨g1, g2⟩
        refine ⟨_, rfl, is_new (by rw [g1, hn]) ?_⟩
        intro r c hr hc'
        have hlt := rm_lt hr hc' (Nat.le_refl C)
        rw [hn] at hlt
        obtain ⟨l1, l2, l3⟩ := lin_split hlt
        have := g2 ((r * C + c) / a.cols) ((r * C + c) % a.cols) l2
        rw [l3, if_pos ⟨Nat.zero_le _, l1⟩] at this
        exact this
  · intro hn
    rw [if_neg (by rintro ⟨rfl, rfl⟩; exact hn rfl), if_pos hn]
    exact ⟨_, rfl⟩

/-- **C91.** Reversing a dense matrix or view (with at least one column) reverses its rows. -/
theorem C91_reverse (junk : Nat → α) (x : DM α) (a : Mat α) (hx : x.Is a) (hc : 0 < a.cols) :
    Res.Ok (reverseDense junk x) (fun y => y.Is (reversed a)) := by
  have e1 : x.numRows = a.rows := hx.rows
  have e2 : x.numCols = a.cols := hx.cols
  have hb := hx.wf.start
  unfold reverseDense
  rw [e1, e2]
  simp only
  by_cases h1 : x.h.rowSkip = 1
  · rw [if_pos h1]
    have hc1 : a.cols = 1 := by have := hx.wf.skip; have := hx.cols; omega
    have hl := forLoop_ok (fun i (m : Buf α) => m.size = a.rows * a.cols ∧ ∀ j, j < i → m.data j = a.cell (a.rows - 1 - j) 0) 0 a.rows
      (DM.create a.rows a.cols junk).mem (body := fun i m => do
        let v ← x.mem.read (x.h.start + (a.rows - 1 - i))
        m.write ((DM.create a.rows a.cols junk).h.start + i) v) (Nat.zero_le _) ⟨rfl, fun j h => by omega⟩ (by
      rintro i m - hi ⟨g1, g2⟩
      have hrd := hx.read (r := a.rows - 1 - i) (c := 0) (by omega) hc
      unfold DM.addr at hrd
      rw [h1, Nat.mul_one, Nat.add_zero] at hrd
      rw [hrd]
      simp only [Res.ok_bind, create_start, Nat.zero_add]
      rw [Buf.write_eq (by rw [g1, hc1]; omega)]
      refine Res.ok_iff.2 ⟨g1, fun j hj => ?_⟩
      rw [Buf.put_data]
      by_cases e : j = i
      · rw [if_pos e, e]
      · rw [if_neg e]; exact g2 j (by omega))
    refine hl.bind ?_
    rintro m ⟨g1, g2⟩
    refine ⟨_, rfl, is_new g1 fun r c hr hc' => ?_⟩
    have : c = 0 := by omega
    subst this
    rw [hc1, Nat.mul_one, Nat.add_zero]
    exact g2 r hr
  · rw [if_neg h1]
    have hf := fill_rows (lo := 0) (hi := a.rows) (rows := a.rows) (cols := a.cols) (m := (DM.create a.rows a.cols junk).mem)
      (Nat.zero_le _) rfl (fun r c => a.cell (a.rows - 1 - r) c)
      (fun r m => x.mem.copy (x.addr (a.rows - 1 - r) 0) m ((DM.create a.rows a.cols junk).addr r 0) a.cols) (by
      intro r m _ hr hm
      rw [create_addr]
      refine (Buf.copy_ok (Or.inr ?_) (Or.inr ?_)).mono ?_
      · have := hx.inb (r := a.rows - 1 - r) (c := a.cols - 1) (by omega) (by omega)
        unfold DM.addr; rw [hb]; omega
      · rw [hm]
        have := rm_lt (r := r) (c := a.cols - 1) hr (by omega) (Nat.le_refl a.cols)
        omega
      · rintro m' ⟨g1, g2⟩
        refine ⟨by rw [g1, hm], fun r' c hc' => ?_⟩
        rw [g2]
        have hseg := rm_seg_iff (r := r') (r' := r) (c0 := 0) (c1 := a.cols) hc' (Nat.le_refl a.cols)
        rw [Nat.add_zero] at hseg ⊢
        by_cases e : r' = r
        · subst e
          rw [if_pos (hseg.2 ⟨rfl, Nat.zero_le _, hc'⟩), if_pos rfl]
          have := hx.data (r := a.rows - 1 - r') (c := c) (by omega) hc'
          unfold DM.addr; rw [hb, ← this]
          congr 1; omega
        · rw [if_neg (fun h => e (hseg.1 h).1), if_neg e])
    refine hf.bind ?_
    rintro m ⟨g1, g2⟩
    refine ⟨_, rfl, is_new g1 fun r c hr hc' => ?_⟩
    rw [g2 r c hc', if_pos ⟨Nat.zero_le _, hr⟩]

/-! ### Sparse -/

/-- Every stored entry lies in some row. -/
theorem CM.WF.rowOf {x : CM α} (w : x.WF) {p : Nat} : ∀ n, n ≤ x.h.numRows → x.o 0 ≤ p → p < x.o n →
    ∃ r, r < n ∧ x.o r ≤ p ∧ p < x.o (r + 1) := by
  intro n
  induction n with
  | zero => intro _ h1 h2; omega
  | succ n ih =>
    intro h0 h1 h2
    by_cases h : x.o n ≤ p
    · exact ⟨n, by omega, h, h2⟩
    · obtain ⟨r, a1, a2, a3⟩ := ih (by omega) h1 (by omega)
      exact ⟨r, by omega, a2, a3⟩

/-- The stored entries of a sparse matrix in storage order: their row-major positions ascend, the cells at these positions
are the stored values, all other cells are zero. -/
theorem CM.Is.linear {zero : α} {x : CM α} {a : Mat α} (h : x.Is zero a) :
    ∃ lin : Nat → Nat,
      (∀ r p, r < a.rows → x.o r ≤ p → p < x.o (r + 1) → lin (p - x.o 0) = r * a.cols + x.mem.cols.data p) ∧
      (∀ q q', q < q' → q' < x.o a.rows - x.o 0 → lin q < lin q') ∧
      (∀ q, q < x.o a.rows - x.o 0 → lin q < a.rows * a.cols ∧
        a.cell (lin q / a.cols) (lin q % a.cols) = x.mem.vals.data (x.o 0 + q)) ∧
      (∀ l, l < a.rows * a.cols → (∀ q, q < x.o a.rows - x.o 0 → lin q ≠ l) → a.cell (l / a.cols) (l % a.cols) = zero) := by
  classical
  have e1 := h.rows; have e2 := h.cols
  let P : Nat → Nat → Prop := fun q r => r < a.rows ∧ x.o r ≤ q + x.o 0 ∧ q + x.o 0 < x.o (r + 1)
  let lin : Nat → Nat := fun q => if hq : ∃ r, P q r then hq.choose * a.cols + x.mem.cols.data (q + x.o 0) else 0
  have hmono0 : ∀ r, r ≤ a.rows → x.o 0 ≤ x.o r := fun r hr => h.wf.mono' (Nat.zero_le _) (by omega)
  have hl : ∀ r p, r < a.rows → x.o r ≤ p → p < x.o (r + 1) → lin (p - x.o 0) = r * a.cols + x.mem.cols.data p := by
    intro r p hr h1 h2
    have h0 := hmono0 r (by omega)
    have ep : p - x.o 0 + x.o 0 = p := by omega
    have hex : ∃ r, P (p - x.o 0) r := ⟨r, hr, by omega, by omega⟩
    have hch := hex.choose_spec
    have : hex.choose = r := h.wf.rowUnique (j := p) (by have := hch.1; omega) (by omega) (by have := hch.2.1; omega)
      (by have := hch.2.2; omega) h1 h2
    simp only [lin]
    rw [dif_pos hex, this, ep]
  have hrow : ∀ q, q < x.o a.rows - x.o 0 → ∃ r, r < a.rows ∧ x.o r ≤ q + x.o 0 ∧ q + x.o 0 < x.o (r + 1) ∧
      lin q = r * a.cols + x.mem.cols.data (q + x.o 0) ∧ x.mem.cols.data (q + x.o 0) < a.cols := by
    intro q hq
    obtain ⟨r, a1, a2, a3⟩ := CM.WF.rowOf h.wf (p := q + x.o 0) a.rows (by omega) (by omega) (by omega)
    have := hl r (q + x.o 0) a1 a2 a3
    rw [Nat.add_sub_cancel] at this
    exact ⟨r, a1, a2, a3, this, by rw [← e2]; exact h.wf.bound r _ (by omega) a2 a3⟩
  refine ⟨lin, hl, ?_, ?_, ?_⟩
  · intro q q' hqq hq'
    obtain ⟨r, a1, a2, a3, a4, a5⟩ := hrow q (by omega)
    obtain ⟨r', b1, b2, b3, b4, b5⟩ := hrow q' hq'
    rw [a4, b4, rm_lt_iff a5 b5]
    rcases Nat.lt_trichotomy r r' with e | e | e
    · exact Or.inl e
    · subst e
      exact Or.inr ⟨rfl, h.wf.sorted r _ _ (by omega) a2 (by omega) b3⟩
    · have := h.wf.mono' (r := r' + 1) (r' := r) e (by omega); omega
  · intro q hq
    obtain ⟨r, a1, a2, a3, a4, a5⟩ := hrow q hq
    have hp : 0 < a.cols := by omega
    refine ⟨by rw [a4]; exact rm_lt a1 a5 (Nat.le_refl _), ?_⟩
    rw [a4, Nat.mul_comm r, Nat.mul_add_div hp, Nat.mul_add_mod, Nat.div_eq_of_lt a5, Nat.mod_eq_of_lt a5, Nat.add_zero,
      h.entry r _ a1 a2 a3, Nat.add_comm]
  · intro l hl' hno
    obtain ⟨l1, l2, l3⟩ := lin_split hl'
    refine h.rest _ _ l1 l2 fun p h1 h2 h3 => ?_
    have h0 := hmono0 (l / a.cols) (by omega)
    have ht := h.wf.mono' (r := l / a.cols + 1) (r' := a.rows) (by omega) (by omega)
    refine hno (p - x.o 0) (by omega) ?_
    rw [hl _ p l1 h1 h2, h3, l3]

theorem fillOffs_ok (s : RS) (upto : Nat) (hp : s.prev ≤ upto) (hn : s.next = s.prev + 1) (hs : upto < s.offs.size) :
    Res.Ok (fillOffs s upto) (fun s' => s'.cols = s.cols ∧ s'.prev = s.prev ∧ s'.n = s.n ∧ s'.next = upto + 1 ∧
      s'.offs.size = s.offs.size ∧ ∀ i, s'.offs.data i = if s.prev < i ∧ i ≤ upto then s.n else s.offs.data i) := by
  unfold fillOffs
  refine (forLoop_ok (fun k (s' : RS) => s'.cols = s.cols ∧ s'.prev = s.prev ∧ s'.n = s.n ∧ s'.next = k + 1 ∧
      s'.offs.size = s.offs.size ∧ ∀ i, s'.offs.data i = if s.prev < i ∧ i ≤ k then s.n else s.offs.data i)
    s.prev upto s hp ⟨rfl, rfl, rfl, hn, rfl, fun i => by rw [if_neg (by omega)]⟩ ?_)
  rintro k t h1 h2 ⟨g1, g2, g3, g4, g5, g6⟩
  rw [Buf.write_eq (by omega)]
  simp only [Res.ok_bind]
  refine Res.ok_iff.2 ⟨g1, g2, g3, by simp only; omega, by simpa using g5, fun i => ?_⟩
  simp only [Buf.put_data, g6, g4, g3]
  by_cases e : i = k + 1
  · rw [if_pos e, if_pos (by omega)]
  · rw [if_neg e]
    by_cases h : s.prev < i ∧ i ≤ k
    · rw [if_pos h, if_pos (by omega)]
    · rw [if_neg h, if_neg (by omega)]

/-- What the loops have established after `n` stored entries. -/
structure RInv (lin : Nat → Nat) (N R C n : Nat) (s : RS) : Prop where
  n_eq : s.n = n
  next : s.next = s.prev + 1
  osz : s.offs.size = R + 1
  csz : s.cols.size = N
  prevR : s.prev ≤ R
  offs : ∀ k, k ≤ s.prev → s.offs.data k ≤ n ∧ ∀ q, q < N → (q < s.offs.data k ↔ lin q < k * C)
  cols : ∀ q, q < n → s.cols.data q = lin q % C
  seen : ∀ q, q < n → lin q / C ≤ s.prev

theorem fill_inv {lin : Nat → Nat} {N R C n : Nat} {s : RS} (inv : RInv lin N R C n s) (hC : 0 < C ∨ N = 0) (upto : Nat)
    (hup : upto ≤ R) (hle : s.prev ≤ upto) (hn : n ≤ N) (hafter : ∀ q, n ≤ q → q < N → upto * C ≤ lin q) :
    Res.Ok (fillOffs s upto) (fun s' => RInv lin N R C n { s' with prev := upto }) := by
  refine (fillOffs_ok s upto hle inv.next (by rw [inv.osz]; omega)).mono ?_
  rintro s' ⟨g1, g2, g3, g4, g5, g6⟩
  refine ⟨by rw [← inv.n_eq]; exact g3, g4, by rw [← inv.osz]; exact g5, by rw [← inv.csz]; simp only [g1], hup, ?_,
    by simp only [g1]; exact inv.cols, fun q hq => Nat.le_trans (inv.seen q hq) hle⟩
  intro k hk
  simp only at hk ⊢
  rw [g6]
  by_cases h : s.prev < k ∧ k ≤ upto
  · rw [if_pos h, inv.n_eq]
    refine ⟨Nat.le_refl _, fun q hq => ⟨fun h1 => ?_, fun h1 => ?_⟩⟩
    · have := inv.seen q h1
      rcases hC with hC | hC
      · exact (Nat.div_lt_iff_lt_mul hC).1 (by omega)
      · omega
    · by_cases hqn : q < n
      · exact hqn
      · have := hafter q (by omega) hq
        have : k * C ≤ upto * C := Nat.mul_le_mul_right _ h.2
        omega
  · rw [if_neg h]; exact inv.offs k (by omega)

/-- **C89.** Reshaping a sparse matrix or a row view of one keeps the row-major sequence of its cells; a shape with another
number of cells is rejected. The argument must be recognised as a view or start at offset 0 (all originals and all direct row
views; `C90_reshape_nested_view_partial` shows the rest). -/
theorem C89_reshape_sparse (zero : α) (x : CM α) (a : Mat α) (hx : x.Is zero a) (R C : Nat) (jv : Nat → α) (jc jo : Nat → Nat) :
    (R * C = a.rows * a.cols → (x.h.isView = true ∨ x.o 0 = 0) →
      Res.Ok (reshapeCsr x R C jv jc jo) (fun y => y.Is zero (reshaped a R C))) ∧
    (R * C ≠ a.rows * a.cols → Res.Throws (reshapeCsr x R C jv jc jo)) := by
  have e1 := hx.rows; have e2 := hx.cols
  unfold reshapeCsr
  constructor
  · intro hn hstart
    by_cases hs : R = x.h.numRows ∧ C = x.h.numCols
    · rw [if_pos hs]
      refine ⟨x, rfl, hx.congr ⟨by simp only [reshaped]; omega, by simp only [reshaped]; omega, fun r c hr hc => ?_⟩⟩
      simp only [reshaped]
      rw [hs.2, e2]
      have hp : 0 < a.cols := by omega
      rw [Nat.mul_comm r, Nat.mul_add_div hp, Nat.mul_add_mod, Nat.div_eq_of_lt hc, Nat.mod_eq_of_lt hc, Nat.add_zero]
    · rw [if_neg hs, if_neg (by rw [e1, e2]; omega)]
      obtain ⟨lin, hl, hasc, hcell, hrest⟩ := CM.Is.linear hx
      have hN := hx.wf.mono' (r := 0) (r' := a.rows) (Nat.zero_le _) (by omega)
      have hnnz : x.h.numNonZeros x.mem = .ok (x.o a.rows - x.o 0) := by
        unfold CHdr.numNonZeros
        rw [hx.wf.off (Nat.le_refl _), hx.wf.off (Nat.zero_le _), e1]; rfl
      rw [hnnz]
      simp only [Res.ok_bind]
      have htopV := hx.wf.topV; rw [e1] at htopV
      have htopC := hx.wf.topC; rw [e1] at htopC
      generalize hNdef : x.o a.rows - x.o 0 = N at *
      have hC : 0 < C ∨ N = 0 := by
        rcases Nat.eq_zero_or_pos C with h | h
        · right
          rcases Nat.eq_zero_or_pos N with h' | h'
          · exact h'
          · have := (hcell 0 h').1
            rw [← hn, h, Nat.mul_zero] at this
            exact absurd this (Nat.not_lt_zero _)
        · exact Or.inl h
      have hvals : Res.Ok (reshapeVals x N jv) (fun v => N ≤ v.size ∧ ∀ q, q < N → v.data q = x.mem.vals.data (x.o 0 + q)) := by
        unfold reshapeVals
        by_cases hv : x.h.isView = true
        · rw [if_pos hv, hx.wf.rowPtr (Nat.zero_le _)]
          simp only [Res.ok_bind]
          refine (Buf.copy_ok (Or.inr (by omega)) (Or.inr (by simp))).mono ?_
          rintro v ⟨g1, g2⟩
          refine ⟨by rw [g1], fun q hq => ?_⟩
          rw [g2, if_pos (by omega), Nat.sub_zero]
        · rw [if_neg hv]
          have h0 : x.o 0 = 0 := by rcases hstart with h | h; exact absurd h hv; exact h
          exact ⟨_, rfl, by omega, fun q hq => by rw [h0, Nat.zero_add]⟩
      refine hvals.bind ?_
      rintro vals ⟨v1, v2⟩
      rw [Buf.write_eq (by simp)]
      simp only [Res.ok_bind]
      have hinit : RInv lin N R C 0 (⟨(⟨R + 1, jo⟩ : Buf Nat).put 0 0, 1, ⟨N, jc⟩, 0, 0⟩ : RS) := by
        refine ⟨rfl, rfl, rfl, rfl, Nat.zero_le _, ?_, fun q h => by omega, fun q h => by omega⟩
        intro k hk
        have : k = 0 := by simpa using hk
        subst this
        simp
      have hloop := forLoop_ok (fun r s => RInv lin N R C (x.o r - x.o 0) s) 0 x.h.numRows
        (⟨(⟨R + 1, jo⟩ : Buf Nat).put 0 0, 1, ⟨N, jc⟩, 0, 0⟩ : RS) (body := fun r s => reshapeRow x C r s)
        (Nat.zero_le _) (by simpa using hinit) (by
        rintro r s - hr inv
        unfold reshapeRow
        rw [hx.wf.off (by omega), hx.wf.off (by omega), hx.wf.rowPtr (by omega)]
        simp only [Res.ok_bind]
        have m1 := hx.wf.mono r hr
        have m0 := hx.wf.mono' (r := 0) (r' := r) (Nat.zero_le _) (by omega)
        have m2 := hx.wf.mono' (r := r + 1) (r' := a.rows) (by omega) (by omega)
        refine forLoop_post (fun i s => RInv lin N R C (x.o r - x.o 0 + i) s) 0 _ s (Nat.zero_le _) inv ?_ ?_
        · rintro i t - hi inv
          unfold reshapeEntry
          rw [Buf.read_eq (by omega)]
          simp only [Res.ok_bind]
          have hlq := hl r (x.o r + i) (by omega) (by omega) (by omega)
          have hqN : x.o r - x.o 0 + i < N := by omega
          have eq1 : x.o r + i - x.o 0 = x.o r - x.o 0 + i := by omega
          rw [eq1] at hlq
          rw [e2, ← hlq]
          have hCp : 0 < C := by rcases hC with h | h; exact h; omega
          unfold divMod
          rw [if_neg (by omega)]
          simp only [Res.ok_bind]
          generalize hq : x.o r - x.o 0 + i = q at *
          have hlt := (hcell q hqN).1
          rw [← hn] at hlt
          obtain ⟨l1, l2, l3⟩ := lin_split hlt
          have hprev : t.prev ≤ lin q / C := by
            by_cases h0 : t.prev ≤ lin q / C
            · exact h0
            · have ho := (inv.offs t.prev (Nat.le_refl _)).2 q hqN
              have hlt2 : lin q < t.prev * C := (Nat.div_lt_iff_lt_mul hCp).1 (by omega)
              have hin := ho.2 hlt2
              have hle := (inv.offs t.prev (Nat.le_refl _)).1
              omega
          refine (fill_inv inv hC (lin q / C) (by omega) hprev (by omega) ?_).bind ?_
          · intro q' h1 h2
            have : lin q ≤ lin q' := by
              by_cases e : q = q'
              · subst e; exact Nat.le_refl _
              · exact Nat.le_of_lt (hasc q q' (by omega) h2)
            omega
          · intro u inv'
            have hun : u.n = q := inv'.n_eq
            have hcs : u.cols.size = N := inv'.csz
            have hoq : ∀ k, k ≤ lin q / C → u.offs.data k ≤ x.o r - x.o 0 + (i + 1) := by
              intro k hk
              have h9 : u.offs.data k ≤ q := (inv'.offs k hk).1
              omega
            rw [Buf.write_eq (by omega)]
            simp only [Res.ok_bind]
            refine Res.ok_iff.2 ⟨by simp only; omega, inv'.next, inv'.osz, by simpa using hcs, inv'.prevR,
              fun k hk => ⟨hoq k hk, (inv'.offs k hk).2⟩, ?_, ?_⟩
            · intro q' hq'
              simp only [Buf.put_data, hun]
              by_cases e : q' = q
              · rw [if_pos e, e]
              · rw [if_neg e]; exact inv'.cols q' (by omega)
            · intro q' hq'
              by_cases e : q' = q
              · subst e; exact Nat.le_refl _
              · exact inv'.seen q' (by omega)
        · intro t inv
          have : x.o r - x.o 0 + (x.o (r + 1) - x.o r) = x.o (r + 1) - x.o 0 := by omega
          rw [this] at inv; exact inv)
      refine hloop.bind ?_
      intro s inv
      rw [e1, hNdef] at inv
      refine (fill_inv inv hC R (Nat.le_refl _) inv.prevR (Nat.le_refl _) (fun q h1 h2 => by omega)).bind ?_
      intro t inv'
      have hoN : ∀ k, k ≤ R → t.offs.data k ≤ N ∧ ∀ q, q < N → (q < t.offs.data k ↔ lin q < k * C) := inv'.offs
      have hcol : ∀ q, q < N → t.cols.data q = lin q % C := inv'.cols
      have hosz : t.offs.size = R + 1 := inv'.osz
      have hcsz : t.cols.size = N := inv'.csz
      have o_eq : ∀ r, CM.o ⟨CHdr.new R C, ⟨vals, t.cols, t.offs⟩⟩ r = t.offs.data r := by
        intro r; unfold CM.o; simp [CHdr.new]
      refine ⟨_, rfl, CM.Is.ofRows rfl rfl (by simp [CHdr.new, hosz]) ?_ ?_ ?_⟩
      · rw [o_eq]; exact Nat.le_trans (hoN R (Nat.le_refl _)).1 v1
      · rw [o_eq]; have := (hoN R (Nat.le_refl _)).1; simp only [CHdr.new]; omega
      · intro r hr
        simp only [reshaped] at hr ⊢
        rw [o_eq, o_eq]
        obtain ⟨b1, b2⟩ := hoN r (by omega)
        obtain ⟨c1, c2⟩ := hoN (r + 1) (by omega)
        have hin : ∀ q, t.offs.data r ≤ q → q < t.offs.data (r + 1) → q < N ∧ lin q = r * C + lin q % C ∧ lin q % C < C := by
          intro q h1 h2
          have hq : q < N := by omega
          have hCp : 0 < C := by rcases hC with h | h; exact h; omega
          have h3 : ¬ lin q < r * C := fun h => by have := (b2 q hq).2 h; omega
          have h4 := (c2 q hq).1 h2
          have e5 : (r + 1) * C = r * C + C := by ring
          have hd : lin q / C = r := by
            apply Nat.le_antisymm
            · have := (Nat.div_lt_iff_lt_mul hCp).2 h4; omega
            · exact (Nat.le_div_iff_mul_le hCp).2 (by omega)
          refine ⟨hq, ?_, Nat.mod_lt _ hCp⟩
          have := Nat.div_add_mod (lin q) C
          rw [hd, Nat.mul_comm] at this; omega
        refine ⟨?_, ?_, ?_, ?_, ?_⟩
        · by_cases h : t.offs.data r ≤ t.offs.data (r + 1)
          · exact h
          · exfalso
            have hq : t.offs.data (r + 1) < N := by omega
            have h1 := (b2 _ hq).1 (by omega)
            have h2 := (c2 _ hq).2 (by have : r * C ≤ (r + 1) * C := Nat.mul_le_mul_right _ (by omega); omega)
            omega
        · intro p q h1 h2 h3
          obtain ⟨i1, i2, i3⟩ := hin p h1 (by omega)
          obtain ⟨j1, j2, j3⟩ := hin q (by omega) h3
          rw [hcol p i1, hcol q j1]
          have := hasc p q h2 j1
          omega
        · intro p h1 h2
          obtain ⟨i1, i2, i3⟩ := hin p h1 h2
          rw [hcol p i1]; exact i3
        · intro p h1 h2
          obtain ⟨i1, i2, i3⟩ := hin p h1 h2
          rw [hcol p i1, ← i2, v2 p i1]
          exact (hcell p i1).2
        · intro c hc hno
          have hlt := rm_lt hr hc (Nat.le_refl C)
          rw [hn] at hlt
          refine hrest _ hlt fun q hq he => ?_
          have hb : t.offs.data r ≤ q := by
            by_cases h : t.offs.data r ≤ q
            · exact h
            · have := (b2 q hq).1 (by omega); omega
          have hb2 : q < t.offs.data (r + 1) := (c2 q hq).2 (by have e5 : (r + 1) * C = r * C + C := by ring
                                                                omega)
          obtain ⟨i1, i2, i3⟩ := hin q hb hb2
          refine hno q hb hb2 ?_
          rw [hcol q hq]; omega
  · intro hn
    rw [if_neg (by rintro ⟨h1, h2⟩; rw [e1] at h1; rw [e2] at h2; subst h1; subst h2; exact hn rfl), if_pos (by rw [e1, e2]; exact hn)]
    exact ⟨_, rfl⟩

/-! ### A full view of a row view -/

/-- Three 1-column rows with values 5, 6, 7. -/
def exCol : CM Nat := ⟨CHdr.new 3 1, ⟨⟨3, fun i => i + 5⟩, ⟨3, fun _ => 0⟩, ⟨4, fun i => i⟩⟩⟩

theorem exCol_is : exCol.Is 0 ⟨3, 1, fun r _ => r + 5⟩ := by
  refine ⟨⟨by decide, fun r _ => by simp [CM.o, exCol, CHdr.new], by decide, by decide, ?_, ?_⟩, rfl, rfl, ?_, ?_⟩
  · intro r p q _ h1 h2 h3
    simp only [CM.o, exCol, CHdr.new] at h1 h3
    omega
  · intro r p _ _ _; simp [exCol, CHdr.new]
  · intro r p _ h1 h2
    simp only [CM.o, exCol, CHdr.new] at h1 h2
    simp only [exCol]; omega
  · intro r c _ hc hno
    have h := hno r (by simp [CM.o, exCol, CHdr.new]) (by simp [CM.o, exCol, CHdr.new])
    simp only at hc
    simp only [exCol] at h
    omega

/-- **C90 (refuted).** `X[1:3, ]` of a sparse column with values 5, 6, 7, taken twice (the second slice covers all rows of the
first one): the object still shows 6 and 7, but it is not recognised as a view, and its reshape to a row shows 5 and 6. -/
theorem C90_reshape_nested_view_partial :
    ∃ (v w : CHdr) (y : CM Nat), exCol.h.sliceRow 1 3 = .ok v ∧ v.sliceRow 0 2 = .ok w ∧
      CM.Is 0 ⟨w, exCol.mem⟩ ⟨2, 1, fun r _ => r + 6⟩ ∧ w.isView = false ∧
      reshapeCsr ⟨w, exCol.mem⟩ 1 2 (fun _ => 0) (fun _ => 0) (fun _ => 0) = .ok y ∧
      y.h.get 0 y.mem 0 0 = .ok 5 ∧ y.h.get 0 y.mem 0 1 = .ok 6 := by
  obtain ⟨v, hv, is1, -⟩ := (exCol_is.sliceRow (rl := 1) (ru := 3)).1 (by decide) (by decide)
  have hv' : v = ⟨2, 1, 2, true, 1, 0⟩ := by
    have : exCol.h.sliceRow 1 3 = .ok ⟨2, 1, 2, true, 1, 0⟩ := rfl
    rw [this] at hv; injection hv with hv; exact hv.symm
  subst hv'
  obtain ⟨w, hw, is2, -⟩ := (is1.sliceRow (rl := 0) (ru := 2)).1 (by decide) (by decide)
  have hw' : w = ⟨2, 1, 2, false, 1, 0⟩ := by
    have : CHdr.sliceRow ⟨2, 1, 2, true, 1, 0⟩ 0 2 = .ok ⟨2, 1, 2, false, 1, 0⟩ := rfl
    simp only [this] at hw; injection hw with hw; exact hw.symm
  subst hw'
  refine ⟨_, _, _, hv, hw, ?_, rfl, rfl, rfl, rfl⟩
  exact is2.congr ⟨rfl, rfl, fun r c _ _ => by simp only [Mat.window]; omega⟩

/-- **C92 (refuted).** The view `X[, 0:0]` of a 2 × 1 matrix has 2 rows and no columns; reversing it writes two values into the
empty allocation of the result. -/
theorem C92_reverse_no_columns_partial (junk : Nat → Nat) :
    ∃ v : Hdr, (Hdr.new 2 1).view 0 2 0 0 = .ok v ∧ DM.Is ⟨v, (⟨2, fun i => i⟩ : Buf Nat)⟩ ⟨2, 0, fun _ _ => 0⟩ ∧
      Res.IsUB (reverseDense junk ⟨v, ⟨2, fun i => i⟩⟩) := by
  refine ⟨_, rfl, ⟨⟨?_, ?_, ?_, ?_⟩, rfl, rfl, ?_⟩, _, rfl⟩
  · decide
  · rfl
  · intro r c _ h; exact absurd h (Nat.not_lt_zero _)
  · intro h; cases h
  · intro r c _ h; exact absurd h (Nat.not_lt_zero _)

/-! ### The hypotheses are met -/

/-- A 3 × 2 window of the 3 × 4 matrix 0..11 (not contiguous) becomes 2 × 3. -/
example : ∃ v : Hdr, exM.h.view 0 3 1 3 = .ok v ∧ DM.Is ⟨v, exM.mem⟩ ⟨3, 2, fun r c => r * 4 + (1 + c)⟩ ∧
    ∃ y, reshapeDense (fun _ => 0) ⟨v, exM.mem⟩ 2 3 = .ok y ∧ y.get 1 0 = .ok 6 := by
  obtain ⟨v, h1, h2⟩ := exM_is.view (rl := 0) (ru := 3) (cl := 1) (cu := 3) (by decide) (by decide)
  have hv : v = ⟨3, 2, 4, 1, 0, 1, 12, true, 0, 0⟩ := by
    have : exM.h.view 0 3 1 3 = .ok ⟨3, 2, 4, 1, 0, 1, 12, true, 0, 0⟩ := rfl
    rw [this] at h1; injection h1 with h1; exact h1.symm
  subst hv
  have h3 : DM.Is _ ⟨3, 2, fun r c => r * 4 + (1 + c)⟩ :=
    h2.congr ⟨rfl, rfl, fun r c _ _ => by simp only [Mat.window]; simp⟩
  refine ⟨_, h1, h3, ?_⟩
  obtain ⟨y, h4, h5⟩ := (C88_reshape (fun _ => 0) _ _ h3 2 3).1 rfl
  exact ⟨y, h4, h5.2.2.2 1 0 (by decide) (by decide)⟩

/-- The sparse column 5, 6, 7 becomes a row. -/
example : ∃ y, reshapeCsr exCol 1 3 (fun _ => 0) (fun _ => 0) (fun _ => 0) = .ok y ∧ y.h.get 0 y.mem 0 2 = .ok 7 := by
  obtain ⟨y, h1, h2⟩ := (C89_reshape_sparse 0 exCol _ exCol_is 1 3 (fun _ => 0) (fun _ => 0) (fun _ => 0)).1 rfl (Or.inr rfl)
  exact ⟨y, h1, h2.get (by decide) (by decide)⟩

end Verif.Shape
