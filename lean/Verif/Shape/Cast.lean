/-
  Model of src/runtime/local/kernels/CastObj.h for matrices (lines 177-386) and properties C102-C105.

  Simplifications: `res == nullptr` on entry; `castSca` is an arbitrary total function; sharing of the values array between the
  dense argument and the sparse result (lines 300-307) is modelled as a view of the memory at the moment of the call: later
  updates of one object are not modelled.
-/
import Verif.Shape.Cells
import Verif.Agg.Limits

namespace Verif.Shape
open Verif Verif.Dense Verif.Csr
variable {α β : Type}

/-! ### Specification -/

/-- Every cell converted. -/
def converted (f : α → β) (a : Mat α) : Mat β := ⟨a.rows, a.cols, fun r c => f (a.cell r c)⟩

/-! ### Model -/

/-- CastObj.h:177-205. -/
def castDense (f : α → β) (x : DM α) (junk : Nat → β) : Res (DM β) :=
  let res := DM.create x.numRows x.numCols junk
  if x.h.rowSkip = x.numCols ∧ res.h.rowSkip = x.numCols then do
    let m ← forLoop 0 (x.numCols * x.numRows) res.mem fun i m => do
      let v ← x.mem.read (x.h.start + i)
      m.write (res.h.start + i) (f v)
    .ok ⟨res.h, m⟩
  else do
    let m ← forLoop 0 x.numRows res.mem fun r m =>
      forLoop 0 x.numCols m fun c m => do
        let v ← x.mem.read (x.addr r c)
        m.write (res.addr r c) (f v)
    .ok ⟨res.h, m⟩

/-- CastObj.h:242-247: one stored entry; `s` = (result values, `prevPosRes`). -/
def unpackEntry (zero : α) (x : CM α) (base p i : Nat) (s : Buf α × Nat) : Res (Buf α × Nat) := do
  let c ← x.mem.cols.read (p + i)
  let m ← s.1.fill s.2 (base + c) zero
  let v ← x.mem.vals.read (p + i)
  let m ← m.write (base + c) v
  .ok (m, base + c + 1)

/-- CastObj.h:238-249: one row; `posResRow` is `r * numCols`. -/
def unpackRow (zero : α) (x : CM α) (r : Nat) (s : Buf α × Nat) : Res (Buf α × Nat) := do
  let n ← x.h.rowNumNonZeros x.mem r
  let p ← x.h.rowPtr x.mem r
  forLoop 0 n s fun i s => unpackEntry zero x (r * x.h.numCols) p i s

/-- CastObj.h:211-254. -/
def castToDense (zero : α) (x : CM α) (junk : Nat → α) : Res (DM α) := do
  let nnz ← x.h.numNonZeros x.mem
  let res := DM.create x.h.numRows x.h.numCols junk
  if nnz = 0 then do
    let m ← res.mem.fill res.h.start (res.h.start + x.h.numRows * x.h.numCols) zero
    .ok ⟨res.h, m⟩
  else if nnz = x.h.numRows * x.h.numCols then do
    let p ← x.h.rowPtr x.mem 0
    let m ← x.mem.vals.copy p res.mem res.h.start nnz
    .ok ⟨res.h, m⟩
  else do
    let s ← forLoop 0 x.h.numRows (res.mem, 0) fun r s => unpackRow zero x r s
    let m ← s.1.fill s.2 (x.h.numRows * x.h.numCols) zero
    .ok ⟨res.h, m⟩

/-- CastObj.h:268-277: counting the non-zeros. -/
def countNonZeros [DecidableEq α] (zero : α) (x : DM α) : Res Nat :=
  forLoop 0 x.numRows 0 fun r k =>
    forLoop 0 x.numCols k fun c k => do
      let v ← x.mem.read (x.addr r c)
      .ok (if v ≠ zero then k + 1 else k)

/-- CastObj.h:336-343: one cell of the common case. -/
def packCell [DecidableEq α] (zero : α) (x : DM α) (r c : Nat) (s : TS α) : Res (TS α) := do
  let v ← x.mem.read (x.addr r c)
  if v ≠ zero then do
    let vs ← s.vals.write s.pos v
    let cs ← s.cols.write s.pos c
    .ok ⟨vs, cs, s.pos + 1⟩
  else .ok s

/-- CastObj.h:335-347: one row of the common case. -/
def packRow [DecidableEq α] (zero : α) (x : DM α) (r : Nat) (s : TS α × Buf Nat) : Res (TS α × Buf Nat) := do
  let t ← forLoop 0 x.numCols s.1 fun c t => packCell zero x r c t
  let o ← s.2.write (r + 1) t.pos
  .ok (t, o)

/-- CastObj.h:298-319: the values array of a result without zeros: shared with the argument if contiguous, else copied row by row. -/
def packAllVals (x : DM α) (nnz : Nat) (jv : Nat → α) : Res (Buf α) :=
  if x.h.rowSkip = x.numCols ∨ x.numRows = 1 then .ok ⟨x.mem.size - x.h.start, fun i => x.mem.data (x.h.start + i)⟩
  else forLoop 0 x.numRows (⟨nnz, jv⟩ : Buf α) fun r v => x.mem.copy (x.addr r 0) v (r * x.numCols) x.numCols

/-- CastObj.h:260-353. The column indexes and offsets of a result without zeros (lines 323-330) are computed as in `fill`. -/
def castToSparse [DecidableEq α] (zero : α) (x : DM α) (jv : Nat → α) (jc jo : Nat → Nat) : Res (CM α) := do
  let nnz ← countNonZeros zero x
  if nnz = 0 then do
    let o ← (⟨x.numRows + 1, jo⟩ : Buf Nat).fill 0 (x.numRows + 1) 0
    .ok ⟨CHdr.new x.numRows x.numCols, ⟨⟨0, jv⟩, ⟨0, jc⟩, o⟩⟩
  else if nnz = x.numRows * x.numCols then do
    let vs ← packAllVals x nnz jv
    let s ← forLoop 0 x.numRows ((⟨nnz, jc⟩ : Buf Nat), (⟨x.numRows + 1, jo⟩ : Buf Nat)) fun r s => fillRow x.numCols r s
    let o ← s.2.write x.numRows (x.numRows * x.numCols)
    .ok ⟨CHdr.new x.numRows x.numCols, ⟨vs, s.1, o⟩⟩
  else do
    let o ← (⟨x.numRows + 1, jo⟩ : Buf Nat).write 0 0
    let s ← forLoop 0 x.numRows ((⟨⟨nnz, jv⟩, ⟨nnz, jc⟩, 0⟩ : TS α), o) fun r s => packRow zero x r s
    .ok ⟨CHdr.new x.numRows x.numCols, ⟨s.1.vals, s.1.cols, s.2⟩⟩

/-- CastObj.h:376-379: one entry. -/
def castEntry (f : α → β) (x : CM α) (i : Nat) (s : Buf β × Buf Nat) : Res (Buf β × Buf Nat) := do
  let v ← x.mem.vals.read i
  let vs ← s.1.write i (f v)
  let c ← x.mem.cols.read i
  let cs ← s.2.write i c
  .ok (vs, cs)

/-- CastObj.h:361-386: sparse to sparse with another value type. The result is created with `getNumCols()` rows and
`getNumRows()` columns (line 365); the arrays are zero-initialised. -/
def castSparse (f : α → β) (zero : β) (x : CM α) : Res (CM β) := do
  let nnz ← x.h.numNonZeros x.mem
  let R := x.h.numCols
  let C := x.h.numRows
  let s ← forLoop 0 nnz ((⟨nnz, fun _ => zero⟩ : Buf β), (⟨nnz, fun _ => 0⟩ : Buf Nat)) fun i s => castEntry f x i s
  let o ← forLoop 0 (x.h.numRows + 1) (⟨R + 1, fun _ => 0⟩ : Buf Nat) fun r o => do
    let v ← x.h.off x.mem r
    o.write r v
  .ok ⟨CHdr.new R C, ⟨s.1, s.2, o⟩⟩

/-! ### Dense to dense -/

/-- **C102.** A cast of a dense matrix or view to another value type converts every cell. -/
theorem C102_cast_dense (f : α → β) (x : DM α) (a : Mat α) (hx : x.Is a) (junk : Nat → β) :
    Res.Ok (castDense f x junk) (fun y => y.Is (converted f a)) := by
  have e1 : x.numRows = a.rows := hx.rows
  have e2 : x.numCols = a.cols := hx.cols
  unfold castDense
  simp only
  rw [e1, e2]
  by_cases hs : x.h.rowSkip = a.cols ∧ (DM.create a.rows a.cols junk).h.rowSkip = a.cols
  · rw [if_pos hs]
    have hl := forLoop_ok (fun i (m : Buf β) => m.size = a.rows * a.cols ∧ ∀ p, p < i → m.data p = f (a.cell (p / a.cols) (p % a.cols)))
      0 (a.cols * a.rows) (DM.create a.rows a.cols junk).mem (body := fun i m => do
        let v ← x.mem.read (x.h.start + i)
        m.write ((DM.create a.rows a.cols junk).h.start + i) (f v)) (Nat.zero_le _) ⟨rfl, fun p h => by omega⟩ (by
      rintro i m - hi ⟨g1, g2⟩
      rw [Nat.mul_comm] at hi
      obtain ⟨l1, l2, l3⟩ := lin_split hi
      have hr := hx.read l1 l2
      have ea : x.addr (i / a.cols) (i % a.cols) = x.h.start + i := by unfold DM.addr; rw [hs.1]; omega
      rw [ea] at hr
      rw [hr, create_start, Nat.zero_add]
      simp only [Res.ok_bind]
      rw [Buf.write_eq (by omega)]
      refine Res.ok_iff.2 ⟨g1, fun p hp => ?_⟩
      rw [Buf.put_data]
      by_cases e : p = i
      · rw [if_pos e, e]
      · rw [if_neg e]; exact g2 p (by omega))
    refine hl.bind ?_
    rintro m ⟨g1, g2⟩
    refine ⟨_, rfl, is_new g1 fun r c hr hc => ?_⟩
    have hlt := rm_lt hr hc (Nat.le_refl a.cols)
    rw [g2 _ (by rw [Nat.mul_comm a.cols]; exact hlt)]
    have hp : 0 < a.cols := by omega
    rw [Nat.mul_comm r, Nat.mul_add_div hp, Nat.mul_add_mod, Nat.div_eq_of_lt hc, Nat.mod_eq_of_lt hc, Nat.add_zero]
  · rw [if_neg hs]
    refine (fill_cells (rows := a.rows) (cols := a.cols) (m := (DM.create a.rows a.cols junk).mem) rfl (converted f a).cell _ ?_).bind ?_
    · intro r c m hr hc hm
      rw [hx.read hr hc]
      simp only [Res.ok_bind]
      rw [create_addr, Buf.write_eq (by rw [hm]; exact rm_lt hr hc (Nat.le_refl _))]; rfl
    · rintro m ⟨g1, g2⟩
      exact ⟨_, rfl, is_new g1 g2⟩

/-! ### Sparse to dense -/

/-- The positions of `n` ascending numbers below `n` are themselves. -/
theorem ascending_id {g : Nat → Nat} {n : Nat} (h1 : ∀ q q', q < q' → q' < n → g q < g q') (h2 : ∀ q, q < n → g q < n) :
    ∀ q, q < n → g q = q := by
  have lo : ∀ q, q < n → q ≤ g q := by
    intro q
    induction q with
    | zero => intro _; exact Nat.zero_le _
    | succ q ih => intro h; have := ih (by omega); have := h1 q (q + 1) (by omega) h; omega
  have hi : ∀ k q, n = q + k + 1 → g q ≤ q := by
    intro k
    induction k with
    | zero => intro q e; have := h2 q (by omega); omega
    | succ k ih => intro q e; have := ih (q + 1) (by omega); have := h1 q (q + 1) (by omega) (by omega); omega
  intro q hq
  have := lo q hq
  have := hi (n - 1 - q) q (by omega)
  omega

/-- **C103 (sparse to dense).** A cast of a sparse matrix or row view to dense shows the same cells. -/
theorem C103_cast_to_dense (zero : α) (x : CM α) (a : Mat α) (hx : x.Is zero a) (junk : Nat → α) :
    Res.Ok (castToDense zero x junk) (fun y => y.Is a) := by
  have e1 := hx.rows
  have e2 := hx.cols
  have w := hx.wf
  obtain ⟨lin, l1, l2, l3, l4⟩ := CM.Is.linear hx
  have m0 := w.mono' (r := 0) (r' := a.rows) (Nat.zero_le _) (by omega)
  have hnnz : x.h.numNonZeros x.mem = .ok (x.o a.rows - x.o 0) := by
    unfold CHdr.numNonZeros
    rw [w.off (Nat.le_refl _), w.off (Nat.zero_le _), e1]; rfl
  have split : ∀ r c, r < a.rows → c < a.cols → r * a.cols + c < a.rows * a.cols ∧ (r * a.cols + c) / a.cols = r ∧ (r * a.cols + c) % a.cols = c := by
    intro r c hr hc
    refine ⟨rm_lt hr hc (Nat.le_refl _), ?_, ?_⟩
    · rw [Nat.mul_comm r, Nat.mul_add_div (by omega), Nat.div_eq_of_lt hc, Nat.add_zero]
    · rw [Nat.mul_comm r, Nat.mul_add_mod, Nat.mod_eq_of_lt hc]
  unfold castToDense
  rw [hnnz, e1, e2]
  simp only [Res.ok_bind]
  rw [create_start]
  by_cases h0 : x.o a.rows - x.o 0 = 0
  · rw [if_pos h0]
    refine (Buf.fill_ok (Or.inr (by rw [create_size]; omega))).bind ?_
    rintro m ⟨g1, g2⟩
    refine ⟨_, rfl, is_new g1 fun r c hr hc => ?_⟩
    obtain ⟨s1, s2, s3⟩ := split r c hr hc
    have := l4 _ s1 (fun q hq => by omega)
    rw [s2, s3] at this
    rw [g2, if_pos (by omega), this]
  · rw [if_neg h0]
    have topv := w.topV
    rw [e1] at topv
    by_cases hfull : x.o a.rows - x.o 0 = a.rows * a.cols
    · rw [if_pos hfull, w.rowPtr (Nat.zero_le _)]
      simp only [Res.ok_bind]
      refine (Buf.copy_ok (Or.inr (by omega)) (Or.inr (by rw [create_size]; omega))).bind ?_
      rintro m ⟨g1, g2⟩
      refine ⟨_, rfl, is_new g1 fun r c hr hc => ?_⟩
      obtain ⟨s1, s2, s3⟩ := split r c hr hc
      have hid := ascending_id (n := a.rows * a.cols) (fun q q' h h' => l2 q q' h (by omega)) (fun q h => (l3 q (by omega)).1)
        (r * a.cols + c) s1
      have h3 := (l3 (r * a.cols + c) (by omega)).2
      rw [hid, s2, s3] at h3
      rw [g2, if_pos (by omega), h3, Nat.sub_zero]
    · rw [if_neg hfull]
      have lin_mono : ∀ q q', q ≤ q' → q' < x.o a.rows - x.o 0 → lin q ≤ lin q' := by
        intro q q' h1 h2
        rcases Nat.eq_or_lt_of_le h1 with e | e
        · rw [e]
        · exact Nat.le_of_lt (l2 q q' e h2)
      -- position behind the `n`-th entry
      let after : Nat → Nat := fun n => if n = 0 then 0 else lin (n - 1) + 1
      have after_gt : ∀ n, n ≤ x.o a.rows - x.o 0 → ∀ q, q < n → lin q < after n := by
        intro n hn q hq
        simp only [after]
        rw [if_neg (by omega)]
        exact Nat.lt_succ_of_le (lin_mono q (n - 1) (by omega) (by omega))
      have after_le : ∀ n, n < x.o a.rows - x.o 0 → after n ≤ lin n := by
        intro n hn
        simp only [after]
        split
        · exact Nat.zero_le _
        · exact l2 _ _ (by omega) hn
      have gap : ∀ n, n ≤ x.o a.rows - x.o 0 → ∀ p, p < a.rows * a.cols → after n ≤ p → (n = x.o a.rows - x.o 0 ∨ p < lin n) →
          a.cell (p / a.cols) (p % a.cols) = zero := by
        intro n hn p hp h1 h2
        refine l4 p hp fun q hq e => ?_
        by_cases hqn : q < n
        · have := after_gt n hn q hqn; omega
        · rcases h2 with h2 | h2
          · omega
          · have := lin_mono n q (by omega) hq; omega
      have hl := forLoop_ok (fun i (s : Buf α × Nat) => s.1.size = a.rows * a.cols ∧ s.2 = after (x.o i - x.o 0) ∧
          (∀ p, p < s.2 → p < a.rows * a.cols → s.1.data p = a.cell (p / a.cols) (p % a.cols)))
        0 a.rows ((DM.create a.rows a.cols junk).mem, 0) (body := fun r s => unpackRow zero x r s) (Nat.zero_le _)
        ⟨rfl, by simp only [Nat.sub_self, after, if_pos], fun p h => by simp only at h; omega⟩ (by
        rintro i ⟨m, prev⟩ - hi ⟨s1, s2, s3⟩
        simp only at s1 s2 s3
        have m1 := w.mono i (by omega)
        have m2 := w.mono' (r := 0) (r' := i) (Nat.zero_le _) (by omega)
        have m3 := w.mono' (r := i + 1) (r' := a.rows) (by omega) (by omega)
        have ht := w.rowTop (r := i) (by omega)
        have hnn : x.h.rowNumNonZeros x.mem i = .ok (x.o (i + 1) - x.o i) := by
          unfold CHdr.rowNumNonZeros
          rw [if_neg (by omega), w.off (by omega), w.off (by omega)]; rfl
        unfold unpackRow
        rw [hnn, w.rowPtr (by omega), e2]
        simp only [Res.ok_bind]
        refine forLoop_post (fun j (s : Buf α × Nat) => s.1.size = a.rows * a.cols ∧ s.2 = after (x.o i + j - x.o 0) ∧
            (∀ p, p < s.2 → p < a.rows * a.cols → s.1.data p = a.cell (p / a.cols) (p % a.cols))) 0 _ (m, prev) (Nat.zero_le _)
          ⟨s1, by simpa using s2, s3⟩ ?_ ?_
        · rintro j ⟨m, prev⟩ - hj ⟨t1, t2, t3⟩
          simp only at t1 t2 t3
          have hb := (hx.row hi).bound (x.o i + j) (by omega) (by omega)
          have hlin := l1 i (x.o i + j) hi (by omega) (by omega)
          have hlt := rm_lt hi hb (Nat.le_refl a.cols)
          have hq := l3 (x.o i + j - x.o 0) (by omega)
          have eq : x.o 0 + (x.o i + j - x.o 0) = x.o i + j := by omega
          rw [eq] at hq
          have hprev := after_le (x.o i + j - x.o 0) (by omega)
          unfold unpackEntry
          rw [Buf.read_eq (by omega)]
          simp only [Res.ok_bind]
          rw [← hlin]
          refine (Buf.fill_ok (Or.inr (by rw [t1]; omega))).bind ?_
          rintro m' ⟨g1, g2⟩
          rw [Buf.read_eq (by omega)]
          simp only [Res.ok_bind]
          rw [Buf.write_eq (by rw [g1, t1]; exact hq.1)]
          have eafter : after (x.o i + (j + 1) - x.o 0) = lin (x.o i + j - x.o 0) + 1 := by
            simp only [after]
            rw [if_neg (by omega), show x.o i + (j + 1) - x.o 0 - 1 = x.o i + j - x.o 0 by omega]
          refine Res.ok_iff.2 ⟨g1.trans t1, eafter.symm, fun p hp hp2 => ?_⟩
          simp only [Buf.put_data] at hp ⊢
          by_cases e : p = lin (x.o i + j - x.o 0)
          · rw [if_pos e, e, hq.2]
          · rw [if_neg e, g2]
            by_cases h : prev ≤ p
            · rw [if_pos ⟨h, by omega⟩]
              exact (gap (x.o i + j - x.o 0) (by omega) p hp2 (by omega) (Or.inr (by omega))).symm
            · rw [if_neg (by omega)]
              exact t3 p (by omega) hp2
        · rintro s ⟨t1, t2, t3⟩
          rw [show x.o i + (x.o (i + 1) - x.o i) = x.o (i + 1) by omega] at t2
          exact ⟨t1, t2, t3⟩)
      refine hl.bind ?_
      rintro ⟨m, prev⟩ ⟨s1, s2, s3⟩
      simp only at s1 s2 s3 ⊢
      refine (Buf.fill_ok (Or.inr (by rw [s1]))).bind ?_
      rintro m' ⟨g1, g2⟩
      refine ⟨_, rfl, is_new (g1.trans s1) fun r c hr hc => ?_⟩
      obtain ⟨t1, t2, t3⟩ := split r c hr hc
      rw [g2]
      by_cases h : prev ≤ r * a.cols + c
      · rw [if_pos ⟨h, t1⟩]
        have := gap (x.o a.rows - x.o 0) (Nat.le_refl _) _ t1 (by omega) (Or.inl rfl)
        rw [t2, t3] at this; exact this.symm
      · rw [if_neg (by omega), s3 _ (by omega) t1, t2, t3]

/-! ### Dense to sparse -/

/-- Number of non-zeros among the first `k` cells in row-major order. -/
def nonZerosBefore [DecidableEq α] (zero : α) (a : Mat α) : Nat → Nat
  | 0 => 0
  | k + 1 => nonZerosBefore zero a k + if a.cell (k / a.cols) (k % a.cols) ≠ zero then 1 else 0

theorem nzb_step [DecidableEq α] (zero : α) (a : Mat α) {r c : Nat} (hc : c < a.cols) :
    nonZerosBefore zero a (r * a.cols + (c + 1)) = nonZerosBefore zero a (r * a.cols + c) + if a.cell r c ≠ zero then 1 else 0 := by
  rw [← Nat.add_assoc]
  show nonZerosBefore zero a _ + _ = _
  rw [Nat.mul_comm r, Nat.mul_add_div (by omega), Nat.mul_add_mod, Nat.div_eq_of_lt hc, Nat.mod_eq_of_lt hc, Nat.add_zero]

theorem nzb_mono [DecidableEq α] (zero : α) (a : Mat α) {k k' : Nat} (h : k ≤ k') : nonZerosBefore zero a k ≤ nonZerosBefore zero a k' := by
  induction k' with
  | zero => rw [Nat.le_zero.1 h]
  | succ n ih =>
    rcases Nat.eq_or_lt_of_le h with e | e
    · rw [e]
    · exact Nat.le_trans (ih (by omega)) (Nat.le_add_right _ _)

theorem countNonZeros_ok [DecidableEq α] (zero : α) (x : DM α) (a : Mat α) (hx : x.Is a) :
    countNonZeros zero x = .ok (nonZerosBefore zero a (a.rows * a.cols)) := by
  have e1 : x.numRows = a.rows := hx.rows
  have e2 : x.numCols = a.cols := hx.cols
  unfold countNonZeros
  rw [e1, e2]
  have := forLoop_ok (fun r (k : Nat) => k = nonZerosBefore zero a (r * a.cols)) 0 a.rows 0 (body := fun r k =>
    forLoop 0 a.cols k fun c k => do
      let v ← x.mem.read (x.addr r c)
      .ok (if v ≠ zero then k + 1 else k)) (Nat.zero_le _) (by rw [Nat.zero_mul]; rfl) (by
    rintro r k - hr hk
    refine forLoop_post (fun c (k : Nat) => k = nonZerosBefore zero a (r * a.cols + c)) 0 a.cols k (Nat.zero_le _) hk ?_ ?_
    · rintro c k - hc hk
      rw [hx.read hr hc]
      simp only [Res.ok_bind]
      refine Res.ok_iff.2 ?_
      rw [nzb_step zero a hc, hk]
      split <;> rfl
    · rintro k hk
      rw [hk, Nat.succ_mul])
  obtain ⟨k, h1, h2⟩ := this
  rw [h1, h2]

theorem packRow_ok [DecidableEq α] (zero : α) (x : DM α) (a : Mat α) (hx : x.Is a) {r cap : Nat} (hr : r < a.rows) (s : TS α)
    (sv : s.vals.size = cap) (sc : s.cols.size = cap) (hp : s.pos = nonZerosBefore zero a (r * a.cols))
    (room : nonZerosBefore zero a ((r + 1) * a.cols) ≤ cap) :
    Res.Ok (forLoop 0 a.cols s fun c t => packCell zero x r c t) (fun t =>
      t.vals.size = cap ∧ t.cols.size = cap ∧ t.pos = nonZerosBefore zero a ((r + 1) * a.cols) ∧
      (∀ q, q < s.pos → t.vals.data q = s.vals.data q ∧ t.cols.data q = s.cols.data q) ∧
      RowOk zero t.cols.data t.vals.data s.pos t.pos a.cols (a.cell r)) := by
  refine forLoop_post (fun c (t : TS α) => t.vals.size = cap ∧ t.cols.size = cap ∧ t.pos = nonZerosBefore zero a (r * a.cols + c) ∧
      (∀ q, q < s.pos → t.vals.data q = s.vals.data q ∧ t.cols.data q = s.cols.data q) ∧ s.pos ≤ t.pos ∧
      (∀ q q', s.pos ≤ q → q < q' → q' < t.pos → t.cols.data q < t.cols.data q') ∧
      (∀ q, s.pos ≤ q → q < t.pos → t.cols.data q < c ∧ a.cell r (t.cols.data q) = t.vals.data q) ∧
      (∀ c', c' < c → a.cell r c' ≠ zero → ∃ q, s.pos ≤ q ∧ q < t.pos ∧ t.cols.data q = c'))
    0 a.cols s (Nat.zero_le _) ⟨sv, sc, hp, fun q _ => ⟨rfl, rfl⟩, Nat.le_refl _, fun q q' _ _ _ => by omega, fun q _ _ => by omega,
      fun c h => by omega⟩ ?_ ?_
  · rintro c t - hc ⟨t1, t2, t3, t4, t5, t6, t7, t8⟩
    have hst := nzb_step zero a (r := r) hc
    have hle := nzb_mono zero a (k := r * a.cols + (c + 1)) (k' := (r + 1) * a.cols) (by rw [Nat.succ_mul]; omega)
    unfold packCell
    rw [hx.read hr hc]
    simp only [Res.ok_bind]
    by_cases hz : a.cell r c = zero
    · rw [if_neg (by simpa using hz)]
      rw [if_neg (by simpa using hz)] at hst
      refine Res.ok_iff.2 ⟨t1, t2, by omega, t4, t5, t6, fun q h1 h2 => ⟨by have := (t7 q h1 h2).1; omega, (t7 q h1 h2).2⟩, fun c' hc' hne => ?_⟩
      by_cases e : c' = c
      · subst e; exact absurd hz hne
      · exact t8 c' (by omega) hne
    · rw [if_pos hz]
      rw [if_pos hz] at hst
      rw [Buf.write_eq (by omega)]
      simp only [Res.ok_bind]
      rw [Buf.write_eq (by omega)]
      refine Res.ok_iff.2 ⟨t1, t2, by simp only; omega, ?_, by simp only; omega, ?_, ?_, ?_⟩
      · intro q hq
        simp only [Buf.put_data]
        rw [if_neg (by omega), if_neg (by omega)]; exact t4 q hq
      · intro q q' h1 h2 h3
        simp only [Buf.put_data] at h3 ⊢
        rw [if_neg (by omega : q ≠ t.pos)]
        by_cases e : q' = t.pos
        · rw [if_pos e]; exact (t7 q h1 (by omega)).1
        · rw [if_neg e]; exact t6 q q' h1 h2 (by omega)
      · intro q h1 h2
        simp only [Buf.put_data] at h2 ⊢
        by_cases e : q = t.pos
        · rw [if_pos e, if_pos e]; exact ⟨by omega, rfl⟩
        · rw [if_neg e, if_neg e]
          have := t7 q h1 (by omega)
          exact ⟨by omega, this.2⟩
      · intro c' hc' hne
        simp only [Buf.put_data]
        by_cases e : c' = c
        · exact ⟨t.pos, t5, by omega, by rw [if_pos rfl, e]⟩
        · obtain ⟨q, q1, q2, q3⟩ := t8 c' (by omega) hne
          exact ⟨q, q1, by omega, by rw [if_neg (by omega), q3]⟩
  · rintro t ⟨t1, t2, t3, t4, t5, t6, t7, t8⟩
    refine ⟨t1, t2, by rw [t3, Nat.succ_mul], t4, t5, t6, fun q h1 h2 => (t7 q h1 h2).1, fun q h1 h2 => (t7 q h1 h2).2, fun c hc hno => ?_⟩
    by_contra hne
    obtain ⟨q, q1, q2, q3⟩ := t8 c hc hne
    exact hno q q1 q2 q3

/-- **C103 (dense to sparse).** A cast of a dense matrix or view to sparse shows the same cells. -/
theorem C103_cast_to_sparse [DecidableEq α] (zero : α) (x : DM α) (a : Mat α) (hx : x.Is a) (jv : Nat → α) (jc jo : Nat → Nat) :
    Res.Ok (castToSparse zero x jv jc jo) (fun y => y.Is zero a) := by
  have e1 : x.numRows = a.rows := hx.rows
  have e2 : x.numCols = a.cols := hx.cols
  unfold castToSparse
  rw [countNonZeros_ok zero x a hx]
  simp only [Res.ok_bind]
  rw [e1, e2]
  generalize hN : nonZerosBefore zero a (a.rows * a.cols) = N
  by_cases h0 : N = 0
  · rw [if_pos h0]
    refine (Buf.fill_ok (Or.inr (Nat.le_refl _))).bind ?_
    rintro o ⟨g1, g2⟩
    simp only at g1 g2
    have o_eq : ∀ r, r ≤ a.rows → CM.o ⟨CHdr.new a.rows a.cols, ⟨⟨0, jv⟩, ⟨0, jc⟩, o⟩⟩ r = 0 := by
      intro r hr; unfold CM.o; simp only [CHdr.new, Nat.zero_add]; rw [g2, if_pos (by omega)]
    refine ⟨_, rfl, CM.Is.ofRows rfl rfl (by simp [CHdr.new, g1]) (Nat.le_of_eq (o_eq _ (Nat.le_refl _)))
      (Nat.le_of_eq (o_eq _ (Nat.le_refl _))) fun r hr => ?_⟩
    rw [o_eq _ (by omega), o_eq _ (by omega)]
    refine ⟨Nat.le_refl _, fun p q h1 h2 h3 => by omega, fun p h1 h2 => by omega, fun p h1 h2 => by omega, fun c hc _ => ?_⟩
    by_contra hne
    have h1 := nzb_step zero a (r := r) hc
    rw [if_pos hne] at h1
    have h2 := nzb_mono zero a (k := r * a.cols + (c + 1)) (k' := a.rows * a.cols) (by
      have := rm_lt hr hc (Nat.le_refl a.cols); omega)
    omega
  · rw [if_neg h0]
    by_cases hfull : N = a.rows * a.cols
    · rw [if_pos hfull]
      -- the values array
      have hv : Res.Ok (packAllVals x N jv) (fun vs => a.rows * a.cols ≤ vs.size ∧
          ∀ r c, r < a.rows → c < a.cols → vs.data (r * a.cols + c) = a.cell r c) := by
        unfold packAllVals
        rw [e1, e2]
        by_cases hc : x.h.rowSkip = a.cols ∨ a.rows = 1
        · rw [if_pos hc]
          have hpos : 0 < a.rows * a.cols := by omega
          have hR : 0 < a.rows := Nat.pos_of_mul_pos_right hpos
          have hC : 0 < a.cols := Nat.pos_of_mul_pos_left hpos
          have hb := hx.wf.start
          refine ⟨_, rfl, ?_, fun r c hr hc' => ?_⟩
          · have := hx.inb (r := a.rows - 1) (c := a.cols - 1) (by omega) (by omega)
            simp only
            rw [hb]
            have e : (a.rows - 1) * x.h.rowSkip + a.cols = a.rows * a.cols := by
              rcases hc with hc | hc
              · rw [hc, Nat.sub_mul, Nat.one_mul]
                have := Nat.mul_le_mul_right a.cols hR
                omega
              · rw [hc]; simp
            omega
          · simp only
            have := hx.data hr hc'
            rw [hb, ← this]
            rcases hc with hc | hc
            · rw [hc, Nat.add_assoc]
            · have : r = 0 := by omega
              subst this; simp
        · rw [if_neg hc]
          have hf := fill_rows (lo := 0) (hi := a.rows) (rows := a.rows) (cols := a.cols) (m := (⟨N, jv⟩ : Buf α))
            (Nat.zero_le _) (by simpa using hfull) a.cell
            (fun r m => x.mem.copy (x.addr r 0) m (r * a.cols) a.cols)
            (by
              intro r m _ hr hm
              have hb := hx.wf.start
              have hC : 0 < a.cols := by
                rcases Nat.eq_zero_or_pos a.cols with h | h
                · rw [h, Nat.mul_zero] at hfull; omega
                · exact h
              refine (Buf.copy_ok (Or.inr ?_) (Or.inr ?_)).mono ?_
              · have := hx.inb (r := r) (c := a.cols - 1) hr (by omega)
                unfold DM.addr; rw [hb]; omega
              · rw [hm]
                have := rm_lt (r := r) (c := a.cols - 1) hr (by omega) (Nat.le_refl a.cols)
                omega
              · rintro m' ⟨g1, g2⟩
                refine ⟨by rw [g1, hm], fun r' c hc' => ?_⟩
                rw [g2]
                have hseg := rm_seg_iff (r := r') (r' := r) (c0 := 0) (c1 := a.cols) hc' (Nat.le_refl a.cols)
                rw [Nat.add_zero] at hseg
                by_cases e : r' = r
                · subst e
                  rw [if_pos (hseg.2 ⟨rfl, Nat.zero_le _, hc'⟩), if_pos rfl]
                  have := hx.data hr hc'
                  unfold DM.addr; rw [hb, ← this]
                  congr 1; omega
                · rw [if_neg (fun h => e (hseg.1 h).1), if_neg e])
          refine hf.mono ?_
          rintro m ⟨g1, g2⟩
          refine ⟨Nat.le_of_eq g1.symm, fun r c hr hc' => ?_⟩
          rw [g2 r c hc', if_pos ⟨Nat.zero_le _, hr⟩]
      refine hv.bind ?_
      rintro vs ⟨v1, v2⟩
      refine (fillRows_ok a.rows a.cols N hfull jc jo).bind ?_
      rintro ⟨cs, o⟩ ⟨s1, s2, s3, s4⟩
      simp only at s1 s2 s3 s4 ⊢
      rw [Buf.write_eq (by omega)]
      have o_eq : ∀ r, r ≤ a.rows → CM.o ⟨CHdr.new a.rows a.cols, ⟨vs, cs, o.put a.rows (a.rows * a.cols)⟩⟩ r = r * a.cols := by
        intro r hr; unfold CM.o; simp only [CHdr.new, Nat.zero_add, Buf.put_data]
        by_cases h : r = a.rows
        · rw [if_pos h, h]
        · rw [if_neg h]; exact s3 r (by omega)
      refine ⟨_, rfl, CM.Is.ofRows rfl rfl (by simp [CHdr.new, s2]) ?_ ?_ ?_⟩
      · exact Nat.le_trans (Nat.le_of_eq (o_eq _ (Nat.le_refl _))) v1
      · exact Nat.le_of_eq ((o_eq _ (Nat.le_refl _)).trans s1.symm)
      · intro r hr
        rw [o_eq _ (by omega), o_eq _ (by omega)]
        have e : (r + 1) * a.cols = r * a.cols + a.cols := by ring
        have hcol : ∀ p, r * a.cols ≤ p → p < (r + 1) * a.cols → cs.data p = p - r * a.cols := by
          intro p h1 h2
          have := s4 r (p - r * a.cols) hr (by omega)
          rw [show r * a.cols + (p - r * a.cols) = p by omega] at this; exact this
        refine ⟨by omega, fun p q h1 h2 h3 => ?_, fun p h1 h2 => ?_, fun p h1 h2 => ?_, fun c hc hno => ?_⟩
        · simp only; rw [hcol p h1 (by omega), hcol q (by omega) h3]; omega
        · simp only; rw [hcol p h1 h2]; omega
        · simp only; rw [hcol p h1 h2, ← v2 r _ hr (by omega)]; congr 1; omega
        · exact absurd (hcol (r * a.cols + c) (by omega) (by omega)) (by
            have := hno (r * a.cols + c) (by omega) (by omega)
            rw [show r * a.cols + c - r * a.cols = c by omega]; exact this)
    · rw [if_neg hfull, Buf.write_eq (by simp)]
      simp only [Res.ok_bind]
      have hl := forLoop_ok (fun i (s : TS α × Buf Nat) => s.1.vals.size = N ∧ s.1.cols.size = N ∧ s.2.size = a.rows + 1 ∧
          s.2.data i = s.1.pos ∧ s.1.pos = nonZerosBefore zero a (i * a.cols) ∧
          (∀ r, r < i → s.2.data (r + 1) ≤ s.1.pos ∧
            RowOk zero s.1.cols.data s.1.vals.data (s.2.data r) (s.2.data (r + 1)) a.cols (a.cell r)))
        0 a.rows ((⟨⟨N, jv⟩, ⟨N, jc⟩, 0⟩ : TS α), (⟨a.rows + 1, jo⟩ : Buf Nat).put 0 0)
        (body := fun r s => packRow zero x r s)
        (Nat.zero_le _) ⟨rfl, rfl, rfl, by simp, by simp [nonZerosBefore], fun r h => by omega⟩ (by
        rintro i ⟨s, o⟩ - hi ⟨s1, s2, s3, s4, s5, s6⟩
        simp only at s1 s2 s3 s4 s5 s6
        unfold packRow
        rw [e2]
        have hroom := nzb_mono zero a (k := (i + 1) * a.cols) (k' := a.rows * a.cols) (Nat.mul_le_mul_right _ hi)
        refine (packRow_ok zero x a hx hi s s1 s2 s5 (by omega)).bind ?_
        rintro t ⟨t1, t2, t3, t4, t5⟩
        rw [Buf.write_eq (by simp only; omega)]
        refine Res.ok_iff.2 ⟨t1, t2, s3, by simp, t3, ?_⟩
        intro r hr
        simp only [Buf.put_data]
        rw [if_neg (by omega : r ≠ i + 1)]
        have tle := t5.le
        by_cases e : r = i
        · subst e
          rw [if_pos rfl, s4]
          exact ⟨Nat.le_refl _, t5⟩
        · rw [if_neg (by omega)]
          obtain ⟨r1, r2⟩ := s6 r (by omega)
          refine ⟨by omega, ?_⟩
          have r3 := r2.le
          refine r2.shift (by omega) (fun k hk => ?_) (fun k hk => ?_)
          · exact (t4 _ (by omega)).2
          · exact (t4 _ (by omega)).1)
      refine hl.bind ?_
      rintro ⟨s, o⟩ ⟨s1, s2, s3, s4, s5, s6⟩
      simp only at s1 s2 s3 s4 s5 s6
      have o_eq : ∀ r, CM.o ⟨CHdr.new a.rows a.cols, ⟨s.vals, s.cols, o⟩⟩ r = o.data r := by
        intro r; unfold CM.o; simp [CHdr.new]
      refine ⟨_, rfl, CM.Is.ofRows rfl rfl (by simp [CHdr.new, s3]) ?_ ?_ ?_⟩
      · rw [o_eq]; simp only [CHdr.new]; omega
      · rw [o_eq]; simp only [CHdr.new]; omega
      · intro r hr
        rw [o_eq, o_eq]
        exact (s6 r hr).2

/-- Casting to sparse and back shows the same cells. -/
theorem C103_cast_round_trip [DecidableEq α] (zero : α) (x : DM α) (a : Mat α) (hx : x.Is a) (jv junk : Nat → α) (jc jo : Nat → Nat) :
    Res.Ok (castToSparse zero x jv jc jo >>= fun y => castToDense zero y junk) (fun z => z.Is a) :=
  (C103_cast_to_sparse zero x a hx jv jc jo).bind fun y hy => C103_cast_to_dense zero y a hy junk

/-! ### Sparse to sparse -/

/-- Copying the entries. -/
theorem castEntries_ok (f : α → β) (zero : β) (x : CM α) (n : Nat) (hv : n ≤ x.mem.vals.size) (hc : n ≤ x.mem.cols.size) :
    Res.Ok (forLoop 0 n ((⟨n, fun _ => zero⟩ : Buf β), (⟨n, fun _ => 0⟩ : Buf Nat)) fun i s => castEntry f x i s)
      (fun s => s.1.size = n ∧ s.2.size = n ∧ ∀ p, p < n → s.1.data p = f (x.mem.vals.data p) ∧ s.2.data p = x.mem.cols.data p) := by
  refine forLoop_ok (fun i (s : Buf β × Buf Nat) => s.1.size = n ∧ s.2.size = n ∧
    ∀ p, p < i → s.1.data p = f (x.mem.vals.data p) ∧ s.2.data p = x.mem.cols.data p) 0 n _ (Nat.zero_le _)
    ⟨rfl, rfl, fun p h => by omega⟩ ?_
  rintro i ⟨vs, cs⟩ - hi ⟨g1, g2, g3⟩
  simp only at g1 g2 g3
  unfold castEntry
  rw [Buf.read_eq (by omega)]
  simp only [Res.ok_bind]
  rw [Buf.write_eq (by omega)]
  simp only [Res.ok_bind]
  rw [Buf.read_eq (by omega)]
  simp only [Res.ok_bind]
  rw [Buf.write_eq (by omega)]
  refine Res.ok_iff.2 ⟨g1, g2, fun p hp => ?_⟩
  simp only [Buf.put_data]
  by_cases e : p = i
  · rw [if_pos e, if_pos e, e]; exact ⟨rfl, rfl⟩
  · rw [if_neg e, if_neg e]; exact g3 p (by omega)

/-- **C104.** A cast of a square sparse matrix (whose rows start at the beginning of its arrays) to another value type converts
every cell, if the conversion maps zero to zero. -/
theorem C104_cast_sparse_square (f : α → β) (zero : α) (zero' : β) (hf : f zero = zero') (x : CM α) (a : Mat α) (hx : x.Is zero a)
    (h0 : x.o 0 = 0) (hsq : a.rows = a.cols) : Res.Ok (castSparse f zero' x) (fun y => y.Is zero' (converted f a)) := by
  have e1 := hx.rows
  have e2 := hx.cols
  have w := hx.wf
  have hnnz : x.h.numNonZeros x.mem = .ok (x.o a.rows) := by
    unfold CHdr.numNonZeros
    rw [w.off (Nat.le_refl _), w.off (Nat.zero_le _), e1, h0]; rfl
  have tv := w.topV; have tc := w.topC
  rw [e1] at tv tc
  unfold castSparse
  rw [hnnz, e1, e2]
  simp only [Res.ok_bind]
  refine (castEntries_ok f zero' x (x.o a.rows) tv tc).bind ?_
  rintro ⟨vs, cs⟩ ⟨s1, s2, s3⟩
  simp only at s1 s2 s3
  have ho := forLoop_ok (fun i (o : Buf Nat) => o.size = a.cols + 1 ∧ ∀ r, r < i → o.data r = x.o r) 0 (a.rows + 1)
    (⟨a.cols + 1, fun _ => 0⟩ : Buf Nat) (body := fun r o => do
      let v ← x.h.off x.mem r
      o.write r v) (Nat.zero_le _) ⟨rfl, fun r h => by omega⟩ (by
    rintro i o - hi ⟨g1, g2⟩
    rw [w.off (by omega)]
    simp only [Res.ok_bind]
    rw [Buf.write_eq (by omega)]
    refine Res.ok_iff.2 ⟨g1, fun r hr => ?_⟩
    rw [Buf.put_data]
    by_cases e : r = i
    · rw [if_pos e, e]
    · rw [if_neg e]; exact g2 r (by omega))
  refine ho.bind ?_
  rintro o ⟨g1, g2⟩
  have o_eq : ∀ r, r ≤ a.rows → CM.o ⟨CHdr.new a.cols a.rows, ⟨vs, cs, o⟩⟩ r = x.o r := by
    intro r hr; unfold CM.o; simp only [CHdr.new, Nat.zero_add]; exact g2 r (by omega)
  refine ⟨_, rfl, CM.Is.ofRows hsq.symm hsq (by simp [CHdr.new, g1]) ?_ ?_ ?_⟩
  · show CM.o _ a.cols ≤ vs.size
    rw [o_eq _ (by omega), s1, hsq]
  · show CM.o _ a.cols ≤ cs.size
    rw [o_eq _ (by omega), s2, hsq]
  · intro r hr
    simp only [converted] at hr
    rw [o_eq _ (by omega), o_eq _ (by omega)]
    have m := w.mono' (r := r + 1) (r' := a.rows) (by omega) (by omega)
    have R := hx.row hr
    have hcs : ∀ p, p < x.o (r + 1) → cs.data p = x.mem.cols.data p := fun p hp => (s3 p (by omega)).2
    refine ⟨R.le, fun p q h1 h2 h3 => ?_, fun p h1 h2 => ?_, fun p h1 h2 => ?_, fun c hc hno => ?_⟩
    · simp only; rw [hcs p (by omega), hcs q h3]; exact R.sorted p q h1 h2 h3
    · simp only; rw [hcs p h2]; exact R.bound p h1 h2
    · simp only [converted]; rw [hcs p h2, (s3 p (by omega)).1, R.entry p h1 h2]
    · simp only [converted] at hc ⊢
      rw [R.rest c hc fun p h1 h2 => by rw [← hcs p h2]; exact hno p h1 h2, hf]

/-- A loop whose iteration `k` is out of bounds. -/
theorem forLoop_ub_at {σ : Type} {body : Nat → σ → Res σ} (Inv : σ → Prop) (k : Nat) : ∀ (lo hi : Nat) (s : σ), lo ≤ k → k < hi → Inv s →
    (∀ i s, lo ≤ i → i < k → Inv s → Res.Ok (body i s) Inv) → (∀ s, Inv s → (body k s).IsUB) → (forLoop lo hi s body).IsUB := by
  intro lo hi s h1 h2 h3 h4 h5
  obtain ⟨n, hn⟩ : ∃ n, k = lo + n := ⟨k - lo, by omega⟩
  induction n generalizing lo s with
  | zero =>
    have : k = lo := by omega
    subst this
    exact Agg.forLoop_ub h2 (h5 s h3)
  | succ n ih =>
    rw [forLoop_succ lo hi s (by omega)]
    obtain ⟨t, t1, t2⟩ := h4 lo s (Nat.le_refl _) (by omega) h3
    rw [t1]
    exact ih (lo + 1) t (by omega) t2 (fun i s hi => h4 i s (by omega)) (by omega)

/-- **C105 (refuted).** A cast of a sparse matrix that is not square: the result has the number of columns as rows and vice versa
if there are fewer rows than columns; if there are more rows than columns, the row offsets are written out of bounds. -/
theorem C105_cast_sparse_rectangle_partial (f : α → β) (zero : α) (zero' : β) (x : CM α) (a : Mat α) (hx : x.Is zero a)
    (h0 : x.o 0 = 0) :
    (a.rows < a.cols → Res.Ok (castSparse f zero' x) (fun y => y.h.numRows = a.cols ∧ y.h.numCols = a.rows ∧ ¬ y.Is zero' (converted f a))) ∧
    (a.cols < a.rows → Res.IsUB (castSparse f zero' x)) := by
  have e1 := hx.rows
  have e2 := hx.cols
  have w := hx.wf
  have hnnz : x.h.numNonZeros x.mem = .ok (x.o a.rows) := by
    unfold CHdr.numNonZeros
    rw [w.off (Nat.le_refl _), w.off (Nat.zero_le _), e1, h0]; rfl
  have tv := w.topV; have tc := w.topC
  rw [e1] at tv tc
  obtain ⟨⟨vs, cs⟩, hs, -⟩ := castEntries_ok f zero' x (x.o a.rows) tv tc
  unfold castSparse
  rw [hnnz, e1, e2]
  simp only [Res.ok_bind]
  rw [hs]
  simp only [Res.ok_bind]
  constructor
  · intro hlt
    have ho := forLoop_ok (fun i (o : Buf Nat) => o.size = a.cols + 1) 0 (a.rows + 1)
      (⟨a.cols + 1, fun _ => 0⟩ : Buf Nat) (body := fun r o => do
        let v ← x.h.off x.mem r
        o.write r v) (Nat.zero_le _) rfl (by
      rintro i o - hi g1
      rw [w.off (by omega)]
      simp only [Res.ok_bind]
      rw [Buf.write_eq (by omega)]
      exact Res.ok_iff.2 g1)
    refine ho.bind ?_
    rintro o -
    refine ⟨_, rfl, rfl, rfl, fun h => ?_⟩
    have := h.rows
    simp only [CHdr.new, converted] at this
    omega
  · intro hlt
    refine Agg.ub_bind (forLoop_ub_at (fun (o : Buf Nat) => o.size = a.cols + 1) (a.cols + 1) 0 (a.rows + 1) _ (Nat.zero_le _) (by omega) rfl ?_ ?_)
    · rintro i o - hi g1
      rw [w.off (by omega)]
      simp only [Res.ok_bind]
      rw [Buf.write_eq (by omega)]
      exact Res.ok_iff.2 g1
    · intro o g1
      rw [w.off (by omega)]
      simp only [Res.ok_bind]
      unfold Buf.write
      rw [if_neg (by omega)]
      exact ⟨_, rfl⟩

/-! ### The hypotheses are met -/

/-- The 3 × 4 matrix 0..11 (one zero) survives the round trip. -/
example : ∃ z, (castToSparse 0 exM (fun _ => 0) (fun _ => 0) (fun _ => 0) >>= fun y => castToDense 0 y (fun _ => 99)) = .ok z ∧
    z.get 0 0 = .ok 0 ∧ z.get 2 3 = .ok 11 := by
  obtain ⟨z, h1, h2⟩ := C103_cast_round_trip 0 exM _ exM_is (fun _ => 0) (fun _ => 99) (fun _ => 0) (fun _ => 0)
  exact ⟨z, h1, h2.2.2.2 0 0 (by decide) (by decide), h2.2.2.2 2 3 (by decide) (by decide)⟩

/-- A cast of the 3 × 1 sparse column is out of bounds. -/
example : Res.IsUB (castSparse (fun n => n + n) 0 exCol) :=
  (C105_cast_sparse_rectangle_partial (fun n => n + n) 0 0 exCol _ exCol_is rfl).2 (by decide)

/-- A 1 × 1 sparse matrix. -/
example : ∃ y, castSparse (fun n => n + n) 0 (⟨CHdr.new 1 1, ⟨⟨1, fun _ => 4⟩, ⟨1, fun _ => 0⟩, ⟨2, fun i => i⟩⟩⟩ : CM Nat) = .ok y ∧
    y.h.get 0 y.mem 0 0 = .ok 8 := ⟨_, rfl, rfl⟩

end Verif.Shape
