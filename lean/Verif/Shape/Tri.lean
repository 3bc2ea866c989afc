/-
  Model of src/runtime/local/kernels/{Tri,DiagMatrix,DiagVector}.h and their properties (C93, C94).

  Simplifications: `res == nullptr` on entry; `size_t` products do not wrap; a pointer advanced once per iteration is
  written as a position; the fresh arrays have arbitrary contents.
-/
import Verif.Shape.Reshape

namespace Verif.Shape
open Verif Verif.Dense Verif.Csr
variable {α : Type}

/-! ### Specification -/

/-- Does cell `(r, c)` belong to the selected triangle? -/
def inTri (upper diag : Bool) (r c : Nat) : Prop :=
  if upper then r < c ∨ (diag = true ∧ r = c) else c < r ∨ (diag = true ∧ r = c)

instance (upper diag : Bool) (r c : Nat) : Decidable (inTri upper diag r c) := by unfold inTri; infer_instance

/-- The selected triangle of `a`, with its non-zero cells replaced by `one` unless `values`; zero elsewhere. -/
def triangle [DecidableEq α] (zero one : α) (a : Mat α) (upper diag values : Bool) : Mat α :=
  ⟨a.rows, a.cols, fun r c => if inTri upper diag r c then (if a.cell r c = zero then zero else if values then a.cell r c else one) else zero⟩

/-- The square matrix with the column `a` on its diagonal. -/
def diagonal (zero : α) (a : Mat α) : Mat α := ⟨a.rows, a.rows, fun r c => if r = c then a.cell r 0 else zero⟩

/-- The diagonal of `a` as a column. -/
def diagonalOf (a : Mat α) : Mat α := ⟨a.rows, 1, fun r _ => a.cell r r⟩

/-! ### Model -/

/-- Tri.h:83-85 (also 118-120): `start`, `end` in iteration `r` (one of them was incremented `r` times). -/
def triRange (upper diag : Bool) (n r : Nat) : Nat × Nat :=
  if upper then ((if diag then 0 else 1) + r, n) else (0, (if diag then 1 else 0) + r)

/-- Tri.h:88-93: one cell. -/
def triCell [DecidableEq α] (zero one : α) (x : DM α) (res : Hdr) (values : Bool) (r c : Nat) (m : Buf α) : Res (Buf α) := do
  let v ← x.mem.read (x.addr r c)
  if v ≠ zero then m.write (res.start + r * res.rowSkip + c) (if values then v else one) else .ok m

/-- Tri.h:64-98. -/
def triDense [DecidableEq α] (zero one : α) (x : DM α) (upper diag values : Bool) : Res (DM α) :=
  if x.numRows ≠ x.numCols then .error (.throw "matrix must be square")
  else do
    let res := DM.createZero x.numRows x.numCols zero
    let m ← forLoop 0 x.numRows res.mem fun r m =>
      forLoop (triRange upper diag x.numCols r).1 (triRange upper diag x.numCols r).2 m fun c m =>
        triCell zero one x res.h values r c m
    .ok ⟨res.h, m⟩

/-- Value and column arrays under construction, with the next free position. -/
structure TS (α : Type) where
  vals : Buf α
  cols : Buf Nat
  pos : Nat

/-- Tri.h:133-140: one stored entry. -/
def triEntry [DecidableEq α] (zero one : α) (x : CM α) (values : Bool) (lo hi p i : Nat) (s : TS α) : Res (TS α) := do
  let c ← x.mem.cols.read (p + i)
  if lo ≤ c ∧ c < hi then do
    let v ← x.mem.vals.read (p + i)
    if v ≠ zero then do
      let vs ← s.vals.write s.pos (if values then v else one)
      let cs ← s.cols.write s.pos c
      .ok ⟨vs, cs, s.pos + 1⟩
    else .ok s
  else .ok s

/-- Tri.h:127-143: one row. -/
def triRow [DecidableEq α] (zero one : α) (x : CM α) (values : Bool) (lo hi r : Nat) (s : TS α × Buf Nat) : Res (TS α × Buf Nat) := do
  let n ← x.h.rowNumNonZeros x.mem r
  let p ← x.h.rowPtr x.mem r
  let t ← forLoop 0 n s.1 fun i t => triEntry zero one x values lo hi p i t
  let o ← s.2.write (r + 1) t.pos
  .ok (t, o)

/-- Tri.h:104-145. -/
def triCsr [DecidableEq α] (zero one : α) (x : CM α) (upper diag values : Bool) (jv : Nat → α) (jc jo : Nat → Nat) : Res (CM α) :=
  if x.h.numRows ≠ x.h.numCols then .error (.throw "matrix must be square")
  else do
    let nnz ← x.h.numNonZeros x.mem
    let cap := min nnz (x.h.numRows * (x.h.numRows + 1) / 2)
    let o ← (⟨x.h.numRows + 1, jo⟩ : Buf Nat).write 0 0
    let s ← forLoop 0 x.h.numRows ((⟨⟨cap, jv⟩, ⟨cap, jc⟩, 0⟩ : TS α), o) fun r s =>
      triRow zero one x values (triRange upper diag x.h.numCols r).1 (triRange upper diag x.h.numCols r).2 r s
    .ok ⟨CHdr.new x.h.numRows x.h.numCols, ⟨s.1.vals, s.1.cols, s.2⟩⟩

/-- DiagMatrix.h:55-78. -/
def diagMatrixDense (zero : α) (x : DM α) : Res (DM α) :=
  if x.numCols ≠ 1 then .error (.throw "parameter arg must be a column-matrix")
  else do
    let res := DM.createZero x.numRows x.numRows zero
    let m ← forLoop 0 x.numRows res.mem fun r m => do
      let v ← x.mem.read (x.addr r 0)
      m.write (res.h.start + r * (res.h.rowSkip + 1)) v
    .ok ⟨res.h, m⟩

/-- DiagMatrix.h:103-110: one row. -/
def diagRow [DecidableEq α] (zero : α) (x : DM α) (r : Nat) (s : TS α × Buf Nat) : Res (TS α × Buf Nat) := do
  let v ← x.mem.read (x.addr r 0)
  if v ≠ zero then do
    let vs ← s.1.vals.write s.1.pos v
    let cs ← s.1.cols.write s.1.pos r
    let o ← s.2.write (r + 1) (s.1.pos + 1)
    .ok (⟨vs, cs, s.1.pos + 1⟩, o)
  else do
    let o ← s.2.write (r + 1) s.1.pos
    .ok (s.1, o)

/-- DiagMatrix.h:84-112. -/
def diagMatrixSparse [DecidableEq α] (zero : α) (x : DM α) (jv : Nat → α) (jc jo : Nat → Nat) : Res (CM α) :=
  if x.numCols ≠ 1 then .error (.throw "parameter arg must be a column-matrix")
  else do
    let o ← (⟨x.numRows + 1, jo⟩ : Buf Nat).write 0 0
    let s ← forLoop 0 x.numRows ((⟨⟨x.numRows, jv⟩, ⟨x.numRows, jc⟩, 0⟩ : TS α), o) fun r s => diagRow zero x r s
    .ok ⟨CHdr.new x.numRows x.numRows, ⟨s.1.vals, s.1.cols, s.2⟩⟩

/-- DiagMatrix.h:134-140: one row. -/
def diagRowCsr (x : CM α) (r : Nat) (s : TS α × Buf Nat) : Res (TS α × Buf Nat) := do
  let n ← x.h.rowNumNonZeros x.mem r
  if n ≠ 0 then do
    let p ← x.h.rowPtr x.mem r
    let v ← x.mem.vals.read p
    let vs ← s.1.vals.write s.1.pos v
    let cs ← s.1.cols.write s.1.pos r
    let o ← s.2.write (r + 1) (s.1.pos + 1)
    .ok (⟨vs, cs, s.1.pos + 1⟩, o)
  else do
    let o ← s.2.write (r + 1) s.1.pos
    .ok (s.1, o)

/-- DiagMatrix.h:118-142. -/
def diagMatrixCsr (x : CM α) (jv : Nat → α) (jc jo : Nat → Nat) : Res (CM α) :=
  if x.h.numCols ≠ 1 then .error (.throw "parameter arg must be a column-matrix")
  else do
    let o ← (⟨x.h.numRows + 1, jo⟩ : Buf Nat).write 0 0
    let s ← forLoop 0 x.h.numRows ((⟨⟨x.h.numRows, jv⟩, ⟨x.h.numRows, jc⟩, 0⟩ : TS α), o) fun r s => diagRowCsr x r s
    .ok ⟨CHdr.new x.h.numRows x.h.numRows, ⟨s.1.vals, s.1.cols, s.2⟩⟩

/-- DiagVector.h:52-76. -/
def diagVectorDense (junk : Nat → α) (x : DM α) : Res (DM α) :=
  if x.numRows ≠ x.numCols then .error (.throw "arg matrix should be square matrix")
  else if x.numRows = 0 then .error (.throw "arg matrix cannot be empty")
  else do
    let res := DM.create x.numRows 1 junk
    let m ← forLoop 0 x.numRows res.mem fun r m => do
      let v ← x.mem.read (x.h.start + (r + r * x.h.rowSkip))
      m.write (res.h.start + r) v
    .ok ⟨res.h, m⟩

/-- DiagVector.h:110-115: search of column `i` in `[j, e)`; stops at the first hit. -/
def diagFind (zero : α) (x : CM α) (i : Nat) : Nat → Nat → Res α
  | 0, _ => .ok zero
  | k + 1, j => do
    let c ← x.mem.cols.read j
    if c = i then x.mem.vals.read j else diagFind zero x i k (j + 1)

/-- DiagVector.h:82-119. -/
def diagVectorCsr (zero : α) (junk : Nat → α) (x : CM α) : Res (DM α) :=
  if x.h.numRows ≠ x.h.numCols then .error (.throw "arg matrix should be square matrix")
  else if x.h.numRows = 0 then .error (.throw "arg matrix cannot be empty")
  else do
    let res := DM.create x.h.numRows 1 junk
    let m ← forLoop 0 x.h.numRows res.mem fun i m => do
      let b ← x.h.off x.mem i
      let e ← x.h.off x.mem (i + 1)
      let v ← diagFind zero x i (e - b) b
      m.write (res.h.start + i) v
    .ok ⟨res.h, m⟩

/-! ### Proofs -/

theorem triRange_iff (upper diag : Bool) {n r c : Nat} (hc : c < n) :
    ((triRange upper diag n r).1 ≤ c ∧ c < (triRange upper diag n r).2) ↔ inTri upper diag r c := by
  unfold triRange inTri
  cases upper <;> cases diag <;> simp <;> omega

theorem triRange_le (upper diag : Bool) {n r : Nat} (hr : r < n) : (triRange upper diag n r).2 ≤ n := by
  unfold triRange
  cases upper <;> cases diag <;> simp <;> omega

/-- **C93 (dense).** The kernel keeps exactly the selected triangle of a square matrix (or view), with all other cells zero,
and rejects other matrices. -/
theorem C93_tri [DecidableEq α] (zero one : α) (x : DM α) (a : Mat α) (hx : x.Is a) (upper diag values : Bool) :
    (a.rows = a.cols → Res.Ok (triDense zero one x upper diag values) (fun y => y.Is (triangle zero one a upper diag values))) ∧
    (a.rows ≠ a.cols → Res.Throws (triDense zero one x upper diag values)) := by
  have e1 : x.numRows = a.rows := hx.rows
  have e2 : x.numCols = a.cols := hx.cols
  unfold triDense
  rw [e1, e2]
  constructor
  · intro hsq
    rw [if_neg (by simpa using hsq)]
    have hst : (DM.createZero a.rows a.cols zero).h.start = 0 := by simp [DM.createZero, Hdr.start, Hdr.new, Hdr.isPartial]
    have hsk : (DM.createZero a.rows a.cols zero).h.rowSkip = a.cols := rfl
    have hl := forLoop_ok (fun i (m : Buf α) => m.size = a.rows * a.cols ∧
        ∀ r c, c < a.cols → m.data (r * a.cols + c) = if r < i then (triangle zero one a upper diag values).cell r c else zero)
      0 a.rows (DM.createZero a.rows a.cols zero).mem
      (body := fun r m => forLoop (triRange upper diag a.cols r).1 (triRange upper diag a.cols r).2 m fun c m =>
        triCell zero one x (DM.createZero a.rows a.cols zero).h values r c m)
      (Nat.zero_le _) ⟨rfl, fun r c hc => by rw [if_neg (by omega)]; rfl⟩ (by
      rintro i m - hi ⟨g1, g2⟩
      have hend := triRange_le upper diag (n := a.cols) (r := i) (by omega)
      by_cases hlh : (triRange upper diag a.cols i).1 ≤ (triRange upper diag a.cols i).2
      · refine forLoop_post (fun k (m : Buf α) => m.size = a.rows * a.cols ∧
          ∀ r c, c < a.cols → m.data (r * a.cols + c) = if r < i ∨ (r = i ∧ c < k) then
            (triangle zero one a upper diag values).cell r c else zero) _ _ m hlh ⟨g1, ?_⟩ ?_ ?_
        · intro r c hc
          rw [g2 r c hc]
          by_cases h1 : r < i
          · rw [if_pos h1, if_pos (Or.inl h1)]
          · rw [if_neg h1]
            by_cases h2 : r = i ∧ c < (triRange upper diag a.cols i).1
            · rw [if_pos (Or.inr h2)]
              have : ¬ inTri upper diag r c := by
                rw [h2.1, ← triRange_iff upper diag hc]; omega
              simp [triangle, this]
            · rw [if_neg (by omega)]
        · rintro k m hk1 hk2 ⟨g1, g2⟩
          have hkc : k < a.cols := by omega
          have hin : inTri upper diag i k := (triRange_iff upper diag hkc).1 ⟨hk1, hk2⟩
          unfold triCell
          rw [hx.read hi hkc]
          simp only [Res.ok_bind, hst, hsk, Nat.zero_add]
          have hpos := rm_lt hi hkc (Nat.le_refl a.cols)
          by_cases hv : a.cell i k = zero
          · rw [if_neg (by simpa using hv)]
            refine Res.ok_iff.2 ⟨g1, fun r c hc => ?_⟩
            rw [g2 r c hc]
            by_cases h1 : r < i ∨ (r = i ∧ c < k)
            · rw [if_pos h1, if_pos (by omega)]
            · rw [if_neg h1]
              by_cases h2 : r = i ∧ c = k
              · rw [if_pos (by omega), h2.1, h2.2]
                simp [triangle, hin, hv]
              · rw [if_neg (by omega)]
          · rw [if_pos hv, Buf.write_eq (by rw [g1]; exact hpos)]
            refine Res.ok_iff.2 ⟨g1, fun r c hc => ?_⟩
            rw [Buf.put_data, g2 r c hc]
            by_cases h2 : r = i ∧ c = k
            · rw [if_pos (by rw [h2.1, h2.2]), if_pos (show r < i ∨ (r = i ∧ c < k + 1) by omega), h2.1, h2.2]
              simp [triangle, hin, hv]
            · rw [if_neg (by rw [rm_eq_iff hc hkc]; exact h2)]
              by_cases h1 : r < i ∨ (r = i ∧ c < k)
              · rw [if_pos h1, if_pos (by omega)]
              · rw [if_neg h1, if_neg (by omega)]
        · rintro m ⟨g1, g2⟩
          refine ⟨g1, fun r c hc => ?_⟩
          rw [g2 r c hc]
          by_cases h1 : r < i + 1
          · rw [if_pos h1]
            by_cases h2 : r < i ∨ (r = i ∧ c < (triRange upper diag a.cols i).2)
            · rw [if_pos h2]
            · rw [if_neg h2]
              have he : r = i := by omega
              have : ¬ inTri upper diag r c := by rw [he, ← triRange_iff upper diag hc]; omega
              simp [triangle, this]
          · rw [if_neg h1, if_neg (by omega)]
      · rw [forLoop_empty _ _ _ (by omega)]
        refine Res.ok_iff.2 ⟨g1, fun r c hc => ?_⟩
        rw [g2 r c hc]
        by_cases h1 : r < i
        · rw [if_pos h1, if_pos (by omega)]
        · rw [if_neg h1]
          by_cases h2 : r = i
          · rw [if_pos (by omega)]
            have : ¬ inTri upper diag r c := by rw [h2, ← triRange_iff upper diag hc]; omega
            simp [triangle, this]
          · rw [if_neg (by omega)])
    refine hl.bind ?_
    rintro m ⟨g1, g2⟩
    refine ⟨_, rfl, is_new g1 fun r c hr hc => ?_⟩
    rw [g2 r c hc, if_pos hr]; rfl
  · intro hsq
    rw [if_pos hsq]; exact ⟨_, rfl⟩

/-- One row of the sparse case. -/
theorem triRow_ok [DecidableEq α] {zero one : α} {x : CM α} {values : Bool} {lo hi p n C cap : Nat} {cell : Nat → α}
    (row : RowOk zero x.mem.cols.data x.mem.vals.data p (p + n) C cell)
    (hv : p + n ≤ x.mem.vals.size) (hc : p + n ≤ x.mem.cols.size) (s : TS α)
    (sv : s.vals.size = cap) (sc : s.cols.size = cap) (room : s.pos + min n (hi - lo) ≤ cap) :
    Res.Ok (forLoop 0 n s fun i t => triEntry zero one x values lo hi p i t) (fun t =>
      t.vals.size = cap ∧ t.cols.size = cap ∧ s.pos ≤ t.pos ∧ t.pos ≤ s.pos + min n (hi - lo) ∧
      (∀ q, q < s.pos → t.vals.data q = s.vals.data q ∧ t.cols.data q = s.cols.data q) ∧
      RowOk zero t.cols.data t.vals.data s.pos t.pos C
        (fun c => if lo ≤ c ∧ c < hi then (if cell c = zero then zero else if values then cell c else one) else zero)) := by
  -- `D i` = "entry `i` is copied"
  refine forLoop_post (fun i (t : TS α) =>
      t.vals.size = cap ∧ t.cols.size = cap ∧ s.pos ≤ t.pos ∧ t.pos ≤ s.pos + i ∧
      (∀ q, s.pos ≤ q → q < t.pos → ∃ j, j < i ∧ t.cols.data q = x.mem.cols.data (p + j) ∧ lo + (q - s.pos) ≤ t.cols.data q ∧
        t.cols.data q < hi ∧ x.mem.vals.data (p + j) ≠ zero ∧
        t.vals.data q = if values then x.mem.vals.data (p + j) else one) ∧
      (∀ q q', s.pos ≤ q → q < q' → q' < t.pos → t.cols.data q < t.cols.data q') ∧
      (∀ j, j < i → lo ≤ x.mem.cols.data (p + j) → x.mem.cols.data (p + j) < hi → x.mem.vals.data (p + j) ≠ zero →
        ∃ q, s.pos ≤ q ∧ q < t.pos ∧ t.cols.data q = x.mem.cols.data (p + j)) ∧
      (∀ q, q < s.pos → t.vals.data q = s.vals.data q ∧ t.cols.data q = s.cols.data q))
    0 n s (Nat.zero_le _) ⟨sv, sc, Nat.le_refl _, by omega, fun q h1 h2 => by omega, fun q q' h1 h2 h3 => by omega,
      fun j h => by omega, fun q _ => ⟨rfl, rfl⟩⟩ ?_ ?_
  · rintro i t - hi' ⟨t1, t2, t3, t4, t5, t6, t7, t8⟩
    have keepOld : ∀ (u : TS α), u = t → ¬ (lo ≤ x.mem.cols.data (p + i) ∧ x.mem.cols.data (p + i) < hi ∧ x.mem.vals.data (p + i) ≠ zero) →
        Res.Ok (.ok u) (fun (t : TS α) =>
      t.vals.size = cap ∧ t.cols.size = cap ∧ s.pos ≤ t.pos ∧ t.pos ≤ s.pos + (i + 1) ∧
      (∀ q, s.pos ≤ q → q < t.pos → ∃ j, j < i + 1 ∧ t.cols.data q = x.mem.cols.data (p + j) ∧ lo + (q - s.pos) ≤ t.cols.data q ∧
        t.cols.data q < hi ∧ x.mem.vals.data (p + j) ≠ zero ∧
        t.vals.data q = if values then x.mem.vals.data (p + j) else one) ∧
      (∀ q q', s.pos ≤ q → q < q' → q' < t.pos → t.cols.data q < t.cols.data q') ∧
      (∀ j, j < i + 1 → lo ≤ x.mem.cols.data (p + j) → x.mem.cols.data (p + j) < hi → x.mem.vals.data (p + j) ≠ zero →
        ∃ q, s.pos ≤ q ∧ q < t.pos ∧ t.cols.data q = x.mem.cols.data (p + j)) ∧
      (∀ q, q < s.pos → t.vals.data q = s.vals.data q ∧ t.cols.data q = s.cols.data q)) := by
      rintro u rfl hno
      refine Res.ok_iff.2 ⟨t1, t2, t3, by omega, ?_, t6, ?_, t8⟩
      · intro q h1 h2
        obtain ⟨j, j1, j2⟩ := t5 q h1 h2
        exact ⟨j, by omega, j2⟩
      · intro j hj h1 h2 h3
        by_cases e : j = i
        · subst e; exact absurd ⟨h1, h2, h3⟩ hno
        · exact t7 j (by omega) h1 h2 h3
    unfold triEntry
    rw [Buf.read_eq (by omega)]
    simp only [Res.ok_bind]
    by_cases hin : lo ≤ x.mem.cols.data (p + i) ∧ x.mem.cols.data (p + i) < hi
    · rw [if_pos hin, Buf.read_eq (by omega)]
      simp only [Res.ok_bind]
      by_cases hz : x.mem.vals.data (p + i) = zero
      · rw [if_neg (by simpa using hz)]
        exact keepOld t rfl (fun h => h.2.2 hz)
      · rw [if_pos hz]
        -- room for one more
        have hasc : ∀ q, s.pos ≤ q → q < t.pos → t.cols.data q < x.mem.cols.data (p + i) := by
          intro q h1 h2
          obtain ⟨j, j1, j2, -⟩ := t5 q h1 h2
          rw [j2]; exact row.sorted _ _ (by omega) (by omega) (by omega)
        have hcount : lo + (t.pos - s.pos) ≤ x.mem.cols.data (p + i) := by
          by_cases e : t.pos = s.pos
          · omega
          · obtain ⟨j, j1, j2, j3, -⟩ := t5 (t.pos - 1) (by omega) (by omega)
            have := hasc (t.pos - 1) (by omega) (by omega)
            omega
        have hroom : t.pos < cap := by omega
        rw [Buf.write_eq (by omega)]
        simp only [Res.ok_bind]
        rw [Buf.write_eq (by omega)]
        simp only [Res.ok_bind]
        refine Res.ok_iff.2 ⟨by simpa using t1, by simpa using t2, by simp only; omega, by simp only; omega, ?_, ?_, ?_, ?_⟩
        · intro q h1 h2
          simp only [Buf.put_data] at h2 ⊢
          by_cases e : q = t.pos
          · rw [if_pos e, if_pos e]
            exact ⟨i, by omega, rfl, by omega, hin.2, hz, rfl⟩
          · rw [if_neg e, if_neg e]
            obtain ⟨j, j1, j2⟩ := t5 q h1 (by omega)
            exact ⟨j, by omega, j2⟩
        · intro q q' h1 h2 h3
          simp only [Buf.put_data] at h3 ⊢
          rw [if_neg (by omega : q ≠ t.pos)]
          by_cases e : q' = t.pos
          · rw [if_pos e]; exact hasc q h1 (by omega)
          · rw [if_neg e]; exact t6 q q' h1 h2 (by omega)
        · intro j hj h1 h2 h3
          simp only [Buf.put_data]
          by_cases e : j = i
          · exact ⟨t.pos, t3, by omega, by rw [if_pos rfl, e]⟩
          · obtain ⟨q, q1, q2, q3⟩ := t7 j (by omega) h1 h2 h3
            exact ⟨q, q1, by omega, by rw [if_neg (by omega), q3]⟩
        · intro q hq
          simp only [Buf.put_data]
          rw [if_neg (by omega), if_neg (by omega)]
          exact t8 q hq
    · rw [if_neg hin]
      exact keepOld t rfl (fun h => hin ⟨h.1, h.2.1⟩)
  · rintro t ⟨t1, t2, t3, t4, t5, t6, t7, t8⟩
    have hcnt : t.pos ≤ s.pos + (hi - lo) := by
      by_cases e : t.pos = s.pos
      · omega
      · obtain ⟨j, j1, j2, j3, j4, -⟩ := t5 (t.pos - 1) (by omega) (by omega)
        omega
    refine ⟨t1, t2, t3, by omega, t8, t3, t6, ?_, ?_, ?_⟩
    · intro q h1 h2
      obtain ⟨j, j1, j2, -⟩ := t5 q h1 h2
      rw [j2]; exact row.bound _ (by omega) (by omega)
    · intro q h1 h2
      obtain ⟨j, j1, j2, j3, j4, j5, j6⟩ := t5 q h1 h2
      have he := row.entry (p + j) (by omega) (by omega)
      rw [if_pos ⟨by omega, j4⟩, j2, he, if_neg j5, j6]
    · intro c hcC hno
      by_cases hin : lo ≤ c ∧ c < hi
      · rw [if_pos hin]
        by_cases hz : cell c = zero
        · rw [if_pos hz]
        · exfalso
          apply hz
          refine row.rest c hcC fun q h1 h2 h3 => ?_
          have he := row.entry q h1 h2
          rw [h3] at he
          obtain ⟨k, k1, k2, k3⟩ := t7 (q - p) (by omega) (by rw [show p + (q - p) = q by omega, h3]; exact hin.1)
            (by rw [show p + (q - p) = q by omega, h3]; exact hin.2) (by rw [show p + (q - p) = q by omega, ← he]; exact hz)
          rw [show p + (q - p) = q by omega, h3] at k3
          exact hno k k1 k2 k3
      · rw [if_neg hin]

/-- Half of a square. -/
theorem half_le {p n : Nat} (h : 2 * p ≤ n * (n + 1)) : p ≤ n * (n + 1) / 2 := by omega

/-- Number of cells of the selected triangle in the first `i` rows, doubled. -/
def tri2 (upper : Bool) (n i : Nat) : Nat := if upper then i * (2 * n + 1 - i) else i * (i + 1)

theorem tri2_step (upper diag : Bool) {n i : Nat} (hi : i < n) :
    tri2 upper n i + 2 * ((triRange upper diag n i).2 - (triRange upper diag n i).1) ≤ tri2 upper n (i + 1) := by
  unfold tri2 triRange
  cases upper
  · simp only [Bool.false_eq_true, if_false]
    have : (i + 1) * (i + 1 + 1) = i * (i + 1) + 2 * (i + 1) := by ring
    rw [this]
    cases diag <;> simp <;> omega
  · simp only [if_true]
    obtain ⟨k, rfl⟩ : ∃ k, n = i + 1 + k := ⟨n - (i + 1), by omega⟩
    have e1 : 2 * (i + 1 + k) + 1 - i = i + 2 * k + 3 := by omega
    have e2 : 2 * (i + 1 + k) + 1 - (i + 1) = i + 2 * k + 2 := by omega
    rw [e1, e2]
    have : (i + 1) * (i + 2 * k + 2) = i * (i + 2 * k + 3) + 2 * (k + 1) := by ring
    rw [this]
    cases diag <;> simp <;> omega

theorem tri2_top (upper : Bool) {n i : Nat} (hi : i ≤ n) : tri2 upper n i ≤ n * (n + 1) := by
  unfold tri2
  cases upper
  · simp only [Bool.false_eq_true, if_false]
    exact Nat.mul_le_mul hi (by omega)
  · simp only [if_true]
    obtain ⟨k, rfl⟩ : ∃ k, n = i + k := ⟨n - i, by omega⟩
    have e1 : 2 * (i + k) + 1 - i = i + 2 * k + 1 := by omega
    rw [e1]
    have : (i + k) * (i + k + 1) = i * (i + 2 * k + 1) + k * (k + 1) := by ring
    omega

/-- **C93 (sparse).** The same for sparse matrices and row views; the number of entries reserved for the result always
suffices. -/
theorem C93_tri_sparse [DecidableEq α] (zero one : α) (x : CM α) (a : Mat α) (hx : x.Is zero a) (upper diag values : Bool)
    (jv : Nat → α) (jc jo : Nat → Nat) :
    (a.rows = a.cols → Res.Ok (triCsr zero one x upper diag values jv jc jo)
      (fun y => y.Is zero (triangle zero one a upper diag values))) ∧
    (a.rows ≠ a.cols → Res.Throws (triCsr zero one x upper diag values jv jc jo)) := by
  have e1 := hx.rows; have e2 := hx.cols
  unfold triCsr
  constructor
  · intro hsq
    rw [if_neg (by rw [e1, e2]; simpa using hsq)]
    have hnnz : x.h.numNonZeros x.mem = .ok (x.o a.rows - x.o 0) := by
      unfold CHdr.numNonZeros
      rw [hx.wf.off (Nat.le_refl _), hx.wf.off (Nat.zero_le _), e1]; rfl
    rw [hnnz, e1, e2]
    simp only [Res.ok_bind]
    rw [Buf.write_eq (by simp)]
    simp only [Res.ok_bind]
    generalize hcap : min (x.o a.rows - x.o 0) (a.rows * (a.rows + 1) / 2) = cap
    have hl := forLoop_ok (fun i (s : TS α × Buf Nat) => s.1.vals.size = cap ∧ s.1.cols.size = cap ∧ s.2.size = a.rows + 1 ∧
        s.2.data i = s.1.pos ∧ s.2.data 0 = 0 ∧ s.1.pos ≤ x.o i - x.o 0 ∧ 2 * s.1.pos ≤ tri2 upper a.cols i ∧
        (∀ r, r < i → s.2.data (r + 1) ≤ s.1.pos ∧ RowOk zero s.1.cols.data s.1.vals.data (s.2.data r) (s.2.data (r + 1)) a.cols
          ((triangle zero one a upper diag values).cell r)))
      0 a.rows ((⟨⟨cap, jv⟩, ⟨cap, jc⟩, 0⟩ : TS α), (⟨a.rows + 1, jo⟩ : Buf Nat).put 0 0)
      (body := fun r s => triRow zero one x values (triRange upper diag a.cols r).1 (triRange upper diag a.cols r).2 r s)
      (Nat.zero_le _) ⟨rfl, rfl, rfl, by simp, by simp, Nat.zero_le _, Nat.zero_le _, fun r h => by omega⟩ (by
      rintro i ⟨s, o⟩ - hi ⟨s1, s2, s3, s4, s5, s6, s7, s8⟩
      simp only at s1 s2 s3 s4 s5 s6 s7 s8
      have m1 := hx.wf.mono i (by omega)
      have m0 := hx.wf.mono' (r := 0) (r' := i) (Nat.zero_le _) (by omega)
      have m2 := hx.wf.mono' (r := i + 1) (r' := a.rows) (by omega) (by omega)
      have ht := hx.wf.rowTop (r := i) (by omega)
      have hrow := hx.row hi
      have hnn : x.h.rowNumNonZeros x.mem i = .ok (x.o (i + 1) - x.o i) := by
        unfold CHdr.rowNumNonZeros
        rw [if_neg (by omega), hx.wf.off (by omega), hx.wf.off (by omega)]; rfl
      unfold triRow
      rw [hnn, hx.wf.rowPtr (by omega)]
      simp only [Res.ok_bind]
      have eend : x.o i + (x.o (i + 1) - x.o i) = x.o (i + 1) := by omega
      have hst := tri2_step upper diag (n := a.cols) (i := i) (by omega)
      have htop := tri2_top upper (n := a.cols) (i := i + 1) (by omega)
      have hroom : s.pos + min (x.o (i + 1) - x.o i) ((triRange upper diag a.cols i).2 - (triRange upper diag a.cols i).1) ≤ cap := by
        rw [← hcap, hsq]
        apply Nat.le_min.2
        constructor
        · rw [← hsq]; omega
        · apply half_le; omega
      refine (triRow_ok (zero := zero) (one := one) (x := x) (values := values) (lo := (triRange upper diag a.cols i).1)
        (hi := (triRange upper diag a.cols i).2) (p := x.o i) (n := x.o (i + 1) - x.o i) (C := a.cols) (cap := cap)
        (by rw [eend]; exact hrow) (by omega) (by omega) s s1 s2 hroom).bind ?_
      rintro t ⟨t1, t2, t3, t4, t5, t6⟩
      rw [Buf.write_eq (by omega)]
      simp only [Res.ok_bind]
      refine Res.ok_iff.2 ⟨t1, t2, s3, by simp, ?_, by simp only; omega, by simp only; omega, ?_⟩
      · simp only [Buf.put_data]; rw [if_neg (by omega)]; exact s5
      · intro r hr
        simp only [Buf.put_data]
        rw [if_neg (by omega : r ≠ i + 1)]
        by_cases e : r = i
        · subst e
          rw [if_pos rfl, s4]
          refine ⟨Nat.le_refl _, ⟨t6.le, t6.sorted, t6.bound, fun p h1 h2 => ?_, fun c hc hno => ?_⟩⟩
          · have := t6.entry p h1 h2
            rw [← this]
            simp only [triangle]
            simp only [triRange_iff upper diag (t6.bound p h1 h2)]
          · refine Eq.trans ?_ (t6.rest c hc hno)
            simp only [triangle]
            simp only [triRange_iff upper diag hc]
        · rw [if_neg (by omega)]
          obtain ⟨r1, r2⟩ := s8 r (by omega)
          refine ⟨by omega, ?_⟩
          have r3 := r2.le
          refine r2.shift (by omega) (fun k hk => ?_) (fun k hk => ?_)
          · exact (t5 _ (by omega)).2
          · exact (t5 _ (by omega)).1)
    refine hl.bind ?_
    rintro ⟨s, o⟩ ⟨s1, s2, s3, s4, s5, s6, s7, s8⟩
    simp only at s1 s2 s3 s4 s5 s6 s7 s8
    have o_eq : ∀ r, CM.o ⟨CHdr.new a.rows a.cols, ⟨s.vals, s.cols, o⟩⟩ r = o.data r := by
      intro r; unfold CM.o; simp [CHdr.new]
    have hpos : s.pos ≤ cap := by
      rw [← hcap]
      have htop := tri2_top upper (n := a.cols) (i := a.rows) (by omega)
      apply Nat.le_min.2
      refine ⟨s6, ?_⟩
      rw [hsq] at s7 htop ⊢
      apply half_le; omega
    refine ⟨_, rfl, CM.Is.ofRows rfl rfl (by simp [CHdr.new, s3]) ?_ ?_ ?_⟩
    · rw [o_eq]; simp only [CHdr.new]; omega
    · rw [o_eq]; simp only [CHdr.new]; omega
    · intro r hr
      rw [o_eq, o_eq]
      exact (s8 r hr).2
  · intro hsq
    rw [if_pos (by rw [e1, e2]; exact hsq)]; exact ⟨_, rfl⟩

/-! ### Diagonals -/

theorem createZero_start (R C : Nat) (zero : α) : (DM.createZero R C zero).h.start = 0 := by
  simp [DM.createZero, Hdr.start, Hdr.new, Hdr.isPartial]

/-- **C94 (dense).** `diagMatrix` of a column puts its values on the diagonal of a square matrix that is zero elsewhere;
matrices with another number of columns are rejected. -/
theorem C94_diagMatrix (zero : α) (x : DM α) (a : Mat α) (hx : x.Is a) :
    (a.cols = 1 → Res.Ok (diagMatrixDense zero x) (fun y => y.Is (diagonal zero a))) ∧
    (a.cols ≠ 1 → Res.Throws (diagMatrixDense zero x)) := by
  have e1 : x.numRows = a.rows := hx.rows
  have e2 : x.numCols = a.cols := hx.cols
  unfold diagMatrixDense
  rw [e1, e2]
  constructor
  · intro hc
    rw [if_neg (by simpa using hc)]
    have hl := forLoop_ok (fun i (m : Buf α) => m.size = a.rows * a.rows ∧
        ∀ r c, c < a.rows → m.data (r * a.rows + c) = if r < i ∧ r = c then a.cell r 0 else zero)
      0 a.rows (DM.createZero a.rows a.rows zero).mem
      (body := fun r m => do
        let v ← x.mem.read (x.addr r 0)
        m.write ((DM.createZero a.rows a.rows zero).h.start + r * ((DM.createZero a.rows a.rows zero).h.rowSkip + 1)) v)
      (Nat.zero_le _) ⟨rfl, fun r c _ => by rw [if_neg (by omega)]; rfl⟩ (by
      rintro i m - hi ⟨g1, g2⟩
      have hsk : (DM.createZero a.rows a.rows zero).h.rowSkip = a.rows := rfl
      rw [hx.read hi (by omega), createZero_start, hsk]
      simp only [Res.ok_bind, Nat.zero_add]
      have e : i * (a.rows + 1) = i * a.rows + i := by ring
      rw [e, Buf.write_eq (by rw [g1]; exact rm_lt hi hi (Nat.le_refl _))]
      refine Res.ok_iff.2 ⟨g1, fun r c hcc => ?_⟩
      rw [Buf.put_data, g2 r c hcc]
      by_cases h : r = i ∧ c = i
      · rw [if_pos (by rw [h.1, h.2]), if_pos (by omega), h.1]
      · rw [if_neg (by rw [rm_eq_iff hcc hi]; exact h)]
        by_cases h2 : r < i ∧ r = c
        · rw [if_pos h2, if_pos (by omega)]
        · rw [if_neg h2, if_neg (by omega)])
    refine hl.bind ?_
    rintro m ⟨g1, g2⟩
    refine ⟨_, rfl, is_new g1 fun r c hr hcc => ?_⟩
    rw [g2 r c hcc]
    simp [hr]
  · intro hc
    rw [if_pos hc]; exact ⟨_, rfl⟩

/-- **C94 (dense).** `diagVector` extracts the diagonal of a non-empty square matrix and rejects other matrices. -/
theorem C94_diagVector (junk : Nat → α) (x : DM α) (a : Mat α) (hx : x.Is a) :
    (a.rows = a.cols ∧ 0 < a.rows → Res.Ok (diagVectorDense junk x) (fun y => y.Is (diagonalOf a))) ∧
    (¬ (a.rows = a.cols ∧ 0 < a.rows) → Res.Throws (diagVectorDense junk x)) := by
  have e1 : x.numRows = a.rows := hx.rows
  have e2 : x.numCols = a.cols := hx.cols
  unfold diagVectorDense
  rw [e1, e2]
  constructor
  · rintro ⟨hsq, hpos⟩
    rw [if_neg (by simpa using hsq), if_neg (by omega)]
    have hl := forLoop_ok (fun i (m : Buf α) => m.size = a.rows * 1 ∧ ∀ r, r < i → m.data r = a.cell r r)
      0 a.rows (DM.create a.rows 1 junk).mem
      (body := fun r m => do
        let v ← x.mem.read (x.h.start + (r + r * x.h.rowSkip))
        m.write ((DM.create a.rows 1 junk).h.start + r) v)
      (Nat.zero_le _) ⟨rfl, fun r h => by omega⟩ (by
      rintro i m - hi ⟨g1, g2⟩
      have hrd := hx.read (r := i) (c := i) hi (by omega)
      have ea : x.addr i i = x.h.start + (i + i * x.h.rowSkip) := by unfold DM.addr; omega
      rw [ea] at hrd
      rw [hrd, create_start]
      simp only [Res.ok_bind, Nat.zero_add]
      rw [Buf.write_eq (by omega)]
      refine Res.ok_iff.2 ⟨g1, fun r hr => ?_⟩
      rw [Buf.put_data]
      by_cases h : r = i
      · rw [if_pos h, h]
      · rw [if_neg h]; exact g2 r (by omega))
    refine hl.bind ?_
    rintro m ⟨g1, g2⟩
    refine ⟨_, rfl, is_new g1 fun r c hr hcc => ?_⟩
    have : c = 0 := by omega
    subst this
    rw [Nat.mul_one, Nat.add_zero]; exact g2 r hr
  · intro hn
    by_cases h1 : a.rows = a.cols
    · rw [if_neg (by simpa using h1), if_pos (by omega)]; exact ⟨_, rfl⟩
    · rw [if_pos h1]; exact ⟨_, rfl⟩

/-- **C94 (sparse, linear search).** -/
theorem diagFind_ok {zero : α} {x : CM α} {i : Nat} : ∀ (k j : Nat), j + k ≤ x.mem.cols.size → j + k ≤ x.mem.vals.size →
    (∃ p, j ≤ p ∧ p < j + k ∧ x.mem.cols.data p = i ∧ diagFind zero x i k j = .ok (x.mem.vals.data p)) ∨
    ((∀ p, j ≤ p → p < j + k → x.mem.cols.data p ≠ i) ∧ diagFind zero x i k j = .ok zero) := by
  intro k
  induction k with
  | zero => intro j _ _; exact Or.inr ⟨fun p h1 h2 => by omega, rfl⟩
  | succ k ih =>
    intro j h1 h2
    unfold diagFind
    rw [Buf.read_eq (by omega)]
    simp only [Res.ok_bind]
    by_cases hc : x.mem.cols.data j = i
    · rw [if_pos hc, Buf.read_eq (by omega)]
      exact Or.inl ⟨j, Nat.le_refl _, by omega, hc, rfl⟩
    · rw [if_neg hc]
      rcases ih (j + 1) (by omega) (by omega) with ⟨p, p1, p2, p3, p4⟩ | ⟨q1, q2⟩
      · exact Or.inl ⟨p, by omega, by omega, p3, p4⟩
      · refine Or.inr ⟨fun p a1 a2 => ?_, q2⟩
        by_cases e : p = j
        · subst e; exact hc
        · exact q1 p (by omega) (by omega)

/-- **C94 (sparse).** `diagVector` of a non-empty square sparse matrix or row view. -/
theorem C94_diagVector_sparse (zero : α) (junk : Nat → α) (x : CM α) (a : Mat α) (hx : x.Is zero a) :
    (a.rows = a.cols ∧ 0 < a.rows → Res.Ok (diagVectorCsr zero junk x) (fun y => y.Is (diagonalOf a))) ∧
    (¬ (a.rows = a.cols ∧ 0 < a.rows) → Res.Throws (diagVectorCsr zero junk x)) := by
  have e1 := hx.rows; have e2 := hx.cols
  unfold diagVectorCsr
  rw [e1, e2]
  constructor
  · rintro ⟨hsq, hpos⟩
    rw [if_neg (by simpa using hsq), if_neg (by omega)]
    have hl := forLoop_ok (fun i (m : Buf α) => m.size = a.rows * 1 ∧ ∀ r, r < i → m.data r = a.cell r r)
      0 a.rows (DM.create a.rows 1 junk).mem
      (body := fun i m => do
        let b ← x.h.off x.mem i
        let e ← x.h.off x.mem (i + 1)
        let v ← diagFind zero x i (e - b) b
        m.write ((DM.create a.rows 1 junk).h.start + i) v)
      (Nat.zero_le _) ⟨rfl, fun r h => by omega⟩ (by
      rintro i m - hi ⟨g1, g2⟩
      rw [hx.wf.off (by omega), hx.wf.off (by omega), create_start]
      simp only [Res.ok_bind, Nat.zero_add]
      have m1 := hx.wf.mono i (by omega)
      have ht := hx.wf.rowTop (r := i) (by omega)
      have hv : diagFind zero x i (x.o (i + 1) - x.o i) (x.o i) = .ok (a.cell i i) := by
        rcases diagFind_ok (zero := zero) (x := x) (i := i) (x.o (i + 1) - x.o i) (x.o i) (by omega) (by omega) with
          ⟨p, p1, p2, p3, p4⟩ | ⟨q1, q2⟩
        · rw [p4, ← hx.entry i p hi p1 (by omega), p3]
        · rw [q2, hx.rest i i hi (by omega) (fun p h1 h2 => q1 p h1 (by omega))]
      rw [hv]
      simp only [Res.ok_bind]
      rw [Buf.write_eq (by omega)]
      refine Res.ok_iff.2 ⟨g1, fun r hr => ?_⟩
      rw [Buf.put_data]
      by_cases h : r = i
      · rw [if_pos h, h]
      · rw [if_neg h]; exact g2 r (by omega))
    refine hl.bind ?_
    rintro m ⟨g1, g2⟩
    refine ⟨_, rfl, is_new g1 fun r c hr hcc => ?_⟩
    have : c = 0 := by omega
    subst this
    rw [Nat.mul_one, Nat.add_zero]; exact g2 r hr
  · intro hn
    by_cases h1 : a.rows = a.cols
    · rw [if_neg (by simpa using h1), if_pos (by omega)]; exact ⟨_, rfl⟩
    · rw [if_pos h1]; exact ⟨_, rfl⟩

/-- State while building a diagonal row by row: rows before `i` are complete. -/
structure DInv (zero : α) (f : Nat → α) (N i : Nat) (s : TS α × Buf Nat) : Prop where
  vsz : s.1.vals.size = N
  csz : s.1.cols.size = N
  osz : s.2.size = N + 1
  here : s.2.data i = s.1.pos
  le : s.1.pos ≤ i
  rows : ∀ r, r < i → s.2.data (r + 1) ≤ s.1.pos ∧ RowOk zero s.1.cols.data s.1.vals.data (s.2.data r) (s.2.data (r + 1)) N
    (fun c => if r = c then f r else zero)

theorem DInv.init (zero : α) (f : Nat → α) (N : Nat) (jv : Nat → α) (jc jo : Nat → Nat) :
    DInv zero f N 0 ((⟨⟨N, jv⟩, ⟨N, jc⟩, 0⟩ : TS α), (⟨N + 1, jo⟩ : Buf Nat).put 0 0) :=
  ⟨rfl, rfl, rfl, by simp, Nat.le_refl _, fun r h => by omega⟩

/-- A row without entry. -/
theorem DInv.skip {zero : α} {f : Nat → α} {N i : Nat} {s : TS α × Buf Nat} (inv : DInv zero f N i s) (hi : i < N) (hz : f i = zero) :
    Res.Ok (s.2.write (i + 1) s.1.pos >>= fun o => (.ok (s.1, o) : Res (TS α × Buf Nat))) (DInv zero f N (i + 1)) := by
  rw [Buf.write_eq (by rw [inv.osz]; omega)]
  refine Res.ok_iff.2 ⟨inv.vsz, inv.csz, inv.osz, by simp, Nat.le_succ_of_le inv.le, fun r hr => ?_⟩
  simp only [Buf.put_data]
  rw [if_neg (by omega : r ≠ i + 1)]
  by_cases e : r = i
  · subst e
    rw [if_pos rfl, inv.here]
    refine ⟨Nat.le_refl _, Nat.le_refl _, fun p q h1 h2 h3 => by omega, fun p h1 h2 => by omega, fun p h1 h2 => by omega, fun c _ _ => ?_⟩
    by_cases h : r = c
    · rw [if_pos h, hz]
    · rw [if_neg h]
  · rw [if_neg (by omega)]
    exact inv.rows r (by omega)

/-- A row with its entry. -/
theorem DInv.put {zero : α} {f : Nat → α} {N i : Nat} {s : TS α × Buf Nat} (inv : DInv zero f N i s) (hi : i < N) :
    Res.Ok (s.1.vals.write s.1.pos (f i) >>= fun vs => s.1.cols.write s.1.pos i >>= fun cs =>
      s.2.write (i + 1) (s.1.pos + 1) >>= fun o => (.ok (⟨vs, cs, s.1.pos + 1⟩, o) : Res (TS α × Buf Nat))) (DInv zero f N (i + 1)) := by
  have h1 := inv.vsz; have h2 := inv.csz; have h3 := inv.osz; have h4 := inv.le
  rw [Buf.write_eq (by omega)]
  simp only [Res.ok_bind]
  rw [Buf.write_eq (by omega)]
  simp only [Res.ok_bind]
  rw [Buf.write_eq (by omega)]
  refine Res.ok_iff.2 ⟨h1, h2, h3, by simp, by simp only; omega, fun r hr => ?_⟩
  simp only [Buf.put_data]
  rw [if_neg (by omega : r ≠ i + 1)]
  by_cases e : r = i
  · subst e
    rw [if_pos rfl, inv.here]
    refine ⟨Nat.le_refl _, by omega, fun p q a1 a2 a3 => by omega, fun p a1 a2 => ?_, fun p a1 a2 => ?_, fun c _ hno => ?_⟩
    · rw [Buf.put_data, if_pos (by omega)]; exact hi
    · rw [show p = s.1.pos by omega, Buf.put_data, Buf.put_data, if_pos rfl, if_pos rfl, if_pos rfl]
    · have := hno s.1.pos (Nat.le_refl _) (by omega)
      rw [Buf.put_data, if_pos rfl] at this
      rw [if_neg this]
  · rw [if_neg (by omega)]
    obtain ⟨r1, r2⟩ := inv.rows r (by omega)
    have r3 := r2.le
    refine ⟨by omega, r2.shift (by omega) (fun k hk => ?_) (fun k hk => ?_)⟩
    · rw [Buf.put_data, if_neg (by omega)]
    · rw [Buf.put_data, if_neg (by omega)]

theorem DInv.done {zero : α} {f : Nat → α} {N : Nat} {s : TS α × Buf Nat} (inv : DInv zero f N N s) :
    CM.Is zero ⟨CHdr.new N N, ⟨s.1.vals, s.1.cols, s.2⟩⟩ ⟨N, N, fun r c => if r = c then f r else zero⟩ := by
  have o_eq : ∀ r, CM.o ⟨CHdr.new N N, ⟨s.1.vals, s.1.cols, s.2⟩⟩ r = s.2.data r := by
    intro r; unfold CM.o; simp [CHdr.new]
  have h1 := inv.vsz; have h2 := inv.csz; have h4 := inv.le; have h5 := inv.here
  refine CM.Is.ofRows rfl rfl (by simp [CHdr.new, inv.osz]) ?_ ?_ ?_
  · rw [o_eq]; simp only [CHdr.new]; omega
  · rw [o_eq]; simp only [CHdr.new]; omega
  · intro r hr
    rw [o_eq, o_eq]
    exact (inv.rows r hr).2

/-- **C94 (sparse result).** `diagMatrix` of a dense column with a sparse result. -/
theorem C94_diagMatrix_to_sparse [DecidableEq α] (zero : α) (x : DM α) (a : Mat α) (hx : x.Is a) (jv : Nat → α) (jc jo : Nat → Nat) :
    (a.cols = 1 → Res.Ok (diagMatrixSparse zero x jv jc jo) (fun y => y.Is zero (diagonal zero a))) ∧
    (a.cols ≠ 1 → Res.Throws (diagMatrixSparse zero x jv jc jo)) := by
  have e1 : x.numRows = a.rows := hx.rows
  have e2 : x.numCols = a.cols := hx.cols
  unfold diagMatrixSparse
  rw [e1, e2]
  constructor
  · intro hc
    rw [if_neg (by simpa using hc), Buf.write_eq (by simp)]
    simp only [Res.ok_bind]
    refine (forLoop_ok (DInv zero (fun r => a.cell r 0) a.rows) 0 a.rows _ (Nat.zero_le _) (DInv.init _ _ _ _ _ _) ?_).bind
      (fun s inv => ⟨_, rfl, inv.done⟩)
    rintro i s - hi inv
    unfold diagRow
    rw [hx.read hi (by omega)]
    simp only [Res.ok_bind]
    by_cases hz : a.cell i 0 = zero
    · rw [if_neg (by simpa using hz)]
      exact inv.skip hi hz
    · rw [if_pos hz]
      exact inv.put hi
  · intro hc
    rw [if_pos hc]; exact ⟨_, rfl⟩

/-- **C94 (sparse).** `diagMatrix` of a sparse column or row view of one. -/
theorem C94_diagMatrix_sparse (zero : α) (x : CM α) (a : Mat α) (hx : x.Is zero a) (jv : Nat → α) (jc jo : Nat → Nat) :
    (a.cols = 1 → Res.Ok (diagMatrixCsr x jv jc jo) (fun y => y.Is zero (diagonal zero a))) ∧
    (a.cols ≠ 1 → Res.Throws (diagMatrixCsr x jv jc jo)) := by
  have e1 := hx.rows; have e2 := hx.cols
  unfold diagMatrixCsr
  rw [e1, e2]
  constructor
  · intro hc
    rw [if_neg (by simpa using hc), Buf.write_eq (by simp)]
    simp only [Res.ok_bind]
    refine (forLoop_ok (DInv zero (fun r => a.cell r 0) a.rows) 0 a.rows _ (Nat.zero_le _) (DInv.init _ _ _ _ _ _) ?_).bind
      (fun s inv => ⟨_, rfl, inv.done⟩)
    rintro i s - hi inv
    have m1 := hx.wf.mono i (by omega)
    have ht := hx.wf.rowTop (r := i) (by omega)
    have hnn : x.h.rowNumNonZeros x.mem i = .ok (x.o (i + 1) - x.o i) := by
      unfold CHdr.rowNumNonZeros
      rw [if_neg (by omega), hx.wf.off (by omega), hx.wf.off (by omega)]; rfl
    unfold diagRowCsr
    rw [hnn]
    simp only [Res.ok_bind]
    by_cases hz : x.o (i + 1) - x.o i = 0
    · rw [if_neg (by simpa using hz)]
      exact inv.skip hi (hx.rest i 0 hi (by omega) (fun p h1 h2 => by omega))
    · rw [if_pos hz, hx.wf.rowPtr (by omega)]
      simp only [Res.ok_bind]
      rw [Buf.read_eq (by omega)]
      simp only [Res.ok_bind]
      have hb := hx.wf.bound i (x.o i) (by omega) (Nat.le_refl _) (by omega)
      have he := hx.entry i (x.o i) hi (Nat.le_refl _) (by omega)
      rw [show x.mem.cols.data (x.o i) = 0 by omega] at he
      rw [← he]
      exact inv.put hi
  · intro hc
    rw [if_pos hc]; exact ⟨_, rfl⟩

/-- **C94 (round trip).** Extracting the diagonal of a diagonal matrix gives back the column. -/
theorem C94_diag_round_trip (zero : α) (junk : Nat → α) (x : DM α) (a : Mat α) (hx : x.Is a) (hc : a.cols = 1) (hr : 0 < a.rows) :
    Res.Ok (diagMatrixDense zero x >>= diagVectorDense junk) (fun y => y.Is a) := by
  refine ((C94_diagMatrix zero x a hx).1 hc).bind fun y hy => ?_
  refine ((C94_diagVector junk y _ hy).1 ⟨rfl, hr⟩).mono fun z hz => hz.congr ⟨rfl, hc.symm, fun r c _ h2 => ?_⟩
  simp only [diagonalOf, diagonal, if_true] at h2 ⊢
  rw [show c = 0 by omega]

/-! ### The hypotheses are met -/

/-- Lower triangle of the 3 × 3 window of 0..11: the cell below the diagonal stays, the one above becomes 0. -/
example : ∃ y, triDense 0 1 (⟨Hdr.new 3 3, ⟨9, fun i => i + 10⟩⟩ : DM Nat) false true true = .ok y ∧ y.get 2 1 = .ok 17 ∧ y.get 1 2 = .ok 0 := by
  have hx : (⟨Hdr.new 3 3, ⟨9, fun i => i + 10⟩⟩ : DM Nat).Is ⟨3, 3, fun r c => r * 3 + c + 10⟩ := is_new rfl fun _ _ _ _ => rfl
  obtain ⟨y, h1, h2⟩ := (C93_tri 0 1 _ _ hx false true true).1 rfl
  exact ⟨y, h1, h2.2.2.2 2 1 (by decide) (by decide), h2.2.2.2 1 2 (by decide) (by decide)⟩

example : ∃ y, diagMatrixCsr exCol (fun _ => 0) (fun _ => 0) (fun _ => 0) = .ok y ∧ y.h.get 0 y.mem 1 1 = .ok 6 ∧ y.h.get 0 y.mem 1 2 = .ok 0 ∧
    ∃ z, triCsr 0 1 y true true false (fun _ => 0) (fun _ => 0) (fun _ => 0) = .ok z ∧ z.h.get 0 z.mem 2 2 = .ok 1 := by
  obtain ⟨y, h1, h2⟩ := (C94_diagMatrix_sparse 0 exCol _ exCol_is (fun _ => 0) (fun _ => 0) (fun _ => 0)).1 rfl
  obtain ⟨z, h3, h4⟩ := (C93_tri_sparse 0 1 y _ h2 true true false (fun _ => 0) (fun _ => 0) (fun _ => 0)).1 rfl
  exact ⟨y, h1, h2.get (by decide) (by decide), h2.get (by decide) (by decide), z, h3, h4.get (by decide) (by decide)⟩

end Verif.Shape
