/-
  Model of the dense specialisations of the elementwise kernels EwBinaryMat.h, EwBinaryObjSca.h, EwUnaryMat.h
  (src/runtime/local/kernels), and their properties (C38).
-/
import Verif.Dense.KernelProps

namespace Verif
variable {α β γ : Type _}

/-- Cell-wise combination of two equally shaped matrices. -/
def Mat.zip (f : α → β → γ) (a : Mat α) (b : Mat β) : Mat γ := ⟨a.rows, a.cols, fun r c => f (a.cell r c) (b.cell r c)⟩

/-- Cell-wise image. -/
def Mat.map (f : α → γ) (a : Mat α) : Mat γ := ⟨a.rows, a.cols, fun r c => f (a.cell r c)⟩

/-- `b` repeated to the given shape: its only row (column) is used for all rows (columns). -/
def Mat.stretch (b : Mat β) (rows cols : Nat) : Mat β :=
  ⟨rows, cols, fun r c => b.cell (if b.rows = 1 then 0 else r) (if b.cols = 1 then 0 else c)⟩

namespace Dense

/-- The two nested loops shared by the three cases, EwBinaryMat.h:75-82, 85-91, 94-101; `getL`/`getR` say how the operands'
cell is read (the left operand may be the result object itself, hence the access to the current result memory). -/
def ewLoop (f : α → β → γ) (getL : Buf γ → Nat → Nat → Res α) (getR : Nat → Nat → Res β) (h : Hdr) (rows cols : Nat)
    (m : Buf γ) : Res (Buf γ) :=
  forLoop 0 rows m fun r m => forLoop 0 cols m fun c m => do
    let a ← getL m r c
    let b ← getR r c
    m.write (h.start + r * h.rowSkip + c) (f a b)

/-- EwBinaryMat.h:57-112 after the result object is known. -/
def ewInto (f : α → β → γ) (getL : Buf γ → Nat → Nat → Res α) (lhsRows lhsCols : Nat) (rhs : DM β) (res : DM γ) :
    Res (DM γ) :=
  if lhsRows = rhs.numRows ∧ lhsCols = rhs.numCols then do
    -- matrix op matrix (same size)
    let m ← ewLoop f getL (fun r c => rhs.mem.read (rhs.addr r c)) res.h lhsRows lhsCols res.mem
    .ok ⟨res.h, m⟩
  else if lhsCols = rhs.numCols ∧ (rhs.numRows = 1 ∨ lhsRows = 1) then do
    -- matrix op row-vector: the right pointer is not advanced
    let m ← ewLoop f getL (fun _ c => rhs.mem.read (rhs.addr 0 c)) res.h lhsRows lhsCols res.mem
    .ok ⟨res.h, m⟩
  else if lhsRows = rhs.numRows ∧ (rhs.numCols = 1 ∨ lhsCols = 1) then do
    -- matrix op col-vector: always the first value of the right row
    let m ← ewLoop f getL (fun r _ => rhs.mem.read (rhs.addr r 0)) res.h lhsRows lhsCols res.mem
    .ok ⟨res.h, m⟩
  else .error (.throw "lhs and rhs must either have the same dimensions, or one of them must be a row/column vector")

/-- EwBinaryMat.h:57-112 with `res == nullptr`. -/
def ewBinaryMat (f : α → β → γ) (junk : Nat → γ) (lhs : DM α) (rhs : DM β) : Res (DM γ) :=
  ewInto f (fun _ r c => lhs.mem.read (lhs.addr r c)) lhs.numRows lhs.numCols rhs (DM.create lhs.numRows lhs.numCols junk)

/-- EwBinaryMat.h:57-112 with `res == lhs` (the in-place use in Tasks.cpp). -/
def ewBinaryMatInPlace (f : α → β → α) (lhs : DM α) (rhs : DM β) : Res (DM α) :=
  ewInto f (fun m r c => m.read (lhs.addr r c)) lhs.numRows lhs.numCols rhs lhs

/-- EwBinaryObjSca.h:54-79 (dense), `res == nullptr`. -/
def ewBinaryObjSca (f : α → β → γ) (junk : Nat → γ) (lhs : DM α) (rhs : β) : Res (DM γ) := do
  let res := DM.create lhs.numRows lhs.numCols junk
  let m ← ewLoop f (fun _ r c => lhs.mem.read (lhs.addr r c)) (fun _ _ => .ok rhs) res.h lhs.numRows lhs.numCols res.mem
  .ok ⟨res.h, m⟩

/-- EwUnaryMat.h:51-72 (dense), `res == nullptr`. -/
def ewUnaryMat (f : α → γ) (junk : Nat → γ) (arg : DM α) : Res (DM γ) := do
  let res := DM.create arg.numRows arg.numCols junk
  let m ← forLoop 0 arg.numRows res.mem fun r m => forLoop 0 arg.numCols m fun c m => do
    let a ← arg.mem.read (arg.addr r c)
    m.write (res.addr r c) (f a)
  .ok ⟨res.h, m⟩

/-! ### Loop rule -/

/-- Overwriting all cells of a (possibly strided) matrix in row-major order; the body may read the cell it overwrites. -/
theorem fill_strided {s k rows cols : Nat} {m0 : Buf γ} (hk : cols ≤ k)
    (inb : ∀ r c, r < rows → c < cols → s + r * k + c < m0.size) (g : Nat → Nat → γ)
    (body : Nat → Nat → Buf γ → Res (Buf γ))
    (hb : ∀ r c (m : Buf γ), r < rows → c < cols → m.size = m0.size →
      m.data (s + r * k + c) = m0.data (s + r * k + c) → body r c m = .ok (m.put (s + r * k + c) (g r c))) :
    Res.Ok (forLoop 0 rows m0 fun r m => forLoop 0 cols m fun c m => body r c m)
      (fun m' => m'.size = m0.size ∧ (∀ r c, r < rows → c < cols → m'.data (s + r * k + c) = g r c) ∧
        ∀ p, (∀ r c, r < rows → c < cols → p ≠ s + r * k + c) → m'.data p = m0.data p) := by
  have inj : ∀ {r c r' c' : Nat}, c < cols → c' < cols → s + r * k + c = s + r' * k + c' → r = r' ∧ c = c' := by
    intro r c r' c' h1 h2 h3
    exact rm_inj (s := k) (by omega) (by omega) (by omega)
  refine forLoop_post (fun i m' => m'.size = m0.size ∧
      (∀ r c, r < rows → c < cols → m'.data (s + r * k + c) = if r < i then g r c else m0.data (s + r * k + c)) ∧
      ∀ p, (∀ r c, r < rows → c < cols → p ≠ s + r * k + c) → m'.data p = m0.data p)
    0 rows m0 (Nat.zero_le _) ⟨rfl, by intro r c _ _; simp, fun _ _ => rfl⟩ ?_ ?_
  · intro i m1 _ hi ⟨h1, h2, h3⟩
    refine forLoop_post (fun j m' => m'.size = m0.size ∧
        (∀ r c, r < rows → c < cols → m'.data (s + r * k + c) =
          if r < i ∨ (r = i ∧ c < j) then g r c else m0.data (s + r * k + c)) ∧
        ∀ p, (∀ r c, r < rows → c < cols → p ≠ s + r * k + c) → m'.data p = m0.data p)
      0 cols m1 (Nat.zero_le _) ⟨h1, by intro r c hr hc; rw [h2 r c hr hc]; simp, h3⟩ ?_ ?_
    · intro j m2 _ hj ⟨g1, g2, g3⟩
      refine ⟨_, hb i j m2 hi hj g1 ?_, g1, ?_, ?_⟩
      · rw [g2 i j hi hj, if_neg (by omega)]
      · intro r c hr hc
        rw [Buf.put_data]
        by_cases e : s + r * k + c = s + i * k + j
        · obtain ⟨rfl, rfl⟩ := inj hc hj e
          simp
        · rw [if_neg e, g2 r c hr hc]
          have hne : ¬ (r = i ∧ c = j) := by rintro ⟨rfl, rfl⟩; exact e rfl
          by_cases h : r < i ∨ (r = i ∧ c < j)
          · rw [if_pos h, if_pos (by omega)]
          · rw [if_neg h, if_neg (by omega)]
      · intro p hp
        rw [Buf.put_data, if_neg (hp i j hi hj)]
        exact g3 p hp
    · rintro m2 ⟨g1, g2, g3⟩
      refine ⟨g1, fun r c hr hc => ?_, g3⟩
      rw [g2 r c hr hc]
      by_cases h : r < i + 1
      · rw [if_pos (by omega), if_pos h]
      · rw [if_neg (by omega), if_neg h]
  · rintro m2 ⟨g1, g2, g3⟩
    refine ⟨g1, fun r c hr hc => ?_, g3⟩
    rw [g2 r c hr hc, if_pos hr]

theorem ewLoop_fresh {f : α → β → γ} {junk : Nat → γ} {x : DM α} {a : Mat α} (hx : x.Is a) {getR : Nat → Nat → Res β}
    {b : Nat → Nat → β} (hb : ∀ r c, r < a.rows → c < a.cols → getR r c = .ok (b r c)) :
    Res.Ok (ewLoop f (fun _ r c => x.mem.read (x.addr r c)) getR (DM.create x.numRows x.numCols junk).h x.numRows x.numCols
        (DM.create x.numRows x.numCols junk).mem)
      (fun m => DM.Is ⟨(DM.create x.numRows x.numCols junk).h, m⟩ ⟨a.rows, a.cols, fun r c => f (a.cell r c) (b r c)⟩) := by
  have e1 : x.numRows = a.rows := hx.rows
  have e2 : x.numCols = a.cols := hx.cols
  rw [e1, e2, create_h]
  unfold ewLoop
  refine (fill_strided (s := 0) (k := a.cols) (Nat.le_refl _) ?_ (fun r c => f (a.cell r c) (b r c)) _ ?_).mono ?_
  · intro r c hr hc
    rw [create_size]
    have := rm_lt hr hc (Nat.le_refl a.cols); omega
  · intro r c m hr hc hm _
    simp only []
    rw [hx.read hr hc, hb r c hr hc]
    have hw : (Hdr.new a.rows a.cols).start + r * (Hdr.new a.rows a.cols).rowSkip + c = 0 + r * a.cols + c := by
      simp [Hdr.new, Hdr.start, Hdr.isPartial]
    simp only [Res.ok_bind, hw]
    rw [Buf.write_eq]
    rw [hm, create_size]
    have := rm_lt hr hc (Nat.le_refl a.cols); omega
  · rintro m ⟨h1, h2, _⟩
    refine is_new (by rw [h1, create_size]) fun r c hr hc => ?_
    have := h2 r c hr hc
    simpa using this

theorem ewLoop_inPlace {f : α → β → α} {x : DM α} {a : Mat α} (hx : x.Is a) {getR : Nat → Nat → Res β}
    {b : Nat → Nat → β} (hb : ∀ r c, r < a.rows → c < a.cols → getR r c = .ok (b r c)) :
    Res.Ok (ewLoop f (fun m r c => m.read (x.addr r c)) getR x.h x.numRows x.numCols x.mem)
      (fun m => DM.Is ⟨x.h, m⟩ ⟨a.rows, a.cols, fun r c => f (a.cell r c) (b r c)⟩) := by
  have e1 : x.numRows = a.rows := hx.rows
  have e2 : x.numCols = a.cols := hx.cols
  rw [e1, e2]
  unfold ewLoop
  refine (fill_strided (s := x.h.base) (k := x.h.rowSkip) ?_ ?_ (fun r c => f (a.cell r c) (b r c)) _ ?_).mono ?_
  · have := hx.wf.skip; rw [hx.cols] at this; exact this
  · intro r c hr hc; exact hx.inb hr hc
  · intro r c m hr hc hm hcell
    have hin := hx.inb hr hc
    unfold DM.addr
    rw [hx.wf.start]
    simp only []
    rw [Buf.read_eq (by omega), hcell, hx.data hr hc, hb r c hr hc]
    simp only [Res.ok_bind]
    rw [Buf.write_eq (by omega)]
  · rintro m ⟨h1, h2, _⟩
    refine is_of_data ⟨hx.wf.skip, hx.wf.full, ?_, hx.wf.orig⟩ hx.rows hx.cols ?_
    · intro r c hr hc
      simp only at *
      rw [h1]; exact hx.wf.inb r c hr hc
    · intro r c hr hc; exact h2 r c hr hc

/-! ### C38: elementwise operations -/

/-- The right operand has the left operand's shape, or is a row/column vector of matching width/height. -/
def Broadcastable (a : Mat α) (b : Mat β) : Prop :=
  (b.rows = a.rows ∧ b.cols = a.cols) ∨ (b.rows = 1 ∧ b.cols = a.cols) ∨ (b.rows = a.rows ∧ b.cols = 1)

/-- C38 (right operand a matrix of the same shape or a matching vector): the result has the left operand's shape and every
cell is the operation applied to the left cell and the (broadcast) right cell; other shape combinations in which neither
operand is a matching vector are rejected. Missing for the full property: a vector as the *left* operand, for which the code
is wrong, see `C38_left_vector_wrong`. -/
theorem C38_ewBinaryMat_partial (f : α → β → γ) (junk : Nat → γ) (x : DM α) (y : DM β) (a : Mat α) (b : Mat β)
    (hx : x.Is a) (hy : y.Is b) :
    (Broadcastable a b → Res.Ok (ewBinaryMat f junk x y) (fun z => z.Is (Mat.zip f a (b.stretch a.rows a.cols)))) ∧
    (¬ Broadcastable a b → ¬ (a.rows = 1 ∧ a.cols = b.cols) → ¬ (a.rows = b.rows ∧ a.cols = 1) →
      Res.Throws (ewBinaryMat f junk x y)) := by
  have e1 : x.numRows = a.rows := hx.rows
  have e2 : x.numCols = a.cols := hx.cols
  have e3 : y.numRows = b.rows := hy.rows
  have e4 : y.numCols = b.cols := hy.cols
  constructor
  · intro hb
    unfold ewBinaryMat ewInto
    rw [e3, e4]
    by_cases c1 : x.numRows = b.rows ∧ x.numCols = b.cols
    · rw [if_pos c1]
      rw [e1, e2] at c1
      refine (ewLoop_fresh hx (b := fun r c => b.cell r c) ?_).bind ?_
      · intro r c hr hc; exact hy.read (by omega) (by omega)
      · intro m hm
        refine ⟨_, rfl, hm.congr ⟨rfl, rfl, fun r c hr hc => ?_⟩⟩
        simp only at hr hc
        simp only [Mat.zip, Mat.stretch]
        congr 1
        have hr0 : (if b.rows = 1 then 0 else r) = r := by by_cases h : b.rows = 1 <;> simp [h]; omega
        have hc0 : (if b.cols = 1 then 0 else c) = c := by by_cases h : b.cols = 1 <;> simp [h]; omega
        rw [hr0, hc0]
    · rw [if_neg c1]
      rw [e1, e2] at c1
      unfold Broadcastable at hb
      by_cases c2 : x.numCols = b.cols ∧ (b.rows = 1 ∨ x.numRows = 1)
      · rw [if_pos c2]
        rw [e1, e2] at c2
        have hb1 : b.rows = 1 := by omega
        refine (ewLoop_fresh hx (b := fun r c => b.cell 0 c) ?_).bind ?_
        · intro r c hr hc; exact hy.read (by omega) (by omega)
        · intro m hm
          refine ⟨_, rfl, hm.congr ⟨rfl, rfl, fun r c hr hc => ?_⟩⟩
          simp only at hr hc
          simp only [Mat.zip, Mat.stretch, hb1, if_true]
          have hc0 : (if b.cols = 1 then 0 else c) = c := by by_cases h : b.cols = 1 <;> simp [h]; omega
          rw [hc0]
      · rw [if_neg c2]
        rw [e1, e2] at c2
        have c3 : x.numRows = b.rows ∧ (b.cols = 1 ∨ x.numCols = 1) := by rw [e1, e2]; omega
        rw [if_pos c3]
        rw [e1, e2] at c3
        have hb1 : b.cols = 1 := by omega
        refine (ewLoop_fresh hx (b := fun r c => b.cell r 0) ?_).bind ?_
        · intro r c hr hc; exact hy.read (by omega) (by omega)
        · intro m hm
          refine ⟨_, rfl, hm.congr ⟨rfl, rfl, fun r c hr hc => ?_⟩⟩
          simp only at hr hc
          simp only [Mat.zip, Mat.stretch, hb1, if_true]
          have hr0 : (if b.rows = 1 then 0 else r) = r := by by_cases h : b.rows = 1 <;> simp [h]; omega
          rw [hr0]
  · intro h1 h2 h3
    unfold Broadcastable at h1
    unfold ewBinaryMat ewInto
    rw [e1, e2, e3, e4, if_neg (by omega), if_neg (by omega), if_neg (by omega)]
    exact ⟨_, rfl⟩

/-- C38 (in-place form): combining into the left operand. -/
theorem C38_ewBinaryMat_inPlace (f : α → β → α) (x : DM α) (y : DM β) (a : Mat α) (b : Mat β)
    (hx : x.Is a) (hy : y.Is b) (hr : b.rows = a.rows) (hc : b.cols = a.cols) :
    Res.Ok (ewBinaryMatInPlace f x y) (fun z => z.Is (Mat.zip f a b) ∧ z.h = x.h) := by
  have e1 : x.numRows = a.rows := hx.rows
  have e2 : x.numCols = a.cols := hx.cols
  have e3 : y.numRows = b.rows := hy.rows
  have e4 : y.numCols = b.cols := hy.cols
  unfold ewBinaryMatInPlace ewInto
  rw [if_pos (by omega)]
  refine (ewLoop_inPlace hx (b := fun r c => b.cell r c) ?_).bind ?_
  · intro r c h1 h2; exact hy.read (by omega) (by omega)
  · intro m hm
    exact ⟨_, rfl, hm, rfl⟩

/-- C38: matrix with scalar. -/
theorem C38_ewBinaryObjSca (f : α → β → γ) (junk : Nat → γ) (x : DM α) (a : Mat α) (v : β) (hx : x.Is a) :
    Res.Ok (ewBinaryObjSca f junk x v) (fun z => z.Is (Mat.map (fun u => f u v) a)) := by
  unfold ewBinaryObjSca
  refine (ewLoop_fresh hx (b := fun _ _ => v) (fun _ _ _ _ => rfl)).bind ?_
  intro m hm
  exact ⟨_, rfl, hm⟩

/-- C38: unary elementwise operation. -/
theorem C38_ewUnaryMat (f : α → γ) (junk : Nat → γ) (x : DM α) (a : Mat α) (hx : x.Is a) :
    Res.Ok (ewUnaryMat f junk x) (fun z => z.Is (Mat.map f a)) := by
  have e1 : x.numRows = a.rows := hx.rows
  have e2 : x.numCols = a.cols := hx.cols
  unfold ewUnaryMat
  rw [e1, e2]
  refine (fill_cells (create_size _ _ _) (fun r c => f (a.cell r c)) _ ?_).bind ?_
  · intro r c m hr hc hm
    rw [hx.read hr hc, create_addr]
    simp only [Res.ok_bind]
    exact Buf.write_eq (by rw [hm]; exact rm_lt hr hc (Nat.le_refl _))
  · rintro m ⟨h1, h2⟩
    exact ⟨_, rfl, is_new h1 h2⟩

/-- C38 is false for a vector as the left operand: `[10] + [1; 2]`-like broadcasts (1×1 row vector against a 2×1 matrix, or any
1×n row vector against an m×n matrix) silently give a result of the *vector's* shape that ignores all rows of the matrix but
the first. -/
theorem C38_left_vector_wrong (f : α → β → γ) (junk : Nat → γ) (x : DM α) (y : DM β) (a : Mat α) (b : Mat β)
    (hx : x.Is a) (hy : y.Is b) (h1 : a.rows = 1) (h2 : b.rows = 2) (h3 : a.cols = b.cols) :
    Res.Ok (ewBinaryMat f junk x y) (fun z => z.Is ⟨1, b.cols, fun _ c => f (a.cell 0 c) (b.cell 0 c)⟩) := by
  have e1 : x.numRows = a.rows := hx.rows
  have e2 : x.numCols = a.cols := hx.cols
  have e3 : y.numRows = b.rows := hy.rows
  have e4 : y.numCols = b.cols := hy.cols
  unfold ewBinaryMat ewInto
  rw [if_neg (by omega), if_pos (by omega)]
  refine (ewLoop_fresh hx (b := fun r c => b.cell 0 c) ?_).bind ?_
  · intro r c hr hc; exact hy.read (by omega) (by omega)
  · intro m hm
    refine ⟨_, rfl, hm.congr ⟨h1, h3, fun r c hr hc => ?_⟩⟩
    simp only at hr
    have : r = 0 := by omega
    subst this; rfl

/-- The same with an empty right operand: the code reads the first row of a matrix without rows. -/
theorem C38_left_vector_empty_undefined :
    Res.IsUB (ewBinaryMat (fun a b : Nat => a + b) (fun _ => 0) (DM.create 1 1 fun _ => 1) (DM.create 0 1 fun _ => 1)) :=
  ⟨_, rfl⟩

/-! Non-vacuity. -/
example : Broadcastable (⟨3, 4, fun r c => r * 4 + c⟩ : Mat Nat) (⟨1, 4, fun _ c => c⟩ : Mat Nat) := by
  right; left; exact ⟨rfl, rfl⟩

example : Res.Ok (ewBinaryMat (fun a b : Nat => a + b) (fun _ => 0) exM (DM.create 1 4 fun i => 10 * i))
    (fun z => z.get 2 3 = .ok 41) := ⟨_, rfl, rfl⟩

end Dense
end Verif
