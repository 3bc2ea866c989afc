/-
  Model of src/runtime/local/kernels/{Fill,Seq,OuterBinary,CondMatMatMat,CondMatMatSca,CondMatScaMat,CondMatScaSca,Replace}.h
  and their properties (C95-C100).

  Simplifications: `res == nullptr` on entry; `size_t` and value arithmetic does not overflow; a pointer advanced once per
  iteration is written as a position; the fresh arrays have arbitrary contents.
-/
import Verif.Shape.Tri

namespace Verif.Shape
open Verif Verif.Dense Verif.Csr
variable {α β γ : Type}

/-! ### Specification -/

/-- Every cell is `v`. -/
def constant (v : α) (R C : Nat) : Mat α := ⟨R, C, fun _ _ => v⟩

/-- Cell `(r, c)` is `f` of the `r`-th value of the column `a` and the `c`-th value of the row `b`. -/
def outer (f : α → β → γ) (a : Mat α) (b : Mat β) : Mat γ := ⟨a.rows, b.cols, fun r c => f (a.cell r 0) (b.cell 0 c)⟩

/-- Choose per cell. -/
def choose (isTrue : β → Bool) (cond : Mat β) (t e : Nat → Nat → α) : Mat α :=
  ⟨cond.rows, cond.cols, fun r c => if isTrue (cond.cell r c) then t r c else e r c⟩

/-- Comparison of values as the C++ `==`: two values are equal only if they are the same, and there is at most one value (NaN)
that is not equal to itself. (Signed zeros and NaN payloads are identified.) -/
structure CppEq (eqv : α → α → Bool) : Prop where
  same : ∀ a b, eqv a b = true → a = b
  nan : ∀ a b, eqv a a = false → eqv b b = false → a = b

/-- The matrix with every cell equal to `pattern` replaced. -/
def replaced [DecidableEq α] (a : Mat α) (pattern replacement : α) : Mat α :=
  ⟨a.rows, a.cols, fun r c => if a.cell r c = pattern then replacement else a.cell r c⟩

/-! ### Model -/

/-- Fill.h:53-61. -/
def fillDense (v : α) (R C : Nat) (junk : Nat → α) : Res (DM α) := do
  let res := DM.create R C junk
  let m ← res.mem.fill res.h.start (res.h.start + R * C) v
  .ok ⟨res.h, m⟩

/-- Fill.h:87 `std::iota(colIdxs, colIdxs + numCols, 0)` on the part of the array starting at `b`. -/
def iota (b n : Nat) (cs : Buf Nat) : Res (Buf Nat) := forLoop 0 n cs fun i cs => cs.write (b + i) i

/-- Fill.h:86-90: one row. -/
def fillRow (C r : Nat) (s : Buf Nat × Buf Nat) : Res (Buf Nat × Buf Nat) := do
  let cs ← iota (r * C) C s.1
  let o ← s.2.write r (r * C)
  .ok (cs, o)

/-- Fill.h:67-94. -/
def fillCsr [DecidableEq α] (zero v : α) (R C : Nat) (jv : Nat → α) (jc jo : Nat → Nat) : Res (CM α) :=
  if v = zero then do
    let o ← (⟨R + 1, jo⟩ : Buf Nat).fill 0 (R + 1) 0
    .ok ⟨CHdr.new R C, ⟨⟨0, jv⟩, ⟨0, jc⟩, o⟩⟩
  else do
    let vs ← (⟨R * C, jv⟩ : Buf α).fill 0 (R * C) v
    let s ← forLoop 0 R ((⟨R * C, jc⟩ : Buf Nat), (⟨R + 1, jo⟩ : Buf Nat)) fun r s => fillRow C r s
    let o ← s.2.write R (R * C)
    .ok ⟨CHdr.new R C, ⟨vs, s.1, o⟩⟩

/-- Seq.h:49-98 for integers: `ceil` of an integer quotient is the quotient, `eps` is 0. -/
def seqInt (start fin inc : Int) (junk : Nat → Int) : Res (DM Int) :=
  if inc = 0 then .error (.throw "inc should not be zero")
  else if (start < fin ∧ inc < 0) ∨ (fin < start ∧ 0 < inc) then .ok (DM.create 0 1 junk)
  else do
    let n := (fin - start).natAbs / inc.natAbs + 1
    let res := DM.create n 1 junk
    let s ← forLoop 0 n (res.mem, start) fun i s => do
      let m ← s.1.write (res.h.start + i) s.2
      .ok (m, s.2 + inc)
    let last ← s.1.read (res.h.start + (n - 1))
    if fin < start ∧ 0 < fin - last then do
      let h ← res.h.shrinkNumRows (n - 1)
      .ok ⟨h, s.1⟩
    else if start < fin ∧ 0 < last - fin then do
      let h ← res.h.shrinkNumRows (n - 1)
      .ok ⟨h, s.1⟩
    else .ok ⟨res.h, s.1⟩

/-- OuterBinary.h:53-81. -/
def outerBinary (f : α → β → γ) (x : DM α) (y : DM β) (junk : Nat → γ) : Res (DM γ) :=
  if x.numCols ≠ 1 then .error (.throw "outerBinary: lhs must be a column (mx1) matrix")
  else if y.numRows ≠ 1 then .error (.throw "outerBinary: rhs must be a row (1xn) matrix")
  else do
    let res := DM.create x.numRows y.numCols junk
    let m ← forLoop 0 x.numRows res.mem fun r m =>
      forLoop 0 y.numCols m fun c m => do
        let u ← x.mem.read (x.addr r 0)
        let v ← y.mem.read (y.h.start + c)
        m.write (res.addr r c) (f u v)
    .ok ⟨res.h, m⟩

/-- The second and third operand of `? :` are matrices or scalars. -/
inductive Opd (α : Type) where
  | mat (x : DM α)
  | sca (v : α)

/-- CondMatMatMat.h:61-64, CondMatMatSca.h:62-64, CondMatScaMat.h:59-61: true if the shape check throws. -/
def Opd.bad (o : Opd α) (R C : Nat) : Bool :=
  match o with
  | .mat x => decide (R ≠ x.numRows) || decide (C ≠ x.numCols)
  | .sca _ => false

/-- The value of the operand for cell `(r, c)`; matrices are read through their own row skip. -/
def Opd.val (o : Opd α) (r c : Nat) : Res α :=
  match o with
  | .mat x => x.mem.read (x.addr r c)
  | .sca v => .ok v

/-- CondMatMatMat.h:55-87 (matrix, matrix), CondMatMatSca.h:55-84 (matrix, scalar), CondMatScaMat.h:52-81 (scalar, matrix),
CondMatScaSca.h:52-73 (scalar, scalar). `isTrue` is `static_cast<bool>`. -/
def cond (isTrue : β → Bool) (k : DM β) (t e : Opd α) (junk : Nat → α) : Res (DM α) :=
  if t.bad k.numRows k.numCols || e.bad k.numRows k.numCols then .error (.throw "must have the same shape")
  else do
    let res := DM.create k.numRows k.numCols junk
    let m ← forLoop 0 k.numRows res.mem fun r m =>
      forLoop 0 k.numCols m fun c m => do
        let b ← k.mem.read (k.addr r c)
        let v ← (if isTrue b then t.val r c else e.val r c)
        m.write (res.addr r c) v
    .ok ⟨res.h, m⟩

/-- Replace.h:92-98, 109-119, 121-131: one pass over the cells; `hit v` decides whether the replacement is written. -/
def replaceLoop (x : DM α) (hit : α → Bool) (replacement : α) (junk : Nat → α) : Res (DM α) := do
  let res := DM.create x.numRows x.numCols junk
  let m ← forLoop 0 x.numRows res.mem fun r m =>
    forLoop 0 x.numCols m fun c m => do
      let v ← x.mem.read (x.addr r c)
      m.write (res.addr r c) (if hit v then replacement else v)
  .ok ⟨res.h, m⟩

/-- Replace.h:55-134. `none`: the kernel returns without setting `res`, which stays a null pointer. -/
def replaceDense (eqv : α → α → Bool) (x : DM α) (pattern replacement : α) (junk : Nat → α) : Res (Option (DM α)) :=
  if x.numRows * x.numCols = 0 then .ok none
  else if (!(eqv replacement replacement) && !(eqv pattern pattern)) || eqv pattern replacement then do
    let y ← replaceLoop x (fun _ => false) replacement junk
    .ok (some y)
  else if !(eqv pattern pattern) then do
    let y ← replaceLoop x (fun v => !(eqv v v)) replacement junk
    .ok (some y)
  else do
    let y ← replaceLoop x (fun v => eqv v pattern) replacement junk
    .ok (some y)

/-- Replace.h:202-213 (191-201): replacement in the stored values, row by row. -/
def replaceVals (x : CM α) (hit : α → Bool) (replacement : α) (h : CHdr) (m : CMem α) : Res (CMem α) :=
  forLoop 0 x.h.numRows m fun r m => do
    let p ← x.h.rowPtr x.mem r
    let q ← h.rowPtr m r
    let n ← x.h.rowNumNonZeros x.mem r
    let vs ← forLoop 0 n m.vals fun c vs => do
      let v ← x.mem.vals.read (p + c)
      if hit v then vs.write (q + c) replacement else .ok vs
    .ok { m with vals := vs }

/-- Replace.h:185-188 (175-181): the copies made with `memcpy`; `getColIdxs()` and `getValues()` are the starts of the arrays. -/
def replaceCopy (x : CM α) (nnz : Nat) (jv : Nat → α) (jc jo : Nat → Nat) : Res (CM α) := do
  let o ← x.mem.offs.copy x.h.rowOff ⟨x.h.numRows + 1, jo⟩ 0 (x.h.numRows + 1)
  let c ← x.mem.cols.copy 0 ⟨nnz, jc⟩ 0 nnz
  let v ← x.mem.vals.copy 0 ⟨nnz, jv⟩ 0 nnz
  .ok ⟨CHdr.new x.h.numRows x.h.numCols, ⟨v, c, o⟩⟩

/-- Replace.h:140-215. -/
def replaceCsr (eqv : α → α → Bool) (zero : α) (x : CM α) (pattern replacement : α) (jv : Nat → α) (jc jo : Nat → Nat) :
    Res (Option (CM α)) :=
  if eqv pattern zero then .error (.throw "Replace - pattern equals zero, this case is not supported for now")
  else do
    let nnz ← x.h.numNonZeros x.mem
    if nnz = 0 then .ok none
    else if (!(eqv replacement replacement) && !(eqv pattern pattern)) || eqv pattern replacement then do
      let y ← replaceCopy x nnz jv jc jo
      .ok (some y)
    else do
      let y ← replaceCopy x nnz jv jc jo
      let m ← replaceVals x (if !(eqv pattern pattern) then fun v => !(eqv v v) else fun v => eqv v pattern) replacement y.h y.mem
      .ok (some ⟨y.h, m⟩)

/-! ### Constant matrices and sequences -/

/-- **C95.** `fill` creates a matrix of the requested shape whose cells all hold the value (dense and sparse). -/
theorem C95_fill (v : α) (R C : Nat) (junk : Nat → α) : Res.Ok (fillDense v R C junk) (fun y => y.Is (constant v R C)) := by
  unfold fillDense
  simp only
  rw [create_start]
  refine (Buf.fill_ok (Or.inr (by simp [DM.create]))).bind ?_
  rintro m ⟨g1, g2⟩
  refine ⟨_, rfl, is_new g1 fun r c hr hc => ?_⟩
  have := rm_lt hr hc (Nat.le_refl C)
  rw [g2, if_pos (by omega)]

theorem iota_ok (b n : Nat) (cs : Buf Nat) (h : b + n ≤ cs.size) :
    Res.Ok (iota b n cs) (fun t => t.size = cs.size ∧ ∀ i, t.data i = if b ≤ i ∧ i < b + n then i - b else cs.data i) := by
  unfold iota
  refine forLoop_ok (fun k (t : Buf Nat) => t.size = cs.size ∧ ∀ i, t.data i = if b ≤ i ∧ i < b + k then i - b else cs.data i)
    0 n cs (Nat.zero_le _) ⟨rfl, fun i => by rw [if_neg (by omega)]⟩ ?_
  rintro k t - hk ⟨g1, g2⟩
  rw [Buf.write_eq (by omega)]
  refine Res.ok_iff.2 ⟨g1, fun i => ?_⟩
  rw [Buf.put_data, g2]
  by_cases e : i = b + k
  · rw [if_pos e, if_pos (by omega)]; omega
  · rw [if_neg e]
    by_cases h2 : b ≤ i ∧ i < b + k
    · rw [if_pos h2, if_pos (by omega)]
    · rw [if_neg h2, if_neg (by omega)]

/-- Column indexes and offsets of a matrix without zeros. -/
theorem fillRows_ok (R C N : Nat) (hN : N = R * C) (jc jo : Nat → Nat) :
    Res.Ok (forLoop 0 R ((⟨N, jc⟩ : Buf Nat), (⟨R + 1, jo⟩ : Buf Nat)) fun r s => fillRow C r s)
      (fun s => s.1.size = R * C ∧ s.2.size = R + 1 ∧ (∀ r, r < R → s.2.data r = r * C) ∧ (∀ r c, r < R → c < C → s.1.data (r * C + c) = c)) := by
  subst hN
  have hl := forLoop_ok (fun i (s : Buf Nat × Buf Nat) => s.1.size = R * C ∧ s.2.size = R + 1 ∧
      (∀ r, r < i → s.2.data r = r * C) ∧ (∀ r c, r < i → c < C → s.1.data (r * C + c) = c))
    0 R ((⟨R * C, jc⟩ : Buf Nat), (⟨R + 1, jo⟩ : Buf Nat)) (body := fun r s => fillRow C r s) (Nat.zero_le _)
    ⟨rfl, rfl, fun r h => by omega, fun r c h => by omega⟩ (by
    rintro i ⟨cs, o⟩ - hi ⟨s1, s2, s3, s4⟩
    simp only at s1 s2 s3 s4
    unfold fillRow
    have hle : (i + 1) * C ≤ R * C := Nat.mul_le_mul_right _ hi
    have e : (i + 1) * C = i * C + C := by ring
    refine (iota_ok (i * C) C cs (by omega)).bind ?_
    rintro t ⟨t1, t2⟩
    simp only
    rw [Buf.write_eq (by omega)]
    refine Res.ok_iff.2 ⟨by rw [← s1]; exact t1, by simpa using s2, ?_, ?_⟩
    · intro r hr
      simp only [Buf.put_data]
      by_cases h : r = i
      · rw [if_pos h, h]
      · rw [if_neg h]; exact s3 r (by omega)
    · intro r c hr hc
      simp only
      rw [t2]
      by_cases h : r = i
      · rw [h, if_pos (by omega)]; omega
      · rw [if_neg (by
          have h5 : (r + 1) * C ≤ i * C := Nat.mul_le_mul_right _ (by omega)
          have e5 : (r + 1) * C = r * C + C := by ring
          omega)]
        exact s4 r c (by omega) hc)
  exact hl

theorem C95_fill_sparse [DecidableEq α] (zero v : α) (R C : Nat) (jv : Nat → α) (jc jo : Nat → Nat) :
    Res.Ok (fillCsr zero v R C jv jc jo) (fun y => y.Is zero (constant v R C)) := by
  unfold fillCsr
  by_cases hz : v = zero
  · rw [if_pos hz]
    refine (Buf.fill_ok (Or.inr (Nat.le_refl _))).bind ?_
    rintro o ⟨g1, g2⟩
    simp only at g1 g2
    have o_eq : ∀ r, r ≤ R → CM.o ⟨CHdr.new R C, ⟨⟨0, jv⟩, ⟨0, jc⟩, o⟩⟩ r = 0 := by
      intro r hr; unfold CM.o; simp only [CHdr.new, Nat.zero_add]; rw [g2, if_pos (by omega)]
    refine ⟨_, rfl, CM.Is.ofRows rfl rfl (by simp [CHdr.new, g1]) ?_ ?_ ?_⟩
    · exact Nat.le_of_eq (o_eq _ (Nat.le_refl R))
    · exact Nat.le_of_eq (o_eq _ (Nat.le_refl R))
    · intro r hr
      simp only [constant] at hr
      rw [o_eq _ (by omega), o_eq _ (by omega)]
      exact ⟨Nat.le_refl _, fun p q h1 h2 h3 => by omega, fun p h1 h2 => by omega, fun p h1 h2 => by omega, fun c _ _ => hz⟩
  · rw [if_neg hz]
    refine (Buf.fill_ok (Or.inr (Nat.le_refl _))).bind ?_
    rintro vs ⟨v1, v2⟩
    simp only at v1 v2
    have hl := fillRows_ok R C (R * C) rfl jc jo
    refine hl.bind ?_
    rintro ⟨cs, o⟩ ⟨s1, s2, s3, s4⟩
    simp only at s1 s2 s3 s4 ⊢
    rw [Buf.write_eq (by omega)]
    have o_eq : ∀ r, r ≤ R → CM.o ⟨CHdr.new R C, ⟨vs, cs, o.put R (R * C)⟩⟩ r = r * C := by
      intro r hr; unfold CM.o; simp only [CHdr.new, Nat.zero_add, Buf.put_data]
      by_cases h : r = R
      · rw [if_pos h, h]
      · rw [if_neg h]; exact s3 r (by omega)
    refine ⟨_, rfl, CM.Is.ofRows rfl rfl (by simp [CHdr.new, s2]) ?_ ?_ ?_⟩
    · exact Nat.le_of_eq ((o_eq _ (Nat.le_refl R)).trans v1.symm)
    · exact Nat.le_of_eq ((o_eq _ (Nat.le_refl R)).trans s1.symm)
    · intro r hr
      simp only [constant] at hr ⊢
      rw [o_eq _ (by omega), o_eq _ (by omega)]
      have hle : (r + 1) * C ≤ R * C := Nat.mul_le_mul_right _ hr
      have e : (r + 1) * C = r * C + C := by ring
      have hcol : ∀ p, r * C ≤ p → p < (r + 1) * C → cs.data p = p - r * C := by
        intro p h1 h2
        have := s4 r (p - r * C) hr (by omega)
        rw [show r * C + (p - r * C) = p by omega] at this; exact this
      refine ⟨by omega, fun p q h1 h2 h3 => ?_, fun p h1 h2 => ?_, fun p h1 h2 => ?_, fun c hc hno => ?_⟩
      · rw [hcol p h1 (by omega), hcol q (by omega) h3]; omega
      · rw [hcol p h1 h2]; omega
      · rw [v2, if_pos (by omega)]
      · exact absurd (hcol (r * C + c) (by omega) (by omega)) (by
          have := hno (r * C + c) (by omega) (by omega)
          rw [show r * C + c - r * C = c by omega]; exact this)

/-- **C96.** An integer sequence: `start`, `start + inc`, ... up to and including the last value that is not beyond `end`;
no value if `end` lies on the other side; increment 0 is rejected. -/
theorem C96_seq (start fin inc : Int) (junk : Nat → Int) :
    (inc = 0 → Res.Throws (seqInt start fin inc junk)) ∧
    (inc ≠ 0 → ∃ n : Nat, Res.Ok (seqInt start fin inc junk) (fun y => y.Is ⟨n, 1, fun r _ => start + r * inc⟩) ∧
      (∀ i : Nat, i < n ↔ (if 0 < inc then start + i * inc ≤ fin else fin ≤ start + i * inc))) := by
  refine ⟨fun h => ?_, fun h0 => ?_⟩
  · unfold seqInt; rw [if_pos h]; exact ⟨_, rfl⟩
  · unfold seqInt
    rw [if_neg h0]
    by_cases hd : (start < fin ∧ inc < 0) ∨ (fin < start ∧ 0 < inc)
    · rw [if_pos hd]
      refine ⟨0, ⟨_, rfl, is_new rfl fun r c h => by omega⟩, fun i => ?_⟩
      have hi : (0 : Int) ≤ i := Int.natCast_nonneg i
      rcases hd with ⟨d1, d2⟩ | ⟨d1, d2⟩
      · rw [if_neg (by omega)]
        have : (i : Int) * inc ≤ 0 := Int.mul_nonpos_of_nonneg_of_nonpos hi (by omega)
        constructor
        · intro h; omega
        · intro h; omega
      · rw [if_pos d2]
        have : 0 ≤ (i : Int) * inc := Int.mul_nonneg hi (by omega)
        constructor
        · intro h; omega
        · intro h; omega
    · rw [if_neg hd]
      simp only
      generalize hn : (fin - start).natAbs / inc.natAbs + 1 = n
      have hpos : 0 < inc.natAbs := by omega
      have char : ∀ i : Nat, i < n ↔ (if 0 < inc then start + i * inc ≤ fin else fin ≤ start + i * inc) := by
        intro i
        rw [← hn, Nat.lt_succ_iff, Nat.le_div_iff_mul_le hpos]
        by_cases hp : 0 < inc
        · rw [if_pos hp]
          have hge : start ≤ fin := by
            by_cases h : start ≤ fin
            · exact h
            · exact absurd (Or.inr ⟨by omega, hp⟩) hd
          have e1 : ((fin - start).natAbs : Int) = fin - start := by omega
          have e2 : (inc.natAbs : Int) = inc := by omega
          have : i * inc.natAbs ≤ (fin - start).natAbs ↔ (i : Int) * inc ≤ fin - start := by
            rw [← e1]; conv_rhs => rw [← e2]
            exact_mod_cast Iff.rfl
          rw [this]; omega
        · rw [if_neg hp]
          have hge : fin ≤ start := by
            by_cases h : fin ≤ start
            · exact h
            · exact absurd (Or.inl ⟨by omega, by omega⟩) hd
          have e1 : ((fin - start).natAbs : Int) = start - fin := by omega
          have e2 : (inc.natAbs : Int) = -inc := by omega
          have : i * inc.natAbs ≤ (fin - start).natAbs ↔ (i : Int) * (-inc) ≤ start - fin := by
            rw [← e1]; conv_rhs => rw [← e2]
            exact_mod_cast Iff.rfl
          rw [this, Int.mul_neg]; omega
      refine ⟨n, ?_, char⟩
      have hl := forLoop_ok (fun i (s : Buf Int × Int) => s.1.size = n * 1 ∧ s.2 = start + i * inc ∧
          ∀ r : Nat, r < i → s.1.data r = start + r * inc)
        0 n ((DM.create n 1 junk).mem, start) (body := fun i s => do
          let m ← s.1.write ((DM.create n 1 junk).h.start + i) s.2
          .ok (m, s.2 + inc)) (Nat.zero_le _) ⟨rfl, by simp, fun r h => by omega⟩ (by
        rintro i ⟨m, acc⟩ - hi ⟨g1, g2, g3⟩
        simp only at g1 g2 g3 ⊢
        rw [create_start, Nat.zero_add, Buf.write_eq (by omega)]
        refine Res.ok_iff.2 ⟨g1, ?_, fun r hr => ?_⟩
        · rw [g2]; push_cast; ring
        · simp only [Buf.put_data]
          by_cases e : r = i
          · rw [if_pos e, e, g2]
          · rw [if_neg e]; exact g3 r (by omega))
      refine hl.bind ?_
      rintro ⟨m, acc⟩ ⟨g1, g2, g3⟩
      simp only at g1 g2 g3 ⊢
      have hn1 : 1 ≤ n := hn ▸ Nat.succ_le_succ (Nat.zero_le _)
      rw [create_start, Nat.zero_add, Buf.read_eq (by omega)]
      simp only [Res.ok_bind]
      rw [g3 (n - 1) (by omega)]
      have hlast := (char (n - 1)).1 (by omega)
      rw [if_neg (by
        rintro ⟨k1, k2⟩
        by_cases hp : 0 < inc
        · exact hd (Or.inr ⟨k1, hp⟩)
        · rw [if_neg hp] at hlast; omega), if_neg (by
        rintro ⟨k1, k2⟩
        by_cases hp : 0 < inc
        · rw [if_pos hp] at hlast; omega
        · exact hd (Or.inl ⟨k1, by omega⟩))]
      refine ⟨_, rfl, is_new g1 fun r c hr hc => ?_⟩
      have : c = 0 := by omega
      subst this
      rw [Nat.mul_one, Nat.add_zero]; exact g3 r hr

/-! ### Cell-wise kernels -/

/-- **C97.** `outerBinary` of a column and a row applies the operation to every pair; other shapes are rejected. -/
theorem C97_outerBinary (f : α → β → γ) (x : DM α) (y : DM β) (a : Mat α) (b : Mat β) (hx : x.Is a) (hy : y.Is b) (junk : Nat → γ) :
    (a.cols = 1 ∧ b.rows = 1 → Res.Ok (outerBinary f x y junk) (fun z => z.Is (outer f a b))) ∧
    (¬ (a.cols = 1 ∧ b.rows = 1) → Res.Throws (outerBinary f x y junk)) := by
  have e1 : x.numRows = a.rows := hx.rows
  have e2 : x.numCols = a.cols := hx.cols
  have f1 : y.numRows = b.rows := hy.rows
  have f2 : y.numCols = b.cols := hy.cols
  unfold outerBinary
  rw [e1, e2, f1, f2]
  constructor
  · rintro ⟨h1, h2⟩
    rw [if_neg (by simpa using h1), if_neg (by simpa using h2)]
    refine (fill_cells (rows := a.rows) (cols := b.cols) (m := (DM.create a.rows b.cols junk).mem) rfl (outer f a b).cell _ ?_).bind ?_
    · intro r c m hr hc hm
      have hry := hy.read (r := 0) (c := c) (by omega) hc
      have ea : y.addr 0 c = y.h.start + c := by unfold DM.addr; omega
      rw [ea] at hry
      rw [hx.read hr (by omega), hry]
      simp only [Res.ok_bind]
      rw [create_addr, Buf.write_eq (by rw [hm]; exact rm_lt hr hc (Nat.le_refl _))]; rfl
    · rintro m ⟨g1, g2⟩
      exact ⟨_, rfl, is_new g1 g2⟩
  · intro hn
    by_cases h1 : a.cols = 1
    · rw [if_neg (by simpa using h1), if_pos (by omega)]; exact ⟨_, rfl⟩
    · rw [if_pos h1]; exact ⟨_, rfl⟩

/-- What an operand shows. -/
def Opd.Shows (o : Opd α) (R C : Nat) (f : Nat → Nat → α) : Prop :=
  match o with
  | .mat x => ∃ a : Mat α, x.Is a ∧ a.rows = R ∧ a.cols = C ∧ ∀ r c, f r c = a.cell r c
  | .sca v => ∀ r c, f r c = v

/-- A matrix operand of another shape. -/
def Opd.WrongShape (o : Opd α) (R C : Nat) : Prop :=
  match o with
  | .mat x => ¬ (x.numRows = R ∧ x.numCols = C)
  | .sca _ => False

theorem Opd.bad_iff (o : Opd α) (R C : Nat) : o.bad R C = true ↔ o.WrongShape R C := by
  cases o with
  | mat x => simp only [Opd.bad, Opd.WrongShape, Bool.or_eq_true, decide_eq_true_eq]; omega
  | sca v => simp [Opd.bad, Opd.WrongShape]

/-- **C98.** `cond ? then : else` with a matrix condition chooses per cell, for matrix and scalar operands (and views);
a matrix operand of another shape is rejected. -/
theorem C98_cond (isTrue : β → Bool) (k : DM β) (a : Mat β) (hk : k.Is a) (t e : Opd α) (junk : Nat → α) :
    (∀ ft fe, t.Shows a.rows a.cols ft → e.Shows a.rows a.cols fe →
      Res.Ok (cond isTrue k t e junk) (fun y => y.Is (choose isTrue a ft fe))) ∧
    (t.WrongShape a.rows a.cols ∨ e.WrongShape a.rows a.cols → Res.Throws (cond isTrue k t e junk)) := by
  have e1 : k.numRows = a.rows := hk.rows
  have e2 : k.numCols = a.cols := hk.cols
  unfold cond
  rw [e1, e2]
  constructor
  · intro ft fe ht he
    have good : ∀ (o : Opd α) f, o.Shows a.rows a.cols f → o.bad a.rows a.cols = false ∧
        ∀ r c, r < a.rows → c < a.cols → o.val r c = .ok (f r c) := by
      intro o f ho
      cases o with
      | mat x =>
        obtain ⟨b, hb, b1, b2, b3⟩ := ho
        refine ⟨?_, fun r c hr hc => ?_⟩
        · have := hb.rows; have := hb.cols
          simp [Opd.bad, DM.numRows, DM.numCols, *]
        · show x.mem.read _ = _
          rw [hb.read (by omega) (by omega), b3]
      | sca v =>
        exact ⟨rfl, fun r c _ _ => by show Except.ok v = _; rw [ho r c]⟩
    obtain ⟨t1, t2⟩ := good t ft ht
    obtain ⟨u1, u2⟩ := good e fe he
    rw [t1, u1]
    simp only [Bool.or_self, Bool.false_eq_true, if_false]
    refine (fill_cells (rows := a.rows) (cols := a.cols) (m := (DM.create a.rows a.cols junk).mem) rfl (choose isTrue a ft fe).cell _ ?_).bind ?_
    · intro r c m hr hc hm
      rw [hk.read hr hc]
      simp only [Res.ok_bind, t2 r c hr hc, u2 r c hr hc]
      have : (if isTrue (a.cell r c) = true then (Except.ok (ft r c) : Res α) else .ok (fe r c)) = .ok ((choose isTrue a ft fe).cell r c) := by
        unfold choose; simp only; split <;> rfl
      rw [this]
      simp only [Res.ok_bind]
      rw [create_addr, Buf.write_eq (by rw [hm]; exact rm_lt hr hc (Nat.le_refl _))]
    · rintro m ⟨g1, g2⟩
      exact ⟨_, rfl, is_new g1 g2⟩
  · intro h
    rw [if_pos (by rw [Bool.or_eq_true, Opd.bad_iff, Opd.bad_iff]; exact h)]
    exact ⟨_, rfl⟩

theorem replaceLoop_ok (x : DM α) (a : Mat α) (hx : x.Is a) (hit : α → Bool) (w : α) (junk : Nat → α) :
    Res.Ok (replaceLoop x hit w junk) (fun y => y.Is ⟨a.rows, a.cols, fun r c => if hit (a.cell r c) then w else a.cell r c⟩) := by
  have e1 : x.numRows = a.rows := hx.rows
  have e2 : x.numCols = a.cols := hx.cols
  unfold replaceLoop
  rw [e1, e2]
  refine (fill_cells (rows := a.rows) (cols := a.cols) (m := (DM.create a.rows a.cols junk).mem) rfl
    (fun r c => if hit (a.cell r c) then w else a.cell r c) _ ?_).bind ?_
  · intro r c m hr hc hm
    rw [hx.read hr hc]
    simp only [Res.ok_bind]
    rw [create_addr, Buf.write_eq (by rw [hm]; exact rm_lt hr hc (Nat.le_refl _))]
  · rintro m ⟨g1, g2⟩
    exact ⟨_, rfl, is_new g1 g2⟩

/-- Which cells the comparison of the kernel selects. -/
theorem hit_iff [DecidableEq α] {eqv : α → α → Bool} (he : CppEq eqv) (p v : α) :
    (if !(eqv p p) then !(eqv v v) else eqv v p) = decide (v = p) := by
  cases hp : eqv p p with
  | false =>
    cases hv : eqv v v with
    | false => simp [he.nan v p hv hp]
    | true =>
      have : v ≠ p := by rintro rfl; rw [hp] at hv; cases hv
      simp [this]
  | true =>
    by_cases h : v = p
    · subst h; simp [hp]
    · have : eqv v p = false := by
        cases hq : eqv v p with
        | false => rfl
        | true => exact absurd (he.same _ _ hq) h
      simp [this, h]

/-- The pattern and the replacement are considered equal. -/
theorem noop_iff {eqv : α → α → Bool} (he : CppEq eqv) (p w : α) :
    ((!(eqv w w) && !(eqv p p)) || eqv p w) = true → p = w := by
  intro h
  simp only [Bool.or_eq_true, Bool.and_eq_true, Bool.not_eq_true'] at h
  rcases h with ⟨h1, h2⟩ | h
  · exact he.nan _ _ h2 h1
  · exact he.same _ _ h

/-- **C99.** `replace` on a dense matrix or view with at least one cell replaces exactly the cells equal to the pattern (NaN
counts as equal to NaN). -/
theorem C99_replace [DecidableEq α] (eqv : α → α → Bool) (he : CppEq eqv) (x : DM α) (a : Mat α) (hx : x.Is a) (pattern replacement : α)
    (junk : Nat → α) (hne : 0 < a.rows ∧ 0 < a.cols) :
    Res.Ok (replaceDense eqv x pattern replacement junk) (fun y => ∃ z, y = some z ∧ z.Is (replaced a pattern replacement)) := by
  have e1 : x.numRows = a.rows := hx.rows
  have e2 : x.numCols = a.cols := hx.cols
  unfold replaceDense
  rw [e1, e2, if_neg (by have := Nat.mul_pos hne.1 hne.2; omega)]
  by_cases hno : ((!(eqv replacement replacement) && !(eqv pattern pattern)) || eqv pattern replacement) = true
  · rw [if_pos hno]
    refine (replaceLoop_ok x a hx _ replacement junk).bind fun y hy => ⟨_, rfl, y, rfl, hy.congr ⟨rfl, rfl, fun r c _ _ => ?_⟩⟩
    have := noop_iff he _ _ hno
    simp only [replaced, Bool.false_eq_true, if_false]
    split
    · rename_i h; rw [h, this]
    · rfl
  · rw [if_neg hno]
    by_cases hp : (!(eqv pattern pattern)) = true
    · rw [if_pos hp]
      refine (replaceLoop_ok x a hx _ replacement junk).bind fun y hy => ⟨_, rfl, y, rfl, hy.congr ⟨rfl, rfl, fun r c _ _ => ?_⟩⟩
      have := hit_iff he pattern (a.cell r c)
      rw [if_pos hp] at this
      simp only [replaced, this, decide_eq_true_eq]
    · rw [if_neg hp]
      refine (replaceLoop_ok x a hx _ replacement junk).bind fun y hy => ⟨_, rfl, y, rfl, hy.congr ⟨rfl, rfl, fun r c _ _ => ?_⟩⟩
      have := hit_iff he pattern (a.cell r c)
      rw [if_neg hp] at this
      simp only [replaced, this, decide_eq_true_eq]

/-- The copies: for a matrix whose first row starts at position 0 of the arrays, the copied object shows the same matrix, its
offsets are those of the argument. -/
theorem replaceCopy_ok {zero : α} {x : CM α} {a : Mat α} (hx : x.Is zero a) (h0 : x.o 0 = 0) (jv : Nat → α) (jc jo : Nat → Nat) :
    Res.Ok (replaceCopy x (x.o x.h.numRows) jv jc jo) (fun y => y.Is zero a ∧ y.h.numRows = x.h.numRows ∧
      (∀ r, r ≤ x.h.numRows → y.o r = x.o r) ∧ (∀ p, p < x.o x.h.numRows → y.mem.vals.data p = x.mem.vals.data p) ∧
      y.mem.vals.size = x.o x.h.numRows) := by
  unfold replaceCopy
  have w := hx.wf
  refine (Buf.copy_ok (Or.inr (by have := w.offsIn; omega)) (Or.inr (by simp))).bind ?_
  rintro o ⟨o1, o2⟩
  refine (Buf.copy_ok (Or.inr (by have := w.topC; omega)) (Or.inr (by simp))).bind ?_
  rintro c ⟨c1, c2⟩
  refine (Buf.copy_ok (Or.inr (by have := w.topV; omega)) (Or.inr (by simp))).bind ?_
  rintro v ⟨v1, v2⟩
  simp only [Nat.zero_add, Nat.sub_zero, Nat.zero_le, true_and] at o1 o2 c1 c2 v1 v2
  have hoff : ∀ r, r ≤ x.h.numRows → CM.o ⟨CHdr.new x.h.numRows x.h.numCols, ⟨v, c, o⟩⟩ r = x.o r := by
    intro r hr
    unfold CM.o
    simp only [CHdr.new, Nat.zero_add]
    rw [o2, if_pos (by omega)]
  have hvd : ∀ p, p < x.o x.h.numRows → v.data p = x.mem.vals.data p := fun p hp => by rw [v2, if_pos hp]
  have hcd : ∀ p, p < x.o x.h.numRows → c.data p = x.mem.cols.data p := fun p hp => by rw [c2, if_pos hp]
  refine ⟨_, rfl, CM.Is.ofRows hx.rows hx.cols (by simp [CHdr.new, o1]) ?_ ?_ ?_, rfl, hoff, hvd, v1⟩
  · exact Nat.le_of_eq ((hoff _ (Nat.le_refl _)).trans v1.symm)
  · exact Nat.le_of_eq ((hoff _ (Nat.le_refl _)).trans c1.symm)
  · intro r hr
    have hr' : r < x.h.numRows := by rw [hx.rows]; exact hr
    rw [hoff r (by omega), hoff (r + 1) (by omega)]
    have hm := w.mono' (r := r + 1) (r' := x.h.numRows) hr' (Nat.le_refl _)
    have hle := w.mono r hr'
    exact (hx.row hr).shift (by omega) (fun k hk => hcd _ (by omega)) (fun k hk => hvd _ (by omega))

/-- **C99 (sparse).** `replace` on a sparse matrix that has a non-zero entry and whose rows start at the beginning of its arrays
(a matrix that is not a row view, or a view of its first rows) replaces exactly the cells equal to the pattern; the pattern 0 is
rejected. -/
theorem C99_replace_sparse [DecidableEq α] (eqv : α → α → Bool) (he : CppEq eqv) (zero : α) (hz : eqv zero zero = true) (x : CM α) (a : Mat α)
    (hx : x.Is zero a) (pattern replacement : α) (jv : Nat → α) (jc jo : Nat → Nat) :
    (pattern ≠ zero → x.o 0 = 0 → 0 < x.o a.rows →
      Res.Ok (replaceCsr eqv zero x pattern replacement jv jc jo)
        (fun y => ∃ z, y = some z ∧ z.Is zero (replaced a pattern replacement))) ∧
    (pattern = zero → Res.Throws (replaceCsr eqv zero x pattern replacement jv jc jo)) := by
  constructor
  · intro hp h0 hn
    rw [← hx.rows] at hn
    have w := hx.wf
    unfold replaceCsr
    rw [if_neg (by intro h; exact hp (he.same _ _ h))]
    have hnnz : x.h.numNonZeros x.mem = .ok (x.o x.h.numRows) := by
      unfold CHdr.numNonZeros
      rw [w.off (Nat.le_refl _), w.off (Nat.zero_le _)]
      simp only [Res.ok_bind, h0, Nat.sub_zero]
    rw [hnnz]
    simp only [Res.ok_bind]
    rw [if_neg (by omega)]
    by_cases hno : ((!(eqv replacement replacement) && !(eqv pattern pattern)) || eqv pattern replacement) = true
    · rw [if_pos hno]
      refine (replaceCopy_ok hx h0 jv jc jo).bind ?_
      rintro y ⟨y1, -⟩
      refine ⟨_, rfl, y, rfl, y1.congr ⟨rfl, rfl, fun r c _ _ => ?_⟩⟩
      have := noop_iff he _ _ hno
      simp only [replaced]
      split
      · rename_i h; rw [h, this]
      · rfl
    · rw [if_neg hno]
      have hh : (if !(eqv pattern pattern) then fun v => !(eqv v v) else fun v => eqv v pattern) = fun v => decide (v = pattern) := by
        funext v
        rw [← hit_iff he pattern v]
        split <;> rfl
      rw [hh]
      refine (replaceCopy_ok hx h0 jv jc jo).bind ?_
      rintro y ⟨y1, y2, y3, y4, y5⟩
      have hl : Res.Ok (replaceVals x (fun v => decide (v = pattern)) replacement y.h y.mem) (fun m => m.offs = y.mem.offs ∧ m.cols = y.mem.cols ∧
          m.vals.size = y.mem.vals.size ∧ ∀ p, p < x.o x.h.numRows →
            m.vals.data p = if x.mem.vals.data p = pattern then replacement else x.mem.vals.data p) := by
        unfold replaceVals
        have hl := forLoop_ok (fun i (m : CMem α) => m.offs = y.mem.offs ∧ m.cols = y.mem.cols ∧
            m.vals.size = y.mem.vals.size ∧ (∀ p, p < x.o i →
              m.vals.data p = if x.mem.vals.data p = pattern then replacement else x.mem.vals.data p) ∧
            ∀ p, x.o i ≤ p → p < x.o x.h.numRows → m.vals.data p = x.mem.vals.data p)
          0 x.h.numRows y.mem (body := fun r m => do
            let p ← x.h.rowPtr x.mem r
            let q ← y.h.rowPtr m r
            let n ← x.h.rowNumNonZeros x.mem r
            let vs ← forLoop 0 n m.vals fun c vs => do
              let v ← x.mem.vals.read (p + c)
              if decide (v = pattern) then vs.write (q + c) replacement else .ok vs
            .ok { m with vals := vs }) (Nat.zero_le _)
          ⟨rfl, rfl, rfl, fun p h => by rw [h0] at h; omega, fun p _ h => y4 p h⟩ (by
          rintro i m - hi ⟨m1, m2, m3, m4, m5⟩
          have hm1 := w.mono i hi
          have hm2 := w.mono' (r := i + 1) (r' := x.h.numRows) hi (Nat.le_refl _)
          have htv := w.topV
          have hq : y.h.rowPtr m i = .ok (x.o i) := by
            have : y.h.rowPtr m i = y.h.rowPtr y.mem i := by unfold CHdr.rowPtr CHdr.off; rw [m1]
            rw [this, y1.wf.rowPtr (by omega), y3 i (by omega)]
          have hc : x.h.rowNumNonZeros x.mem i = .ok (x.o (i + 1) - x.o i) := by
            unfold CHdr.rowNumNonZeros
            rw [if_neg (by omega), w.off (by omega), w.off (by omega)]; rfl
          rw [w.rowPtr (by omega), hq, hc]
          simp only [Res.ok_bind]
          have hin := forLoop_ok (fun j (vs : Buf α) => vs.size = m.vals.size ∧ ∀ p,
              vs.data p = if x.o i ≤ p ∧ p < x.o i + j ∧ x.mem.vals.data p = pattern then replacement else m.vals.data p)
            0 (x.o (i + 1) - x.o i) m.vals (body := fun c vs => do
              let v ← x.mem.vals.read (x.o i + c)
              if decide (v = pattern) then vs.write (x.o i + c) replacement else .ok vs) (Nat.zero_le _)
            ⟨rfl, fun p => by rw [if_neg (by omega)]⟩ (by
            rintro j vs - hj ⟨g1, g2⟩
            rw [Buf.read_eq (by omega)]
            simp only [Res.ok_bind, decide_eq_true_eq]
            by_cases hv : x.mem.vals.data (x.o i + j) = pattern
            · rw [if_pos hv, Buf.write_eq (by rw [g1, m3, y5]; omega)]
              refine Res.ok_iff.2 ⟨g1, fun p => ?_⟩
              rw [Buf.put_data, g2]
              by_cases e : p = x.o i + j
              · rw [if_pos e, if_pos ⟨by omega, by omega, by rw [e]; exact hv⟩]
              · rw [if_neg e]
                by_cases h : x.o i ≤ p ∧ p < x.o i + j ∧ x.mem.vals.data p = pattern
                · rw [if_pos h, if_pos ⟨h.1, by omega, h.2.2⟩]
                · rw [if_neg h, if_neg (by rintro ⟨k1, k2, k3⟩; exact h ⟨k1, by omega, k3⟩)]
            · rw [if_neg hv]
              refine Res.ok_iff.2 ⟨g1, fun p => ?_⟩
              rw [g2]
              by_cases h : x.o i ≤ p ∧ p < x.o i + j ∧ x.mem.vals.data p = pattern
              · rw [if_pos h, if_pos ⟨h.1, by omega, h.2.2⟩]
              · rw [if_neg h, if_neg (by
                  rintro ⟨k1, k2, k3⟩
                  by_cases e : p = x.o i + j
                  · rw [e] at k3; exact hv k3
                  · exact h ⟨k1, by omega, k3⟩)])
          refine hin.bind ?_
          rintro vs ⟨g1, g2⟩
          refine Res.ok_iff.2 ⟨m1, m2, g1.trans m3, fun p hpp => ?_, fun p h1 h2 => ?_⟩
          · simp only
            rw [g2]
            by_cases h : p < x.o i
            · rw [if_neg (by omega), m4 p h]
            · rw [m5 p (by omega) (by omega)]
              by_cases hv : x.mem.vals.data p = pattern
              · rw [if_pos ⟨by omega, by omega, hv⟩, if_pos hv]
              · rw [if_neg (by rintro ⟨-, -, h3⟩; exact hv h3), if_neg hv]
          · simp only
            rw [g2, if_neg (by omega), m5 p (by omega) h2])
        refine hl.mono ?_
        rintro m ⟨m1, m2, m3, m4, -⟩
        exact ⟨m1, m2, m3, m4⟩
      refine hl.bind ?_
      rintro m ⟨m1, m2, m3, m4⟩
      refine ⟨_, rfl, _, rfl, ?_⟩
      have hoff : ∀ r, CM.o ⟨y.h, m⟩ r = y.o r := by intro r; unfold CM.o; simp only [m1]
      refine CM.Is.ofRows y1.rows y1.cols (by simp only [m1]; exact y1.wf.offsIn) ?_ ?_ ?_
      · rw [hoff]; simp only [m3]; exact y1.wf.topV
      · rw [hoff]; simp only [m2]; exact y1.wf.topC
      · intro r hr
        simp only [replaced] at hr
        have hr' : r < x.h.numRows := by rw [hx.rows]; exact hr
        have hm1 := w.mono r hr'
        have hm2 := w.mono' (r := r + 1) (r' := x.h.numRows) hr' (Nat.le_refl _)
        have R := y1.row hr
        rw [hoff, hoff]
        rw [y3 r (by omega), y3 (r + 1) (by omega)] at R ⊢
        simp only [m2]
        refine ⟨R.le, R.sorted, R.bound, fun p h1 h2 => ?_, fun c hc hno => ?_⟩
        · have := R.entry p h1 h2
          rw [y4 p (by omega)] at this
          show (if a.cell r (y.mem.cols.data p) = pattern then replacement else a.cell r (y.mem.cols.data p)) = m.vals.data p
          rw [this, m4 p (by omega)]
        · have := R.rest c hc hno
          show (if a.cell r c = pattern then replacement else a.cell r c) = zero
          rw [this, if_neg (fun h => hp h.symm)]
  · rintro rfl
    unfold replaceCsr
    rw [if_pos hz]
    exact ⟨_, rfl⟩

/-- **C100 (refuted).** `replace` on a matrix without cells (dense) or without non-zero values (sparse) returns no matrix at all:
the result pointer is left null. -/
theorem C100_replace_nothing_partial (eqv : α → α → Bool) (zero : α) (pattern replacement : α) (hp : eqv pattern zero = false) :
    (∀ (x : DM α) (a : Mat α) (junk : Nat → α), x.Is a → a.rows * a.cols = 0 → replaceDense eqv x pattern replacement junk = .ok none) ∧
    (∀ (x : CM α) (a : Mat α) (jv : Nat → α) (jc jo : Nat → Nat), x.Is zero a → x.o a.rows = x.o 0 →
      replaceCsr eqv zero x pattern replacement jv jc jo = .ok none) := by
  refine ⟨fun x a junk hx h => ?_, fun x a jv jc jo hx h => ?_⟩
  · have e1 : x.numRows = a.rows := hx.rows
    have e2 : x.numCols = a.cols := hx.cols
    unfold replaceDense
    rw [e1, e2, if_pos h]
  · have w := hx.wf
    rw [← hx.rows] at h
    unfold replaceCsr CHdr.numNonZeros
    rw [if_neg (by simp [hp]), w.off (Nat.le_refl _), w.off (Nat.zero_le _)]
    simp only [Res.ok_bind, h, Nat.sub_self]
    rfl

/-- **C101 (refuted).** `replace` on the sparse row view `X[1:3, ]` of a column with values 5, 6, 7 (showing 6, 7), pattern 9:
the offsets of the result point behind its arrays, and reading the second row of the result is out of bounds. -/
theorem C101_replace_row_view_partial :
    ∃ (v : CHdr) (z : CM Nat), exCol.h.sliceRow 1 3 = .ok v ∧ CM.Is 0 ⟨v, exCol.mem⟩ ⟨2, 1, fun r _ => r + 6⟩ ∧
      replaceCsr (fun a b => decide (a = b)) 0 ⟨v, exCol.mem⟩ 9 0 (fun _ => 0) (fun _ => 0) (fun _ => 0) = .ok (some z) ∧
      Res.IsUB (z.h.get 0 z.mem 1 0) := by
  obtain ⟨v, hv, is1, -⟩ := (exCol_is.sliceRow (rl := 1) (ru := 3)).1 (by decide) (by decide)
  have hv' : v = ⟨2, 1, 2, true, 1, 0⟩ := by
    have : exCol.h.sliceRow 1 3 = .ok ⟨2, 1, 2, true, 1, 0⟩ := rfl
    rw [this] at hv; injection hv with hv; exact hv.symm
  subst hv'
  refine ⟨_, _, hv, is1.congr ⟨rfl, rfl, fun r c _ _ => by simp only [Mat.window]; omega⟩, rfl, _, rfl⟩

/-! ### The hypotheses are met -/

/-- Integers, 3 × 4 matrix 0..11: replacing 6 by 100. -/
example : ∃ z, replaceDense (fun a b => decide (a = b)) exM 6 100 (fun _ => 0) = .ok (some z) ∧ z.get 1 2 = .ok 100 ∧ z.get 1 1 = .ok 5 := by
  obtain ⟨y, h1, z, h2, h3⟩ := C99_replace (fun a b => decide (a = b)) ⟨fun a b h => of_decide_eq_true h, fun a b h _ => by simp at h⟩ exM _
    exM_is 6 100 (fun _ => 0) ⟨by decide, by decide⟩
  exact ⟨z, by rw [h1, h2], h3.2.2.2 1 2 (by decide) (by decide), h3.2.2.2 1 1 (by decide) (by decide)⟩

/-- The same on the sparse column 5, 6, 7. -/
example : ∃ z, replaceCsr (fun a b => decide (a = b)) 0 exCol 6 100 (fun _ => 0) (fun _ => 0) (fun _ => 0) = .ok (some z) ∧
    z.h.get 0 z.mem 1 0 = .ok 100 := by
  obtain ⟨y, h1, z, h2, h3⟩ := (C99_replace_sparse (fun a b => decide (a = b)) ⟨fun a b h => of_decide_eq_true h, fun a b h _ => by simp at h⟩ 0
    (by decide) exCol _ exCol_is 6 100 (fun _ => 0) (fun _ => 0) (fun _ => 0)).1 (by decide) (by decide) (by decide)
  exact ⟨z, by rw [h1, h2], h3.get (by decide) (by decide)⟩

/-- A comparison with a NaN (`none`) meets `CppEq`. -/
example : CppEq (fun a b : Option Nat => decide (a = b) && a.isSome) :=
  ⟨fun a b h => by simp at h; exact h.1, fun a b h1 h2 => by cases a <;> cases b <;> simp_all⟩

/-- `seq(10, 1, -4)` has three values. -/
example : ∃ y, seqInt 10 1 (-4) (fun _ => 0) = .ok y ∧ y.numRows = 3 := ⟨_, rfl, rfl⟩

/-- `cond` with a matrix and a scalar. -/
example : ∃ y, cond (fun v => decide (v % 2 = 1)) exM (.mat exM) (.sca 7) (fun _ => 0) = .ok y ∧ y.get 1 1 = .ok 5 ∧ y.get 1 2 = .ok 7 := by
  obtain ⟨y, h1, h2⟩ := (C98_cond (fun v => decide (v % 2 = 1)) exM _ exM_is (.mat exM) (.sca 7) (fun _ => 0)).1 _ _
    ⟨_, exM_is, rfl, rfl, fun r c => rfl⟩ (fun r c => rfl)
  exact ⟨y, h1, h2.2.2.2 1 1 (by decide) (by decide), h2.2.2.2 1 2 (by decide) (by decide)⟩

/-- `fill(7, 2, 3)` and a 2 × 2 sparse one. -/
example : (∃ y, fillDense 7 2 3 (fun _ => 0) = .ok y ∧ y.get 1 2 = .ok 7) ∧
    ∃ y, fillCsr 0 7 2 2 (fun _ => 0) (fun _ => 0) (fun _ => 0) = .ok y ∧ y.h.get 0 y.mem 1 1 = .ok 7 := by
  obtain ⟨y, h1, h2⟩ := C95_fill 7 2 3 (fun _ => 0)
  obtain ⟨z, h3, h4⟩ := C95_fill_sparse 0 7 2 2 (fun _ => 0) (fun _ => 0) (fun _ => 0)
  exact ⟨⟨y, h1, h2.2.2.2 1 2 (by decide) (by decide)⟩, z, h3, h4.get (by decide) (by decide)⟩

/-- The sums of the column 0, 1 and the row 0, 1, 2. -/
example : ∃ z, outerBinary (fun a b => a + b) (DM.create 2 1 fun i => i) (DM.create 1 3 fun i => i) (fun _ => 0) = .ok z ∧ z.get 1 2 = .ok 3 := by
  have h1 : (DM.create 2 1 fun i => i).Is ⟨2, 1, fun r _ => r⟩ := is_new rfl fun r c hr hc => by simp only [DM.create]; omega
  have h2 : (DM.create 1 3 fun i => i).Is ⟨1, 3, fun _ c => c⟩ := is_new rfl fun r c hr hc => by simp only [DM.create]; omega
  obtain ⟨z, h3, h4⟩ := (C97_outerBinary (fun a b => a + b) _ _ _ _ h1 h2 (fun _ => 0)).1 ⟨rfl, rfl⟩
  exact ⟨z, h3, h4.2.2.2 1 2 (by decide) (by decide)⟩

end Verif.Shape
