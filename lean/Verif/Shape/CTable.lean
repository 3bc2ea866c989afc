/-
  Model of src/runtime/local/kernels/{CTable,ConvertPosListToBitmap,ConvertBitmapToPosList}.h and properties C106-C110.

  Simplifications: `res == nullptr` on entry; coordinates and positions are integers (`static_cast` from floating point is not
  modelled); the addition of the weights is an arbitrary operation; a negative `ssize_t` offset from the start of an array is out
  of bounds.
-/
import Verif.Shape.Cast
import Verif.Csr.Set

namespace Verif.Shape
open Verif Verif.Dense Verif.Csr
variable {α : Type}

/-! ### Specification -/

/-- Contingency table of two columns `a`, `b` with `n` values: cell `(i, j)` is the weight added once per position `k` with
`a k = i` and `b k = j`. -/
def contingency (zero : α) (add : α → α → α) (w : α) (n : Nat) (a b : Nat → Int) (R C : Nat) : Mat α :=
  ⟨R, C, fun i j => (fun v => add v w)^[(List.range n).countP fun k => decide (a k = i ∧ b k = j)] zero⟩

/-- `D` is the requested number of rows (columns), or one more than the greatest of the `n` values if the request is negative. -/
def Extent (request : Int) (n : Nat) (v : Nat → Int) (D : Nat) : Prop :=
  (0 ≤ request → (D : Int) = request) ∧
  (request < 0 → (∃ k, k < n ∧ v k + 1 = D) ∧ ∀ k, k < n → v k < D)

/-- `get` shows exactly the matrix `a` (also for an object whose number of rows was reduced). -/
def Shows (x : DM α) (a : Mat α) : Prop :=
  x.numRows = a.rows ∧ x.numCols = a.cols ∧ ∀ r c, r < a.rows → c < a.cols → x.get r c = .ok (a.cell r c)

/-- The column with the given values. -/
def column (l : List α) (d : α) : Mat α := ⟨l.length, 1, fun r _ => l.getD r d⟩

/-! ### Model -/

/-- `*std::max_element(m + s, m + s + n)`; for `n = 0` this dereferences the end. -/
def maxElement (m : Buf Int) (s n : Nat) : Res Int := do
  let f ← m.read s
  forLoop 1 n f fun i b => do
    let v ← m.read (s + i)
    .ok (if b < v then v else b)

/-- CTable.h:77-80 (133-136): one dimension of the result. -/
def ctableDim (x : DM Int) (request : Int) : Res Int :=
  if request < 0 then do
    let v ← maxElement x.mem x.h.start x.numRows
    .ok (v + 1)
  else .ok request

/-- CTable.h:93, 103: `resVals[r * resRowSkip + c] += weight`. -/
def ctableAdd (add : α → α → α) (w : α) (skip start : Nat) (r c : Int) (m : Buf α) : Res (Buf α) :=
  if r * skip + c < 0 then .error (.ub "negative offset")
  else do
    let v ← m.read (start + (r * skip + c).toNat)
    m.write (start + (r * skip + c).toNat) (add v w)

/-- CTable.h:58-107. The loops differ in the test of the bounds, which is done only if one of the sizes was given. -/
def ctableDense (zero : α) (add : α → α → α) (w : α) (x y : DM Int) (reqR reqC : Int) : Res (DM α) :=
  if x.numCols ≠ 1 ∨ y.numCols ≠ 1 then .error (.throw "ctable: lhs and rhs must have only one column")
  else if x.numRows ≠ y.numRows then .error (.throw "ctable: lhs and rhs must have the same number of rows")
  else do
    let R ← ctableDim x reqR
    let C ← ctableDim y reqC
    let res := DM.createZero R.toNat C.toNat zero
    let m ← forLoop 0 x.numRows res.mem fun i m => do
      let r ← x.mem.read (x.h.start + i)
      let c ← y.mem.read (y.h.start + i)
      if (reqR < 0 ∧ reqC < 0) ∨ (r < R ∧ c < C) then ctableAdd add w res.h.rowSkip res.h.start r c m else .ok m
    .ok ⟨res.h, m⟩

/-- CTable.h:147, 158: `res->set(r, c, res->get(r, c) + weight)`; a negative coordinate becomes a huge `size_t`. -/
def ctableAddCsr [DecidableEq α] (zero : α) (add : α → α → α) (w : α) (h : CHdr) (r c : Int) (m : CMem α) : Res (CMem α) :=
  if r < 0 ∨ c < 0 then .error (.throw "out of bounds")
  else do
    let v ← h.get zero m r.toNat c.toNat
    h.set zero m r.toNat c.toNat (add v w)

/-- CTable.h:114-162. -/
def ctableCsr [DecidableEq α] (zero : α) (add : α → α → α) (w : α) (x y : DM Int) (reqR reqC : Int) : Res (CM α) :=
  if x.numCols ≠ 1 ∨ y.numCols ≠ 1 then .error (.throw "ctable: lhs and rhs must have only one column")
  else if x.numRows ≠ y.numRows then .error (.throw "ctable: lhs and rhs must have the same number of rows")
  else do
    let R ← ctableDim x reqR
    let C ← ctableDim y reqC
    let res := CM.createZero R.toNat C.toNat (min x.numRows (R.toNat * C.toNat)) zero
    let m ← forLoop 0 x.numRows res.mem fun i m => do
      let r ← x.mem.read (x.h.start + i)
      let c ← y.mem.read (y.h.start + i)
      if (reqR < 0 ∧ reqC < 0) ∨ (r < R ∧ c < C) then ctableAddCsr zero add w res.h r c m else .ok m
    .ok ⟨res.h, m⟩

/-- ConvertPosListToBitmap.h:49-71. -/
def posListToBitmap (zero one : α) (x : DM Nat) (n : Nat) : Res (DM α) :=
  if x.numCols ≠ 1 then .error (.throw "the argument must have exactly one column")
  else do
    let res := DM.createZero n 1 zero
    let m ← forLoop 0 x.numRows res.mem fun r m => do
      let pos ← x.mem.read (x.addr r 0)
      if n < pos then .error (.throw "out-of-bounds access") else m.write (res.h.start + pos * res.h.rowSkip) one
    .ok ⟨res.h, m⟩

/-- ConvertBitmapToPosList.h:48-74; `s` = (result values, number of positions written). -/
def bitmapToPosList [DecidableEq α] (one : α) (x : DM α) (junk : Nat → Nat) : Res (DM Nat) :=
  if x.numCols ≠ 1 then .error (.throw "the argument must have exactly one column")
  else do
    let res := DM.create x.numRows 1 junk
    let s ← forLoop 0 x.numRows (res.mem, 0) fun r s => do
      let v ← x.mem.read (x.addr r 0)
      if v = one then do
        let m ← s.1.write (res.h.start + s.2 * res.h.rowSkip) r
        .ok (m, s.2 + 1)
      else .ok s
    let h ← res.h.shrinkNumRows s.2
    .ok ⟨h, s.1⟩

/-! ### Contingency tables -/

/-- A column whose values are adjacent in memory. -/
def AdjacentColumn (x : DM Int) (n : Nat) (v : Nat → Int) : Prop :=
  x.Is ⟨n, 1, fun r _ => v r⟩ ∧ (x.h.rowSkip = 1 ∨ n ≤ 1)

theorem AdjacentColumn.read {x : DM Int} {n : Nat} {v : Nat → Int} (h : AdjacentColumn x n v) {k : Nat} (hk : k < n) :
    x.mem.read (x.h.start + k) = .ok (v k) := by
  have := h.1.read (r := k) (c := 0) hk (by simp)
  have ea : x.addr k 0 = x.h.start + k := by
    unfold DM.addr
    rcases h.2 with e | e
    · rw [e]; omega
    · have : k = 0 := by omega
      subst this; omega
  rw [ea] at this
  exact this

theorem maxElement_ok {x : DM Int} {n : Nat} {v : Nat → Int} (h : AdjacentColumn x n v) (hn : 0 < n) :
    Res.Ok (maxElement x.mem x.h.start n) (fun b => (∃ k, k < n ∧ v k = b) ∧ ∀ k, k < n → v k ≤ b) := by
  unfold maxElement
  have := h.read hn
  rw [Nat.add_zero] at this
  rw [this]
  simp only [Res.ok_bind]
  refine forLoop_ok (fun i (b : Int) => (∃ k, k < n ∧ v k = b) ∧ ∀ k, k < i → v k ≤ b) 1 n (v 0) (by omega)
    ⟨⟨0, hn, rfl⟩, fun k hk => by rw [show k = 0 by omega]⟩ ?_
  rintro i b h1 hi ⟨g1, g2⟩
  rw [h.read hi]
  simp only [Res.ok_bind]
  refine Res.ok_iff.2 ?_
  by_cases hlt : b < v i
  · rw [if_pos hlt]
    refine ⟨⟨i, hi, rfl⟩, fun k hk => ?_⟩
    by_cases e : k = i
    · rw [e]
    · have := g2 k (by omega); omega
  · rw [if_neg hlt]
    refine ⟨g1, fun k hk => ?_⟩
    by_cases e : k = i
    · rw [e]; omega
    · exact g2 k (by omega)

theorem ctableDim_ok {x : DM Int} {n : Nat} {v : Nat → Int} (h : AdjacentColumn x n v) (hv : ∀ k, k < n → 0 ≤ v k) (request : Int)
    (hn : request < 0 → 0 < n) : ∃ D : Nat, ctableDim x request = .ok (D : Int) ∧ Extent request n v D := by
  have hr : x.numRows = n := h.1.rows
  unfold ctableDim
  by_cases hreq : request < 0
  · rw [if_pos hreq, hr]
    obtain ⟨b, h1, ⟨k, k1, k2⟩, h3⟩ := maxElement_ok h (hn hreq)
    rw [h1]
    have hb := hv k k1
    refine ⟨(b + 1).toNat, ?_, fun h => by omega, fun _ => ⟨⟨k, k1, by omega⟩, fun k hk => by have := h3 k hk; omega⟩⟩
    simp only [Res.ok_bind]
    congr 1; omega
  · rw [if_neg hreq]
    refine ⟨request.toNat, ?_, fun _ => by omega, fun h => absurd h hreq⟩
    congr 1; omega

/-- Adding the weight of one position. -/
theorem contingency_succ (zero : α) (add : α → α → α) (w : α) (n : Nat) (a b : Nat → Int) (R C i j : Nat) :
    (contingency zero add w (n + 1) a b R C).cell i j =
      if a n = i ∧ b n = j then add ((contingency zero add w n a b R C).cell i j) w else (contingency zero add w n a b R C).cell i j := by
  simp only [contingency, List.range_succ, List.countP_append, List.countP_singleton]
  by_cases h : a n = i ∧ b n = j
  · rw [if_pos h, if_pos (by simpa using h), Function.iterate_succ_apply']
  · rw [if_neg h, if_neg (by simpa using h)]; rfl

/-- **C106.** `ctable` of two columns of non-negative integers (adjacent in memory) with the same number of values returns the
contingency table; positions outside the requested size are ignored; sizes that are not requested are derived from the greatest
coordinate (of at least one). Other shapes are rejected. -/
theorem C106_ctable (zero : α) (add : α → α → α) (w : α) (x y : DM Int) (reqR reqC : Int) :
    (∀ (n : Nat) (a b : Nat → Int), AdjacentColumn x n a → AdjacentColumn y n b → (∀ k, k < n → 0 ≤ a k ∧ 0 ≤ b k) →
      (reqR < 0 ∨ reqC < 0 → 0 < n) →
      ∃ R C : Nat, Extent reqR n a R ∧ Extent reqC n b C ∧
        Res.Ok (ctableDense zero add w x y reqR reqC) (fun z => z.Is (contingency zero add w n a b R C))) ∧
    (x.numCols ≠ 1 ∨ y.numCols ≠ 1 ∨ x.numRows ≠ y.numRows → Res.Throws (ctableDense zero add w x y reqR reqC)) := by
  constructor
  · intro n a b hx hy hpos hn
    obtain ⟨R, hR, eR⟩ := ctableDim_ok hx (fun k hk => (hpos k hk).1) reqR (fun h => hn (Or.inl h))
    obtain ⟨C, hC, eC⟩ := ctableDim_ok hy (fun k hk => (hpos k hk).2) reqC (fun h => hn (Or.inr h))
    refine ⟨R, C, eR, eC, ?_⟩
    have x1 : x.numRows = n := hx.1.rows
    have x2 : x.numCols = 1 := hx.1.cols
    have y1 : y.numRows = n := hy.1.rows
    have y2 : y.numCols = 1 := hy.1.cols
    unfold ctableDense
    rw [if_neg (by omega), if_neg (by omega), hR, hC, x1]
    simp only [Res.ok_bind]
    have hs : (DM.createZero (R : Int).toNat (C : Int).toNat zero).h.rowSkip = C := by simp [DM.createZero, Hdr.new]
    rw [createZero_start, hs]
    have hl := forLoop_ok (fun i (m : Buf α) => m.size = R * C ∧ ∀ r c, r < R → c < C →
        m.data (r * C + c) = (contingency zero add w i a b R C).cell r c)
      0 n (DM.createZero (R : Int).toNat (C : Int).toNat zero).mem (body := fun i m => do
        let r ← x.mem.read (x.h.start + i)
        let c ← y.mem.read (y.h.start + i)
        if (reqR < 0 ∧ reqC < 0) ∨ (r < R ∧ c < C) then ctableAdd add w C 0 r c m else .ok m)
      (Nat.zero_le _) ⟨by simp [DM.createZero], fun r c _ _ => by simp [DM.createZero, contingency]⟩ (by
      rintro i m - hi ⟨g1, g2⟩
      obtain ⟨p1, p2⟩ := hpos i hi
      rw [hx.read hi, hy.read hi]
      simp only [Res.ok_bind]
      by_cases hin : a i < R ∧ b i < C
      · rw [if_pos (Or.inr hin)]
        obtain ⟨r, hr⟩ : ∃ r : Nat, a i = r := ⟨(a i).toNat, by omega⟩
        obtain ⟨c, hc⟩ : ∃ c : Nat, b i = c := ⟨(b i).toNat, by omega⟩
        rw [hr, hc] at hin ⊢
        have hr' : r < R := by omega
        have hc' : c < C := by omega
        have hlt := rm_lt hr' hc' (Nat.le_refl C)
        have ei : ((r : Int) * (C : Int) + (c : Int)) = ((r * C + c : Nat) : Int) := by push_cast; rfl
        unfold ctableAdd
        rw [ei, if_neg (by omega), Int.toNat_natCast, Nat.zero_add, Buf.read_eq (by omega)]
        simp only [Res.ok_bind]
        rw [Buf.write_eq (by omega)]
        refine Res.ok_iff.2 ⟨g1, fun r' c' h1 h2 => ?_⟩
        rw [Buf.put_data, contingency_succ, g2 r c hr' hc', g2 r' c' h1 h2, hr, hc]
        by_cases e : r' = r ∧ c' = c
        · rw [if_pos (by rw [e.1, e.2]), if_pos (by rw [e.1, e.2]; exact ⟨rfl, rfl⟩), e.1, e.2]
        · rw [if_neg (by intro h; exact e ((rm_eq_iff h2 hc').1 h)), if_neg (by rintro ⟨h3, h4⟩; exact e ⟨by omega, by omega⟩)]
      · have hno : ¬ ((reqR < 0 ∧ reqC < 0) ∨ (a i < R ∧ b i < C)) := by
          rintro (⟨q1, q2⟩ | h)
          · exact hin ⟨(eR.2 q1).2 i hi, (eC.2 q2).2 i hi⟩
          · exact hin h
        rw [if_neg hno]
        refine Res.ok_iff.2 ⟨g1, fun r c h1 h2 => ?_⟩
        rw [contingency_succ, g2 r c h1 h2, if_neg (by rintro ⟨h3, h4⟩; exact hin ⟨by omega, by omega⟩)])
    refine hl.bind ?_
    rintro m ⟨g1, g2⟩
    exact ⟨_, rfl, is_new g1 g2⟩
  · intro h
    unfold ctableDense
    by_cases h1 : x.numCols ≠ 1 ∨ y.numCols ≠ 1
    · rw [if_pos h1]; exact ⟨_, rfl⟩
    · rw [if_neg h1, if_pos (by omega)]; exact ⟨_, rfl⟩

/-! ### Bitmaps -/

/-- **C107.** A list of positions below `n` (also a column view) becomes the bitmap of `n` rows with ones exactly at these
positions; a position above `n`, or an argument with more than one column, is rejected. -/
theorem C107_posList_to_bitmap (zero one : α) (x : DM Nat) (a : Mat Nat) (hx : x.Is a) (n : Nat) :
    (a.cols = 1 → (∀ r, r < a.rows → a.cell r 0 < n) → Res.Ok (posListToBitmap zero one x n)
      (fun y => ∃ bits : Nat → α, y.Is ⟨n, 1, fun r _ => bits r⟩ ∧
        ∀ p, p < n → ((∃ r, r < a.rows ∧ a.cell r 0 = p) → bits p = one) ∧ ((∀ r, r < a.rows → a.cell r 0 ≠ p) → bits p = zero))) ∧
    (a.cols ≠ 1 → Res.Throws (posListToBitmap zero one x n)) ∧
    (a.cols = 1 → (∀ r, r < a.rows → a.cell r 0 ≠ n) → (∃ r, r < a.rows ∧ n < a.cell r 0) → Res.Throws (posListToBitmap zero one x n)) := by
  have e1 : x.numRows = a.rows := hx.rows
  have e2 : x.numCols = a.cols := hx.cols
  have hs : (DM.createZero n 1 zero).h.rowSkip = 1 := rfl
  unfold posListToBitmap
  rw [e1, e2]
  refine ⟨fun hc hp => ?_, fun hc => ?_, fun hc hne hex => ?_⟩
  · rw [if_neg (by simpa using hc)]
    simp only
    rw [createZero_start, hs]
    have hl := forLoop_ok (fun i (m : Buf α) => m.size = n * 1 ∧
        ∀ p, p < n → ((∃ r, r < i ∧ a.cell r 0 = p) → m.data p = one) ∧ ((∀ r, r < i → a.cell r 0 ≠ p) → m.data p = zero))
      0 a.rows (DM.createZero n 1 zero).mem (body := fun r m => do
        let pos ← x.mem.read (x.addr r 0)
        if n < pos then .error (.throw "out-of-bounds access") else m.write (0 + pos * 1) one) (Nat.zero_le _)
      ⟨rfl, fun p _ => ⟨fun ⟨r, h, _⟩ => by omega, fun _ => rfl⟩⟩ (by
      rintro i m - hi ⟨g1, g2⟩
      have hlt := hp i hi
      rw [hx.read hi (by omega)]
      simp only [Res.ok_bind]
      rw [if_neg (by omega), Buf.write_eq (by omega)]
      refine Res.ok_iff.2 ⟨g1, fun p hp => ⟨?_, fun hno => ?_⟩⟩
      · rintro ⟨r, h1, h2⟩
        rw [Buf.put_data]
        by_cases e : p = 0 + a.cell i 0 * 1
        · rw [if_pos e]
        · rw [if_neg e]
          have : r ≠ i := by rintro rfl; omega
          exact (g2 p hp).1 ⟨r, by omega, h2⟩
      · rw [Buf.put_data, if_neg (by have := hno i (by omega); omega)]
        exact (g2 p hp).2 fun r hr => hno r (by omega))
    refine hl.bind ?_
    rintro m ⟨g1, g2⟩
    refine ⟨_, rfl, m.data, is_new g1 fun r c hr hc => by rw [show c = 0 by omega]; simp, g2⟩
  · rw [if_pos hc]; exact ⟨_, rfl⟩
  · rw [if_neg (by simpa using hc)]
    simp only
    rw [createZero_start, hs]
    have hthrow : Res.Throws (forLoop 0 a.rows (DM.createZero n 1 zero).mem fun r m => do
        let pos ← x.mem.read (x.addr r 0)
        if n < pos then .error (.throw "out-of-bounds access") else m.write (0 + pos * 1) one) := by
      refine forLoop_throws (fun (m : Buf α) => m.size = n * 1) 0 a.rows _ rfl ?_ ?_
      · rintro r m - hr hm
        have hcell := hne r hr
        rw [hx.read hr (by omega)]
        simp only [Res.ok_bind]
        by_cases h : n < a.cell r 0
        · right; rw [if_pos h]; exact ⟨_, rfl⟩
        · left; rw [if_neg h, Buf.write_eq (by omega)]; exact Res.ok_iff.2 hm
      · obtain ⟨r, hr, h⟩ := hex
        refine ⟨r, Nat.zero_le _, hr, fun m hm => ?_⟩
        rw [hx.read hr (by omega)]
        simp only [Res.ok_bind]
        rw [if_pos h]; exact ⟨_, rfl⟩
    obtain ⟨msg, hm⟩ := hthrow
    rw [hm]; exact ⟨msg, rfl⟩

/-- **C109 (refuted).** The position `n` itself passes the check of the bounds and is written behind the end of the bitmap: for
every list whose first position equal to or above `n` is `n`. -/
theorem C109_posList_boundary_partial (zero one : α) (x : DM Nat) (a : Mat Nat) (hx : x.Is a) (n : Nat) (hc : a.cols = 1)
    (k : Nat) (hk : k < a.rows) (hn : a.cell k 0 = n) (hb : ∀ r, r < k → a.cell r 0 < n) :
    Res.IsUB (posListToBitmap zero one x n) := by
  have e1 : x.numRows = a.rows := hx.rows
  have e2 : x.numCols = a.cols := hx.cols
  have hs : (DM.createZero n 1 zero).h.rowSkip = 1 := rfl
  unfold posListToBitmap
  rw [e1, e2, if_neg (by simpa using hc)]
  simp only
  rw [createZero_start, hs]
  refine Agg.ub_bind (forLoop_ub_at (fun (m : Buf α) => m.size = n * 1) k 0 a.rows _ (Nat.zero_le _) hk rfl ?_ ?_)
  · rintro r m - hr hm
    have := hb r hr
    rw [hx.read (by omega) (by omega)]
    simp only [Res.ok_bind]
    rw [if_neg (by omega), Buf.write_eq (by omega)]; exact Res.ok_iff.2 hm
  · intro m hm
    rw [hx.read hk (by omega)]
    simp only [Res.ok_bind]
    rw [if_neg (by omega)]
    unfold Buf.write
    rw [if_neg (by omega)]
    exact ⟨_, rfl⟩

/-- **C108.** The positions of the ones of a bitmap (a column, also a view), ascending. -/
theorem C108_bitmap_to_posList [DecidableEq α] (one : α) (x : DM α) (a : Mat α) (hx : x.Is a) (junk : Nat → Nat) :
    (a.cols = 1 → Res.Ok (bitmapToPosList one x junk)
      (fun y => Shows y (column ((List.range a.rows).filter fun r => decide (a.cell r 0 = one)) 0))) ∧
    (a.cols ≠ 1 → Res.Throws (bitmapToPosList one x junk)) := by
  have e1 : x.numRows = a.rows := hx.rows
  have e2 : x.numCols = a.cols := hx.cols
  unfold bitmapToPosList
  rw [e1, e2]
  refine ⟨fun hc => ?_, fun hc => by rw [if_pos hc]; exact ⟨_, rfl⟩⟩
  rw [if_neg (by simpa using hc)]
  have hs : (DM.create a.rows 1 junk).h.rowSkip = 1 := rfl
  simp only
  rw [create_start, hs]
  let sel : Nat → List Nat := fun i => (List.range i).filter fun r => decide (a.cell r 0 = one)
  have sel_le : ∀ i, (sel i).length ≤ i := fun i => by
    have := List.length_filter_le (fun r => decide (a.cell r 0 = one)) (List.range i)
    simpa [sel] using this
  have sel_succ : ∀ i, sel (i + 1) = if a.cell i 0 = one then sel i ++ [i] else sel i := by
    intro i
    simp only [sel, List.range_succ, List.filter_append, List.filter_singleton]
    by_cases h : a.cell i 0 = one
    · simp [h]
    · simp [h]
  have hl := forLoop_ok (fun i (s : Buf Nat × Nat) => s.1.size = a.rows * 1 ∧ s.2 = (sel i).length ∧
      ∀ k, k < (sel i).length → s.1.data k = (sel i).getD k 0)
    0 a.rows ((DM.create a.rows 1 junk).mem, 0) (body := fun r s => do
      let v ← x.mem.read (x.addr r 0)
      if v = one then do
        let m ← s.1.write (0 + s.2 * 1) r
        .ok (m, s.2 + 1)
      else .ok s) (Nat.zero_le _) ⟨rfl, rfl, fun k h => by simp [sel] at h⟩ (by
    rintro i ⟨m, p⟩ - hi ⟨g1, g2, g3⟩
    simp only at g1 g2 g3 ⊢
    have hle := sel_le i
    rw [hx.read hi (by omega)]
    simp only [Res.ok_bind]
    by_cases h : a.cell i 0 = one
    · rw [if_pos h, Buf.write_eq (by omega)]
      refine Res.ok_iff.2 ⟨g1, ?_, ?_⟩
      · rw [sel_succ, if_pos h]; simp [g2]
      · rw [sel_succ, if_pos h]
        intro k hk
        simp only [List.length_append, List.length_singleton] at hk
        simp only [Buf.put_data]
        by_cases e : k = (sel i).length
        · rw [if_pos (by omega), e]; simp
        · rw [if_neg (by omega), g3 k (by omega)]
          simp only [List.getD_eq_getElem?_getD]
          rw [List.getElem?_append_left (by omega)]
    · rw [if_neg h]
      refine Res.ok_iff.2 ⟨g1, ?_, ?_⟩
      · rw [sel_succ, if_neg h]; exact g2
      · rw [sel_succ, if_neg h]; exact g3)
  refine hl.bind ?_
  rintro ⟨m, p⟩ ⟨g1, g2, g3⟩
  simp only at g1 g2 g3 ⊢
  have hle := sel_le a.rows
  unfold Hdr.shrinkNumRows
  rw [if_neg (by simp only [DM.create, Hdr.new]; omega)]
  refine ⟨_, rfl, g2, rfl, fun r c hr hc' => ?_⟩
  simp only [column] at hr hc' ⊢
  have hc0 : c = 0 := by omega
  subst hc0
  have hr' : r < (sel a.rows).length := hr
  have hst : Hdr.start { (DM.create a.rows 1 junk).h with numRows := p } = 0 := by
    unfold Hdr.start Hdr.offset; simp [DM.create, Hdr.new]
  unfold DM.get Hdr.get Hdr.pos
  simp only
  rw [if_neg (by omega), if_neg (by simp [DM.create, Hdr.new])]
  simp only [Res.ok_bind]
  rw [hst]
  have hpos : (r * (if Hdr.isPartial { (DM.create a.rows 1 junk).h with numRows := p } = true then (DM.create a.rows 1 junk).h.numCols else
      (DM.create a.rows 1 junk).h.rowSkip) + 0) = r := by
    split <;> simp [DM.create, Hdr.new]
  rw [hpos, Nat.zero_add, Buf.read_eq (by omega), g3 r hr']

/-- Ascending positions below `n` survive the conversion to a bitmap and back. -/
theorem C108_round_trip [DecidableEq α] (zero one : α) (hne : zero ≠ one) (x : DM Nat) (l : List Nat) (hx : x.Is (column l 0)) (n : Nat)
    (hs : l.Pairwise (· < ·)) (hb : ∀ p ∈ l, p < n) (junk : Nat → Nat) :
    Res.Ok (posListToBitmap zero one x n >>= fun y => bitmapToPosList one y junk) (fun z => Shows z (column l 0)) := by
  refine ((C107_posList_to_bitmap zero one x _ hx n).1 rfl fun r hr => ?_).bind ?_
  · simp only [column] at hr ⊢
    rw [List.getD_eq_getElem _ _ hr]; exact hb _ (List.getElem_mem hr)
  · rintro y ⟨bits, h1, h2⟩
    refine ((C108_bitmap_to_posList one y _ h1 junk).1 rfl).mono fun z hz => ?_
    have e : (List.range n).filter (fun r => decide (bits r = one)) = l := by
      have hmem : ∀ p, p < n → (bits p = one ↔ p ∈ l) := by
        intro p hp
        constructor
        · intro h
          by_contra hno
          have := (h2 p hp).2 fun r hr e => by
            simp only [column] at hr e
            rw [List.getD_eq_getElem _ _ hr] at e
            exact hno (e ▸ List.getElem_mem hr)
          rw [this] at h; exact hne h
        · intro h
          obtain ⟨r, hr, e⟩ := List.getElem_of_mem h
          exact (h2 p hp).1 ⟨r, hr, by simp only [column]; rw [List.getD_eq_getElem _ _ hr, e]⟩
      have hf : (List.range n).filter (fun r => decide (bits r = one)) = (List.range n).filter (fun r => decide (r ∈ l)) := by
        apply List.filter_congr
        intro p hp
        rw [List.mem_range] at hp
        simp only [hmem p hp]
      rw [hf]
      apply List.Perm.eq_of_pairwise (le := (· < ·))
      · intro a b _ _ h1 h2; omega
      · exact List.Pairwise.filter _ List.pairwise_lt_range
      · exact hs
      · rw [List.perm_ext_iff_of_nodup (List.Nodup.filter _ List.nodup_range) (hs.imp (fun h => Nat.ne_of_lt h))]
        intro p
        simp only [List.mem_filter, List.mem_range, decide_eq_true_eq]
        exact ⟨fun h => h.2, fun h => ⟨hb p h, h⟩⟩
    simp only at hz
    rw [e] at hz
    exact hz

/-! ### Sparse contingency tables -/

/-- A sparse matrix with as many entries as cells, none of them zero, has no zero cell. -/
theorem full_nonzero {zero : α} {N C : Nat} {m : CMem α} {a : Mat α} (h : CM.Is zero ⟨whole N C, m⟩ a)
    (hfull : N * C ≤ m.offs.data N - m.offs.data 0) (hnz : ∀ q, q < m.offs.data N → m.vals.data q ≠ zero) {r c : Nat}
    (hr : r < N) (hc : c < C) : a.cell r c ≠ zero := by
  have e1 : N = a.rows := h.rows
  have e2 : C = a.cols := h.cols
  have hO : ∀ i, CM.o ⟨whole N C, m⟩ i = m.offs.data i := fun i => by simp [CM.o, whole, CHdr.new]
  obtain ⟨lin, l1, l2, l3, l4⟩ := CM.Is.linear h
  simp only [hO] at l2 l3
  rw [← e1, ← e2] at l3
  rw [← e1] at l2
  have hlt := rm_lt hr hc (Nat.le_refl C)
  have hid := ascending_id (g := lin) (n := N * C) (fun q q' h h' => l2 q q' h (by omega)) (fun q h => (l3 q (by omega)).1) _ hlt
  have h3 := (l3 (r * C + c) (by omega)).2
  have d1 : (r * C + c) / C = r := by rw [Nat.mul_comm r, Nat.mul_add_div (by omega), Nat.div_eq_of_lt hc, Nat.add_zero]
  have d2 : (r * C + c) % C = c := by rw [Nat.mul_comm r, Nat.mul_add_mod, Nat.mod_eq_of_lt hc]
  rw [hid, d1, d2] at h3
  rw [h3]
  exact hnz _ (by omega)

theorem bind_eq_ok {β γ : Type} {m : Res β} {f : β → Res γ} {z : γ} (h : (m >>= f) = .ok z) : ∃ b, m = .ok b ∧ f b = .ok z := by
  cases m with
  | error e => cases h
  | ok b => exact ⟨b, rfl, h⟩

/-- `set` leaves the first offset of the object unchanged. -/
theorem set_offs0 [DecidableEq α] {zero : α} {v : CHdr} {m m' : CMem α} {r c : Nat} {x : α} (h : v.set zero m r c x = .ok m')
    (hs : v.rowOff + (v.alloc + 1) ≤ m.offs.size) (hr : r ≤ v.alloc) : m'.offs.data v.rowOff = m.offs.data v.rowOff := by
  unfold CHdr.set at h
  split at h
  · cases h
  split at h
  · cases h
  obtain ⟨b, -, h⟩ := bind_eq_ok h
  obtain ⟨e, -, h⟩ := bind_eq_ok h
  obtain ⟨p, -, h⟩ := bind_eq_ok h
  obtain ⟨last, -, h⟩ := bind_eq_ok h
  obtain ⟨present, -, h⟩ := bind_eq_ok h
  split at h
  · split at h
    · injection h with h; rw [h]
    · obtain ⟨⟨vs, cs⟩, -, h⟩ := bind_eq_ok h
      obtain ⟨vs', -, h⟩ := bind_eq_ok h
      obtain ⟨cs', -, h⟩ := bind_eq_ok h
      obtain ⟨os, ho, o1, o2⟩ := bump_ok (fun x => x + 1) m.offs v.rowOff (r + 1) (v.alloc + 1) (by omega) hs
      rw [ho] at h
      injection h with h
      rw [← h]
      simp only [o2]
      rw [if_neg (by omega)]
  · split at h
    · obtain ⟨⟨vs, cs⟩, -, h⟩ := bind_eq_ok h
      obtain ⟨os, ho, o1, o2⟩ := bump_ok (fun x => x - 1) m.offs v.rowOff (r + 1) (v.alloc + 1) (by omega) hs
      rw [ho] at h
      injection h with h
      rw [← h]
      simp only [o2]
      rw [if_neg (by omega)]
    · obtain ⟨vs, -, h⟩ := bind_eq_ok h
      injection h with h
      rw [← h]

/-- **C106 (sparse result).** The same for the sparse result, if no number of additions of the weight yields zero; a negative
coordinate is rejected if the sizes are not requested. The reserved number of entries always suffices. -/
theorem C106_ctable_sparse [DecidableEq α] (zero : α) (add : α → α → α) (w : α)
    (hw : ∀ k : Nat, (fun v => add v w)^[k + 1] zero ≠ zero) (x y : DM Int) (reqR reqC : Int) :
    (∀ (n : Nat) (a b : Nat → Int), AdjacentColumn x n a → AdjacentColumn y n b → (∀ k, k < n → 0 ≤ a k ∧ 0 ≤ b k) →
      (reqR < 0 ∨ reqC < 0 → 0 < n) →
      ∃ R C : Nat, Extent reqR n a R ∧ Extent reqC n b C ∧
        Res.Ok (ctableCsr zero add w x y reqR reqC) (fun z => z.Is zero (contingency zero add w n a b R C))) ∧
    (x.numCols ≠ 1 ∨ y.numCols ≠ 1 ∨ x.numRows ≠ y.numRows → Res.Throws (ctableCsr zero add w x y reqR reqC)) := by
  constructor
  · intro n a b hx hy hpos hn
    obtain ⟨R, hR, eR⟩ := ctableDim_ok hx (fun k hk => (hpos k hk).1) reqR (fun h => hn (Or.inl h))
    obtain ⟨C, hC, eC⟩ := ctableDim_ok hy (fun k hk => (hpos k hk).2) reqC (fun h => hn (Or.inr h))
    refine ⟨R, C, eR, eC, ?_⟩
    have x1 : x.numRows = n := hx.1.rows
    have x2 : x.numCols = 1 := hx.1.cols
    have y1 : y.numRows = n := hy.1.rows
    have y2 : y.numCols = 1 := hy.1.cols
    unfold ctableCsr
    rw [if_neg (by omega), if_neg (by omega), hR, hC, x1]
    simp only [Res.ok_bind, Int.toNat_natCast]
    have hh : (CM.createZero R C (min n (R * C)) zero).h = whole R C := rfl
    rw [hh]
    have hl := forLoop_ok (fun i (m : CMem α) => CM.Is zero ⟨whole R C, m⟩ (contingency zero add w i a b R C) ∧
        m.vals.size = min n (R * C) ∧ m.cols.size = min n (R * C) ∧ m.offs.data R ≤ i ∧ m.offs.data 0 = 0 ∧
        (∀ q, q < m.offs.data R → m.vals.data q ≠ zero))
      0 n (CM.createZero R C (min n (R * C)) zero).mem (body := fun i m => do
        let r ← x.mem.read (x.h.start + i)
        let c ← y.mem.read (y.h.start + i)
        if (reqR < 0 ∧ reqC < 0) ∨ (r < R ∧ c < C) then ctableAddCsr zero add w (whole R C) r c m else .ok m)
      (Nat.zero_le _) ⟨?_, rfl, rfl, Nat.le_refl _, rfl, fun q h => by simp [CM.createZero] at h⟩ (by
      rintro i m - hi ⟨g1, g2, g3, g4, g5, g6⟩
      obtain ⟨p1, p2⟩ := hpos i hi
      rw [hx.read hi, hy.read hi]
      simp only [Res.ok_bind]
      by_cases hin : a i < R ∧ b i < C
      · rw [if_pos (Or.inr hin)]
        obtain ⟨r, hr⟩ : ∃ r : Nat, a i = r := ⟨(a i).toNat, by omega⟩
        obtain ⟨c, hc⟩ : ∃ c : Nat, b i = c := ⟨(b i).toNat, by omega⟩
        rw [hr, hc] at hin ⊢
        have hr' : r < R := by omega
        have hc' : c < C := by omega
        unfold ctableAddCsr
        rw [if_neg (by omega)]
        have hget := g1.get (r := r) (c := c) hr' hc'
        simp only [Int.toNat_natCast] at hget ⊢
        rw [hget]
        simp only [Res.ok_bind]
        have hnz : add ((contingency zero add w i a b R C).cell r c) w ≠ zero := by
          simp only [contingency]
          have := hw ((List.range i).countP fun k => decide (a k = r ∧ b k = c))
          rw [Function.iterate_succ_apply'] at this
          exact this
        have hroom : (m.offs.data R < m.vals.size ∧ m.offs.data R < m.cols.size) ∨
            ((add ((contingency zero add w i a b R C).cell r c) w = zero ↔ (contingency zero add w i a b R C).cell ((whole R C).rowOff + r) c = zero) ∧
              ∀ q, q < m.offs.data R → m.vals.data q ≠ zero) := by
          by_cases hf : m.offs.data R < min n (R * C)
          · left; omega
          · right
            refine ⟨?_, g6⟩
            have hcell := full_nonzero g1 (by omega) g6 hr' hc'
            have e0 : (whole R C).rowOff + r = r := by simp [whole, CHdr.new]
            rw [e0]
            exact ⟨fun h => absurd h hnz, fun h => absurd h hcell⟩
        obtain ⟨m', hset, s1, s2, s3, s4⟩ := set_ok g1 (v := whole R C) ⟨by simp [whole, CHdr.new], by simp [whole, CHdr.new], rfl⟩ (r := r) (c := c) hr' hc' _ hroom
        refine ⟨m', hset, ?_⟩
        obtain ⟨s5, s6⟩ := s4 g6
        have e0 : (whole R C).rowOff + r = r := by simp [whole, CHdr.new]
        rw [e0] at s1 s6
        refine ⟨s1.congr ⟨rfl, rfl, fun r' c' h1 h2 => ?_⟩, by omega, by omega, ?_, ?_, s5⟩
        · rw [contingency_succ, hr, hc]
          simp only [Mat.setCell]
          by_cases e : r' = r ∧ c' = c
          · rw [if_pos e, if_pos (by rw [e.1, e.2]; exact ⟨rfl, rfl⟩), e.1, e.2]
          · rw [if_neg e, if_neg (by rintro ⟨h3, h4⟩; exact e ⟨by omega, by omega⟩)]
        · rw [s6]; unfold nnzAfter; rw [if_neg hnz]; split <;> omega
        · have hoffs : R < m.offs.size := by have := g1.wf.offsIn; simpa [whole, CHdr.new] using this
          have := set_offs0 hset (by simp only [whole, CHdr.new]; omega) (by simp only [whole, CHdr.new]; omega)
          rw [show (whole R C).rowOff = 0 from rfl] at this
          rw [this, g5]
      · have hno : ¬ ((reqR < 0 ∧ reqC < 0) ∨ (a i < R ∧ b i < C)) := by
          rintro (⟨q1, q2⟩ | h)
          · exact hin ⟨(eR.2 q1).2 i hi, (eC.2 q2).2 i hi⟩
          · exact hin h
        rw [if_neg hno]
        refine Res.ok_iff.2 ⟨g1.congr ⟨rfl, rfl, fun r c h1 h2 => ?_⟩, g2, g3, by omega, g5, g6⟩
        rw [contingency_succ, if_neg (by rintro ⟨h3, h4⟩; simp only [contingency] at h1 h2; exact hin ⟨by omega, by omega⟩)])
    · refine hl.bind ?_
      rintro m ⟨g1, -⟩
      exact ⟨_, rfl, g1⟩
    · have o_eq : ∀ r, CM.o ⟨whole R C, (CM.createZero R C (min n (R * C)) zero).mem⟩ r = 0 := by
        intro r; unfold CM.o; simp [CM.createZero]
      refine CM.Is.ofRows rfl rfl (by simp [CM.createZero, CHdr.new]) ?_ ?_ fun r hr => ?_
      · rw [o_eq]; exact Nat.zero_le _
      · rw [o_eq]; exact Nat.zero_le _
      · rw [o_eq, o_eq]
        exact ⟨Nat.le_refl _, fun p q h1 h2 h3 => by omega, fun p h1 h2 => by omega, fun p h1 h2 => by omega,
          fun c _ _ => by simp [contingency]⟩
  · intro h
    unfold ctableCsr
    by_cases h1 : x.numCols ≠ 1 ∨ y.numCols ≠ 1
    · rw [if_pos h1]; exact ⟨_, rfl⟩
    · rw [if_neg h1, if_pos (by omega)]; exact ⟨_, rfl⟩

/-! ### Views, negative coordinates, no coordinates -/

/-- A 2 × 2 matrix with rows (0, 1) and (2, 3). -/
def ex22 : DM Int := ⟨Hdr.new 2 2, ⟨4, fun i => i⟩⟩

/-- **C110 (refuted).** The column `X[, 0]` of `X = [0, 1; 2, 3]` holds 0 and 2, so the table with itself must be 3 × 3; the
kernel reads 0 and 1 and returns a 2 × 2 table. -/
theorem C110_ctable_column_view_partial :
    ∃ (v : Hdr) (z : DM Nat), ex22.h.view 0 2 0 1 = .ok v ∧ DM.Is ⟨v, ex22.mem⟩ ⟨2, 1, fun r _ => 2 * r⟩ ∧
      ctableDense 0 (· + ·) 1 ⟨v, ex22.mem⟩ ⟨v, ex22.mem⟩ (-1) (-1) = .ok z ∧ z.numRows = 2 := by
  have h22 : ex22.Is ⟨2, 2, fun r c => ((r * 2 + c : Nat) : Int)⟩ := is_new rfl fun r c _ _ => rfl
  obtain ⟨v, h1, h2⟩ := h22.view (rl := 0) (ru := 2) (cl := 0) (cu := 1) (by decide) (by decide)
  have hv : v = ⟨2, 1, 2, 0, 0, 0, 4, true, 0, 0⟩ := by
    have : ex22.h.view 0 2 0 1 = .ok ⟨2, 1, 2, 0, 0, 0, 4, true, 0, 0⟩ := rfl
    rw [this] at h1; injection h1 with h1; exact h1.symm
  subst hv
  refine ⟨_, _, h1, h2.congr ⟨rfl, rfl, fun r c _ hc => ?_⟩, rfl, rfl⟩
  simp only [Mat.window] at hc ⊢
  have : c = 0 := by omega
  subst this
  simp; ring

/-- **C111 (refuted).** A negative column coordinate changes another cell of a dense table, a negative row coordinate writes in
front of it (for every table with a column and every such coordinate); no coordinates at all are read out of bounds if a size
is not requested. -/
theorem C111_ctable_coordinates_partial :
    (∃ z : DM Nat, ctableDense 0 (· + ·) 1 ⟨Hdr.new 1 1, ⟨1, fun _ => 1⟩⟩ ⟨Hdr.new 1 1, ⟨1, fun _ => -1⟩⟩ 2 2 = .ok z ∧ z.get 0 1 = .ok 1) ∧
    (∀ (zero : α) (add : α → α → α) (w : α) (r : Int) (R C : Nat), r < 0 → 0 < C →
      Res.IsUB (ctableDense zero add w ⟨Hdr.new 1 1, ⟨1, fun _ => r⟩⟩ ⟨Hdr.new 1 1, ⟨1, fun _ => 0⟩⟩ R C)) ∧
    (∀ (zero : α) (add : α → α → α) (w : α) (j : Nat → Int) (R C : Int), R < 0 ∨ C < 0 →
      Res.IsUB (ctableDense zero add w (DM.create 0 1 j) (DM.create 0 1 j) R C)) := by
  refine ⟨⟨_, rfl, rfl⟩, ?_, ?_⟩
  · intro zero add w r R C hr hC
    have d1 : ctableDim ⟨Hdr.new 1 1, ⟨1, fun _ => r⟩⟩ (R : Int) = .ok (R : Int) := by unfold ctableDim; rw [if_neg (by omega)]
    have d2 : ctableDim ⟨Hdr.new 1 1, ⟨1, fun _ => 0⟩⟩ (C : Int) = .ok (C : Int) := by unfold ctableDim; rw [if_neg (by omega)]
    unfold ctableDense
    rw [if_neg (by simp [DM.numCols, Hdr.new]), if_neg (by simp [DM.numRows, Hdr.new]), d1, d2]
    simp only [Res.ok_bind]
    refine Agg.ub_bind (Agg.forLoop_ub (by simp [DM.numRows, Hdr.new]) ?_)
    rw [Buf.read_eq (by simp [Hdr.start, Hdr.isPartial, Hdr.new]), Buf.read_eq (by simp [Hdr.start, Hdr.isPartial, Hdr.new])]
    simp only [Res.ok_bind]
    rw [if_pos (Or.inr (by constructor <;> omega))]
    unfold ctableAdd
    have hs : (DM.createZero (R : Int).toNat (C : Int).toNat zero).h.rowSkip = C := by simp [DM.createZero, Hdr.new]
    rw [hs, if_pos (by
      have : r * (C : Int) < 0 := Int.mul_neg_of_neg_of_pos hr (by omega)
      omega)]
    exact ⟨_, rfl⟩
  · intro zero add w j R C h
    have dub : ∀ req : Int, req < 0 → Res.IsUB (ctableDim (DM.create 0 1 j) req) := by
      intro req hreq
      unfold ctableDim
      rw [if_pos hreq]
      refine Agg.ub_bind ?_
      unfold maxElement
      exact Agg.ub_bind (Agg.read_ub (by rw [create_size]; omega))
    unfold ctableDense
    rw [if_neg (by simp [DM.numCols, DM.create, Hdr.new]), if_neg (by simp)]
    by_cases hR : R < 0
    · exact Agg.ub_bind (dub R hR)
    · have : ctableDim (DM.create 0 1 j) R = .ok R := by unfold ctableDim; rw [if_neg hR]
      rw [this]
      simp only [Res.ok_bind]
      exact Agg.ub_bind (dub C (by omega))

/-! ### The hypotheses are met -/

/-- Coordinates (0, 1), (2, 0), (0, 1): the table is 3 × 2, with 2 at (0, 1). -/
example : ∃ z : DM Nat, ctableDense 0 (· + ·) 1 ⟨Hdr.new 3 1, ⟨3, fun i => if i = 1 then 2 else 0⟩⟩ ⟨Hdr.new 3 1, ⟨3, fun i => if i = 1 then 0 else 1⟩⟩
    (-1) (-1) = .ok z ∧ z.numRows = 3 ∧ z.numCols = 2 ∧ z.get 0 1 = .ok 2 ∧ z.get 2 0 = .ok 1 ∧ z.get 1 1 = .ok 0 :=
  ⟨_, rfl, rfl, rfl, rfl, rfl, rfl⟩

example : AdjacentColumn ⟨Hdr.new 3 1, ⟨3, fun i => if i = 1 then 2 else 0⟩⟩ 3 (fun i => if i = 1 then 2 else 0) :=
  ⟨is_new rfl fun r c _ hc => by rw [show c = 0 by omega, Nat.mul_one, Nat.add_zero], Or.inl rfl⟩

/-- Positive weights meet the condition of the sparse case. -/
example : ∀ k : Nat, (fun v => v + 3)^[k + 1] 0 ≠ 0 := by
  intro k
  rw [Function.iterate_succ_apply']
  omega

/-- Positions 1 and 3 in a bitmap of 5 rows, and back. -/
example : ∃ y, posListToBitmap 0 1 ⟨Hdr.new 2 1, ⟨2, fun i => 2 * i + 1⟩⟩ 5 = .ok y ∧ y.get 3 0 = .ok 1 ∧ y.get 2 0 = .ok 0 ∧
    ∃ z, bitmapToPosList 1 y (fun _ => 0) = .ok z ∧ z.numRows = 2 ∧ z.get 1 0 = .ok 3 :=
  ⟨_, rfl, rfl, rfl, _, rfl, rfl, rfl⟩

end Verif.Shape
