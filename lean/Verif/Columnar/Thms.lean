/-
  The columnar rewriting of operations on matrices: comparisons, logical operations, subtraction, multiplication and the full
  sum (C178–C181).
-/
import Verif.Columnar.Model
import Verif.Col.Props
import Verif.Agg.All

namespace Verif.Columnar
open Verif Verif.Dense

variable {α γ : Type}

/-! ### Conversions -/

/-- The column `c` has the values `v 0, …, v (n-1)`. -/
def ColIs (c : Col.Column α) (n : Nat) (v : Nat → α) : Prop := c.WF ∧ c.numRows = n ∧ ∀ r, r < n → c.at r = v r

theorem ColIs.toList {c : Col.Column α} {n : Nat} {v : Nat → α} (h : ColIs c n v) : c.toList = (List.range n).map v := by
  obtain ⟨_, h2, h3⟩ := h
  unfold Col.Column.toList Buf.toList
  rw [h2]
  apply List.map_congr_left
  intro r hr
  exact h3 r (List.mem_range.1 hr)

/-- Any object with one column whose values can be read. -/
theorem castToColumn_raw (x : DM α) (junk : Nat → α) (n : Nat) (v : Nat → α) (hr : x.numRows = n) (hc : x.numCols = 1)
    (hs : x.h.start = x.h.base) (hd : ∀ r, r < n → x.h.base + r * x.h.rowSkip < x.mem.size ∧ x.mem.data (x.h.base + r * x.h.rowSkip) = v r) :
    Res.Ok (castToColumn x junk) (fun c => ColIs c n v) := by
  unfold castToColumn
  rw [if_pos hc]
  by_cases h1 : x.h.rowSkip = 1
  · rw [if_pos h1, Res.ok_iff]
    rw [h1] at hd
    refine ⟨?_, hr, fun r h => ?_⟩
    · unfold Col.Column.WF
      simp only
      rw [hr]
      cases n with
      | zero => omega
      | succ k => have := (hd k (by omega)).1; omega
    · have := (hd r h).2
      rw [Nat.mul_one] at this
      exact this
  · rw [if_neg h1, hr, hs]
    refine (forLoop_ok (fun i (m : Buf α) => m.size = n ∧ ∀ r, r < i → m.data r = v r) 0 n _ (Nat.zero_le _) ⟨rfl, by omega⟩ ?_).bind ?_
    · rintro r m _ h ⟨m1, m2⟩
      obtain ⟨d1, d2⟩ := hd r h
      rw [Buf.read_eq d1, Res.ok_bind, Buf.write_eq (by omega), Res.ok_iff, d2]
      refine ⟨m1, fun q hq => ?_⟩
      show (if q = r then v r else m.data q) = v q
      by_cases e : q = r
      · simp [e]
      · rw [if_neg e]; exact m2 q (by omega)
    · rintro m ⟨m1, m2⟩
      exact Res.ok_iff.2 ⟨Nat.le_of_eq m1.symm, rfl, m2⟩

/-- A matrix with one column, also a view. -/
theorem castToColumn_ok (x : DM α) (a : Mat α) (hx : x.Is a) (hc : a.cols = 1) (junk : Nat → α) :
    Res.Ok (castToColumn x junk) (fun c => ColIs c a.rows fun r => a.cell r 0) := by
  refine castToColumn_raw x junk _ _ hx.rows (hx.cols.trans hc) hx.wf.start fun r hr => ?_
  have h1 := hx.inb hr (show 0 < a.cols by omega)
  have h2 := hx.data hr (show 0 < a.cols by omega)
  exact ⟨by omega, by simpa using h2⟩

theorem castToColumn_throws (x : DM α) (a : Mat α) (hx : x.Is a) (hc : a.cols ≠ 1) (junk : Nat → α) :
    Res.Throws (castToColumn x junk) := by
  unfold castToColumn
  rw [if_neg (by rw [show x.numCols = a.cols from hx.cols]; exact hc)]
  exact ⟨_, rfl⟩

theorem castToMat_is {c : Col.Column α} {n : Nat} {v : Nat → α} (h : ColIs c n v) : (castToMat c).Is ⟨n, 1, fun r _ => v r⟩ := by
  obtain ⟨h1, h2, h3⟩ := h
  refine is_of_data ⟨Nat.le_refl _, rfl, ?_, fun _ => rfl⟩ h2 rfl ?_
  · intro r k hr hk
    simp only [castToMat, Hdr.new] at *
    unfold Col.Column.WF at h1
    omega
  · intro r k hr hk
    simp only [castToMat, Hdr.new] at *
    have : k = 0 := by omega
    subst this
    rw [show 0 + r * 1 + 0 = r by omega]
    exact h3 r hr

theorem colIs_of_toList {c : Col.Column α} {l : List α} (d : α) (w : c.WF) (h : c.toList = l) : ColIs c l.length (fun r => l.getD r d) := by
  have hl : c.numRows = l.length := by rw [← h]; simp [Col.Column.toList]
  refine ⟨w, hl, fun r hr => ?_⟩
  subst h
  show c.at r = c.toList.getD r d
  unfold Col.Column.toList Buf.toList
  rw [List.getD_eq_getElem _ _ (by simpa using by omega)]
  simp [Col.Column.at]

/-- The position list that a bitmap is converted to. -/
theorem bitmapToPosList_cast [DecidableEq γ] (one : γ) (x : DM γ) (a : Mat γ) (hx : x.Is a) (hc : a.cols = 1) (junk : Nat → Nat) :
    Res.Ok (Shape.bitmapToPosList one x junk >>= fun p => castToColumn p junk) (fun c => c.WF ∧
      c.toList = positions a.rows fun r => a.cell r 0 = one) := by
  obtain ⟨y, hy, s1, s2, s3⟩ := (Shape.C108_bitmap_to_posList one x a hx junk).1 hc
  rw [hy, Res.ok_bind]
  have hdr : y.h.base = 0 ∧ y.h.rowSkip = 1 ∧ y.h.rowOff = 0 ∧ y.h.colOff = 0 := by
    unfold Shape.bitmapToPosList at hy
    split at hy
    · cases hy
    · simp only at hy
      cases hf : forLoop 0 x.numRows ((DM.create x.numRows 1 junk).mem, 0) (fun r s => do
        let v ← x.mem.read (x.addr r 0)
        if v = one then do
          let m ← s.1.write ((DM.create x.numRows 1 junk).h.start + s.2 * (DM.create x.numRows 1 junk).h.rowSkip) r
          .ok (m, s.2 + 1)
        else .ok s) with
      | error e => rw [hf] at hy; cases hy
      | ok s =>
        rw [hf, Res.ok_bind] at hy
        unfold Hdr.shrinkNumRows at hy
        split at hy
        · cases hy
        · cases hy
          exact ⟨rfl, rfl, rfl, rfl⟩
  obtain ⟨b1, b2, b3, b4⟩ := hdr
  have hst : y.h.start = y.h.base := by simp [Hdr.start, Hdr.offset, b3, b4]
  have e : (List.range a.rows).filter (fun r => decide (a.cell r 0 = one)) = positions a.rows (fun r => a.cell r 0 = one) := rfl
  rw [e] at s1 s2 s3
  have s1' : y.h.numRows = (positions a.rows fun r => decide (a.cell r 0 = one)).length := s1
  have s2' : y.h.numCols = 1 := s2
  refine (castToColumn_raw y junk _ (fun r => (positions a.rows fun r => a.cell r 0 = one).getD r 0) s1 s2 hst ?_).mono ?_
  · intro r hr
    have h := s3 r 0 hr (by simp [Shape.column])
    unfold DM.get Hdr.get Hdr.pos at h
    have hr' : r < (positions a.rows fun r => decide (a.cell r 0 = one)).length := hr
    rw [if_neg (by omega), if_neg (by omega)] at h
    rw [s2', b2, hst, b1] at h
    simp only [ite_self, Res.ok_bind] at h
    rw [b1, b2]
    unfold Buf.read at h
    split at h
    · rename_i hlt
      simp only [Shape.column] at h
      injection h with h
      exact ⟨by simpa using hlt, by simpa using h⟩
    · cases h
  · intro c hcol
    refine ⟨hcol.1, ?_⟩
    rw [hcol.toList]
    apply List.ext_getElem
    · simp [Shape.column]
    · intro i h1 h2
      rw [List.getElem_map, List.getElem_range, List.getD_eq_getElem _ _ h2]

/-- A column of positions that is converted to a bitmap. -/
theorem bitmap_of_positions (zero one : γ) (c : Col.Column Nat) (w : c.WF) (n : Nat) (p : Nat → Bool)
    (h : ∀ r, r ∈ c.toList ↔ r < n ∧ p r = true) :
    Res.Ok (Shape.posListToBitmap zero one (castToMat c) n) (fun z => z.Is ⟨n, 1, fun r _ => if p r then one else zero⟩) := by
  have hcol := colIs_of_toList 0 w rfl
  have hm := castToMat_is hcol
  refine ((Shape.C107_posList_to_bitmap zero one _ _ hm n).1 rfl ?_).mono ?_
  · intro r hr
    simp only at hr ⊢
    rw [List.getD_eq_getElem _ _ hr]
    exact ((h _).1 (List.getElem_mem hr)).1
  · rintro z ⟨bits, z1, z2⟩
    refine z1.congr ⟨rfl, rfl, fun r k hr _ => ?_⟩
    simp only
    obtain ⟨q1, q2⟩ := z2 r hr
    by_cases hp : p r = true
    · rw [if_pos hp]
      apply q1
      obtain ⟨i, hi, e⟩ := List.getElem_of_mem ((h r).2 ⟨hr, hp⟩)
      exact ⟨i, hi, by simp only; rw [List.getD_eq_getElem _ _ hi, e]⟩
    · rw [if_neg hp]
      apply q2
      intro i hi e
      simp only at hi e
      rw [List.getD_eq_getElem _ _ hi] at e
      exact hp ((h r).1 (e ▸ List.getElem_mem hi)).2

/-! ### Comparisons -/

/-- **C178.** Comparing a matrix with one column (also a view) to a scalar gives the same matrix, whether with the kernel for
matrices or with the columnar selection that the compiler replaces it with. -/
theorem C178_compare {β : Type} (cmp : α → β → Bool) (zero one : γ) (rhs : β) (x : DM α) (a : Mat α) (hx : x.Is a) (hc : a.cols = 1)
    (j1 : Nat → α) (j2 : Nat → Nat) (j3 : Nat → γ) :
    let b : Mat γ := ⟨a.rows, 1, fun r _ => if cmp (a.cell r 0) rhs then one else zero⟩
    Res.Ok (compareColumnar (fun u => cmp u rhs) zero one x j1 j2) (fun z => z.Is b) ∧
    Res.Ok (ewBinaryObjSca (fun u v => if cmp u v then one else zero) j3 x rhs) (fun z => z.Is b) := by
  constructor
  · unfold compareColumnar
    refine (castToColumn_ok x a hx hc j1).bind fun c hcol => ?_
    refine (Col.C29_select _ c hcol.1 j2).bind ?_
    rintro p ⟨pw, pl⟩
    rw [show x.numRows = a.rows from hx.rows]
    refine bitmap_of_positions zero one p pw a.rows (fun r => cmp (a.cell r 0) rhs) fun r => ?_
    rw [pl, hcol.2.1]
    simp only [positions, List.mem_filter, List.mem_range]
    constructor
    · rintro ⟨h1, h2⟩; rw [hcol.2.2 r h1] at h2; exact ⟨h1, h2⟩
    · rintro ⟨h1, h2⟩; rw [hcol.2.2 r h1]; exact ⟨h1, h2⟩
  · refine (C38_ewBinaryObjSca _ j3 x a rhs hx).mono fun z hz => hz.congr ⟨rfl, hc, fun r k hr hk => ?_⟩
    have : k = 0 := by simp only [Mat.map] at hk; omega
    subst this
    rfl

/-! ### Logical operations -/

/-- The entries of `a` are ones and zeros. -/
def Bitmap (zero one : γ) (a : Mat γ) : Prop := ∀ r, r < a.rows → a.cell r 0 = zero ∨ a.cell r 0 = one

/-- `&&` and `||` of zeros and ones. -/
def andOf [DecidableEq γ] (zero one : γ) (u v : γ) : γ := if u ≠ zero ∧ v ≠ zero then one else zero
def orOf [DecidableEq γ] (zero one : γ) (u v : γ) : γ := if u ≠ zero ∨ v ≠ zero then one else zero

theorem logical_ok [DecidableEq γ] (setOp : Col.Column Nat → Col.Column Nat → (Nat → Nat) → Res (Col.Column Nat))
    (comb : Bool → Bool → Bool) (hset : ∀ c d : Col.Column Nat, c.WF → d.WF → c.toList.Pairwise (· < ·) → d.toList.Pairwise (· < ·) →
      ∀ junk, Res.Ok (setOp c d junk) fun r => r.WF ∧ ∀ i, i ∈ r.toList ↔ comb (decide (i ∈ c.toList)) (decide (i ∈ d.toList)) = true)
    (hff : comb false false = false)
    (zero one : γ) (x y : DM γ) (a b : Mat γ) (hx : x.Is a) (hy : y.Is b) (ha : a.cols = 1)
    (hb : b.cols = 1) (hr : b.rows ≤ a.rows) (junk : Nat → Nat) :
    Res.Ok (logicalColumnar setOp zero one x y junk) (fun z => z.Is ⟨a.rows, 1, fun r _ =>
      if comb (decide (a.cell r 0 = one)) (decide (r < b.rows ∧ b.cell r 0 = one)) then one else zero⟩) := by
  obtain ⟨c, hc, cw, cl⟩ := bitmapToPosList_cast one x a hx ha junk
  obtain ⟨d, hd, dw, dl⟩ := bitmapToPosList_cast one y b hy hb junk
  unfold logicalColumnar
  cases hp : Shape.bitmapToPosList one x junk with
  | error e => rw [hp] at hc; cases hc
  | ok px =>
  cases hq : Shape.bitmapToPosList one y junk with
  | error e => rw [hq] at hd; cases hd
  | ok py =>
  rw [hp, Res.ok_bind] at hc
  rw [hq, Res.ok_bind] at hd
  simp only [Res.ok_bind, hc, hd]
  have inc : ∀ n (p : Nat → Bool), (positions n p).Pairwise (· < ·) := fun n p => List.Pairwise.filter _ List.pairwise_lt_range
  refine (hset c d cw dw (by rw [cl]; exact inc _ _) (by rw [dl]; exact inc _ _) junk).bind ?_
  rintro r ⟨rw', rm⟩
  rw [show x.numRows = a.rows from hx.rows]
  refine bitmap_of_positions zero one r rw' a.rows _ fun i => ?_
  rw [rm i, cl, dl]
  simp only [positions, List.mem_filter, List.mem_range, decide_eq_true_eq]
  by_cases hi : i < a.rows
  · simp [hi]
  · have hi' : ¬ i < b.rows := by omega
    simp [hi, hi', hff]

/-- **C179.** The conjunction and disjunction of two bitmaps with one column and the same number of rows, computed by
intersecting and merging lists of positions, is what the kernel for matrices computes. -/
theorem C179_logical [DecidableEq γ] (zero one : γ) (h01 : zero ≠ one) (x y : DM γ) (a b : Mat γ) (hx : x.Is a) (hy : y.Is b)
    (ha : a.cols = 1) (hb : b.cols = 1) (hr : a.rows = b.rows) (ba : Bitmap zero one a) (bb : Bitmap zero one b)
    (j1 : Nat → Nat) (j2 : Nat → γ) :
    (∃ m : Mat γ, Res.Ok (logicalColumnar Col.intersect zero one x y j1) (fun z => z.Is m) ∧
      Res.Ok (ewBinaryMat (andOf zero one) j2 x y) (fun z => z.Is m) ∧
      m.rows = a.rows ∧ m.cols = 1 ∧ ∀ r, r < a.rows → m.cell r 0 = if a.cell r 0 = one ∧ b.cell r 0 = one then one else zero) ∧
    (∃ m : Mat γ, Res.Ok (logicalColumnar Col.merge zero one x y j1) (fun z => z.Is m) ∧
      Res.Ok (ewBinaryMat (orOf zero one) j2 x y) (fun z => z.Is m) ∧
      m.rows = a.rows ∧ m.cols = 1 ∧ ∀ r, r < a.rows → m.cell r 0 = if a.cell r 0 = one ∨ b.cell r 0 = one then one else zero) := by
  have hbr : Broadcastable a b := Or.inl ⟨hr.symm, by rw [ha, hb]⟩
  have ne : ∀ (m : Mat γ), Bitmap zero one m → ∀ r, r < m.rows → (m.cell r 0 ≠ zero ↔ m.cell r 0 = one) := by
    intro m hm r h
    rcases hm r h with e | e <;> simp [e, h01, Ne.symm h01]
  constructor
  · refine ⟨_, logical_ok Col.intersect (· && ·) (fun c d cw dw ci di junk => ?_) rfl zero one x y a b hx hy ha hb (by omega) j1,
      ?_, rfl, rfl, ?_⟩
    · refine (Col.C30_intersect c d cw dw ci di junk).mono fun r ⟨h1, _, h3⟩ => ⟨h1, fun i => ?_⟩
      rw [h3 i]; simp
    · refine ((C38_ewBinaryMat_partial (andOf zero one) j2 x y a b hx hy).1 hbr).mono fun z hz => hz.congr ⟨rfl, ha, fun r k h hk => ?_⟩
      have : k = 0 := by simp only [Mat.zip] at hk; omega
      subst this
      simp only [Mat.zip] at h
      have hb' : r < b.rows := by omega
      have hi : (if b.rows = 1 then 0 else r) = r := by split <;> omega
      simp only [Mat.zip, Mat.stretch, andOf, hb, hi, if_true, ne a ba r h, ne b bb r hb']
      simp [hb']
    · intro r h
      have hb' : r < b.rows := by omega
      simp [hb']
  · refine ⟨_, logical_ok Col.merge (· || ·) (fun c d cw dw ci di junk => ?_) rfl zero one x y a b hx hy ha hb (by omega) j1,
      ?_, rfl, rfl, ?_⟩
    · refine (Col.C30_merge c d cw dw ci di junk).mono fun r ⟨h1, _, h3⟩ => ⟨h1, fun i => ?_⟩
      rw [h3 i]; simp
    · refine ((C38_ewBinaryMat_partial (orOf zero one) j2 x y a b hx hy).1 hbr).mono fun z hz => hz.congr ⟨rfl, ha, fun r k h hk => ?_⟩
      have : k = 0 := by simp only [Mat.zip] at hk; omega
      subst this
      simp only [Mat.zip] at h
      have hb' : r < b.rows := by omega
      have hi : (if b.rows = 1 then 0 else r) = r := by split <;> omega
      simp only [Mat.zip, Mat.stretch, orOf, hb, hi, if_true, ne a ba r h, ne b bb r hb']
      simp [hb']
    · intro r h
      have hb' : r < b.rows := by omega
      simp [hb']

/-- **C180 (refuted: several columns).** The pass replaces `&&` and `||` of two results of comparisons without looking at their
shapes. For matrices of the same shape with a number of columns other than one the operation works, but its replacement
throws. -/
theorem C180_several_columns_partial [DecidableEq γ] (zero one : γ) (x y : DM γ) (a b : Mat γ) (hx : x.Is a) (hy : y.Is b)
    (hr : a.rows = b.rows) (hc : a.cols = b.cols) (h1 : a.cols ≠ 1)
    (setOp : Col.Column Nat → Col.Column Nat → (Nat → Nat) → Res (Col.Column Nat)) (f : γ → γ → γ) (j1 : Nat → Nat) (j2 : Nat → γ) :
    logicalLegal [.cmpOrLogic, .cmpOrLogic] = false ∧
    Res.Throws (logicalColumnar setOp zero one x y j1) ∧
    Res.Ok (ewBinaryMat f j2 x y) (fun z => ∃ m : Mat γ, z.Is m ∧ m.rows = a.rows ∧ m.cols = a.cols) := by
  refine ⟨rfl, ?_, ?_⟩
  · unfold logicalColumnar
    exact Res.throws_bind ((Shape.C108_bitmap_to_posList one x a hx j1).2 h1)
  · exact ((C38_ewBinaryMat_partial f j2 x y a b hx hy).1 (Or.inl ⟨hr.symm, hc.symm⟩)).mono fun z hz => ⟨_, hz, rfl, rfl⟩

/-- **C180 (refuted: one row against many).** If the right operand is a single row, the kernel combines it with every row of the left
operand, while the replacement combines it with the first row only: every row of the conjunction but the first is false. -/
theorem C180_single_row_partial [DecidableEq γ] (zero one : γ) (h01 : zero ≠ one) (x y : DM γ) (a b : Mat γ) (hx : x.Is a) (hy : y.Is b)
    (ha : a.cols = 1) (hb : b.cols = 1) (hr : b.rows = 1) (hr2 : 2 ≤ a.rows) (ba : Bitmap zero one a) (h1 : b.cell 0 0 = one)
    (j1 : Nat → Nat) (j2 : Nat → γ) :
    Res.Ok (logicalColumnar Col.intersect zero one x y j1) (fun z => ∃ m : Mat γ, z.Is m ∧ ∀ r, 1 ≤ r → r < a.rows → m.cell r 0 = zero) ∧
    Res.Ok (ewBinaryMat (andOf zero one) j2 x y) (fun z => ∃ m : Mat γ, z.Is m ∧ ∀ r, r < a.rows → m.cell r 0 = a.cell r 0) := by
  constructor
  · refine (logical_ok Col.intersect (· && ·) (fun c d cw dw ci di junk => ?_) rfl zero one x y a b hx hy ha hb (by omega) j1).mono ?_
    · refine (Col.C30_intersect c d cw dw ci di junk).mono fun r ⟨h1, _, h3⟩ => ⟨h1, fun i => ?_⟩
      rw [h3 i]; simp
    · intro z hz
      refine ⟨_, hz, fun r h1 h2 => ?_⟩
      have : ¬ r < b.rows := by omega
      simp [this]
  · refine ((C38_ewBinaryMat_partial (andOf zero one) j2 x y a b hx hy).1 (Or.inr (Or.inl ⟨hr, by rw [ha, hb]⟩))).mono fun z hz =>
      ⟨_, hz, fun r h => ?_⟩
    simp only [Mat.zip, Mat.stretch, andOf, hb, hr, if_true, h1]
    rcases ba r h with e | e <;> simp [e, Ne.symm h01]

/-- **C180 (refuted: different numbers of rows).** Operands with different numbers of rows, neither of them one, are rejected by the
kernel; the replacement accepts them if the right operand has fewer rows. -/
theorem C180_row_mismatch_partial [DecidableEq γ] (zero one : γ) (x y : DM γ) (a b : Mat γ) (hx : x.Is a) (hy : y.Is b)
    (ha : a.cols = 1) (hb : b.cols = 1) (hr : b.rows < a.rows) (hr1 : b.rows ≠ 1) (j1 : Nat → Nat) (j2 : Nat → γ) (f : γ → γ → γ) :
    Res.Ok (logicalColumnar Col.intersect zero one x y j1) (fun _ => True) ∧
    Res.Ok (logicalColumnar Col.merge zero one x y j1) (fun _ => True) ∧
    (a.rows ≠ 1 → Res.Throws (ewBinaryMat f j2 x y)) := by
  refine ⟨?_, ?_, fun h1 => ?_⟩
  · refine (logical_ok Col.intersect (· && ·) (fun c d cw dw ci di junk => ?_) rfl zero one x y a b hx hy ha hb (by omega) j1).mono
      fun _ _ => trivial
    refine (Col.C30_intersect c d cw dw ci di junk).mono fun r ⟨h1, _, h3⟩ => ⟨h1, fun i => ?_⟩
    rw [h3 i]; simp
  · refine (logical_ok Col.merge (· || ·) (fun c d cw dw ci di junk => ?_) rfl zero one x y a b hx hy ha hb (by omega) j1).mono
      fun _ _ => trivial
    refine (Col.C30_merge c d cw dw ci di junk).mono fun r ⟨h1, _, h3⟩ => ⟨h1, fun i => ?_⟩
    rw [h3 i]; simp
  · refine (C38_ewBinaryMat_partial f j2 x y a b hx hy).2 ?_ ?_ ?_
    · unfold Broadcastable; omega
    · omega
    · omega

/-! ### Arithmetic and sums -/

/-- **C181 (arithmetic).** Subtraction and multiplication (any elementwise operation `f`) of matrices with one column each, also
views: the columnar version gives the same matrix as the kernel for matrices, for operands with the same number of rows and for a
single right row; it rejects the same operands with different numbers of rows. -/
theorem C181_calc (f : α → α → γ) (x y : DM α) (a b : Mat α) (hx : x.Is a) (hy : y.Is b) (ha : a.cols = 1) (hb : b.cols = 1)
    (j1 : Nat → α) (j2 j3 : Nat → γ) :
    (b.rows = a.rows ∨ b.rows = 1 →
      ∃ m : Mat γ, m.rows = a.rows ∧ m.cols = 1 ∧ (∀ r, r < a.rows → m.cell r 0 = f (a.cell r 0) (b.cell (if b.rows = 1 then 0 else r) 0)) ∧
        Res.Ok (calcColumnar f x y j1 j2) (fun z => z.Is m) ∧ Res.Ok (ewBinaryMat f j3 x y) (fun z => z.Is m)) ∧
    (b.rows ≠ a.rows → b.rows ≠ 1 → a.rows ≠ 1 → Res.Throws (calcColumnar f x y j1 j2) ∧ Res.Throws (ewBinaryMat f j3 x y)) := by
  obtain ⟨cx, hcx, cx'⟩ := castToColumn_ok x a hx ha j1
  obtain ⟨cy, hcy, cy'⟩ := castToColumn_ok y b hy hb j1
  have mx := castToMat_is cx'
  have my := castToMat_is cy'
  constructor
  · intro h
    refine ⟨⟨a.rows, 1, fun r _ => f (a.cell r 0) (b.cell (if b.rows = 1 then 0 else r) 0)⟩, rfl, rfl, fun _ _ => rfl, ?_, ?_⟩
    · unfold calcColumnar
      simp only [hcx, hcy, Res.ok_bind]
      refine ((C38_ewBinaryMat_partial f j2 _ _ _ _ mx my).1 (by unfold Broadcastable; rcases h with h | h <;> simp [h])).bind fun z hz => ?_
      refine (castToColumn_ok z _ hz rfl j2).bind fun c hc => Res.ok_iff.2 ?_
      exact castToMat_is hc
    · refine ((C38_ewBinaryMat_partial f j3 x y a b hx hy).1 (by unfold Broadcastable; omega)).mono fun z hz =>
        hz.congr ⟨rfl, ha, fun r k hr hk => ?_⟩
      have : k = 0 := by simp only [Mat.zip] at hk; omega
      subst this
      simp [Mat.zip, Mat.stretch, hb]
  · intro h1 h2 h3
    refine ⟨?_, (C38_ewBinaryMat_partial f j3 x y a b hx hy).2 (by unfold Broadcastable; omega) (by omega) (by omega)⟩
    unfold calcColumnar
    simp only [hcx, hcy, Res.ok_bind]
    exact Res.throws_bind ((C38_ewBinaryMat_partial f j2 _ _ _ _ mx my).2 (by unfold Broadcastable; simp only; omega)
      (by simp only; omega) (by simp only; omega))

/-- The cells of a matrix with one column. -/
theorem cells_one (a : Mat α) (h : a.cols = 1) : a.cells = (List.range a.rows).map fun r => a.cell r 0 := by
  unfold Mat.cells Mat.rowList
  rw [h]
  simp [List.flatMap, List.range_succ]
  induction List.range a.rows with
  | nil => rfl
  | cons x l ih => simp [ih]

/-- **C181 (sum).** In lawful arithmetic the sum of a matrix with one column, also of a view, is the same with the columnar version
and with the kernel for matrices: the sum of the cells. -/
theorem C181_sum {ρ : Type} (A : Agg.VT ρ) (K : Agg.Conv α ρ) (x : DM α) (a : Mat α) (hx : x.Is a) (ha : a.cols = 1)
    (hA : Agg.Lawful A .sum) (hK : Agg.Conv.Exact A K .sum) (j : Nat → α) :
    sumColumnar A K x j = Agg.aggAllDense A K .sum x ∧
    sumColumnar A K x j = Agg.aggOf A .sum ((List.range a.rows).map fun r => K.cast (a.cell r 0)) := by
  obtain ⟨c, hc, hcol⟩ := castToColumn_ok x a hx ha j
  have e : sumColumnar A K x j = Agg.aggOf A .sum ((List.range a.rows).map fun r => K.cast (a.cell r 0)) := by
    unfold sumColumnar
    rw [hc, Res.ok_bind, Agg.C79_all_dense A K _ _ (castToMat_is hcol) .sum hA hK ⟨by simp, by simp⟩, cells_one _ rfl, List.map_map]
    rfl
  refine ⟨?_, e⟩
  rw [e, Agg.C79_all_dense A K x a hx .sum hA hK ⟨by simp, by simp⟩, cells_one a ha, List.map_map]
  rfl

end Verif.Columnar
