/-
  C20 - C25: slicing, binding, filtering, extraction, insertion and transposition of dense matrices.
-/
import Verif.Dense.Kernels
import Mathlib.Data.List.GetD
import Mathlib.Tactic.Common

namespace Verif.Dense
open Verif
variable {α : Type _}

/-- Copying a segment of a row of a matrix into a segment of a row of a fresh result. -/
theorem copy_seg {x : DM α} {a : Mat α} (h : x.Is a) {r c0 n r' d0 R C : Nat} {m : Buf α} (hm : m.size = R * C)
    (hr : n = 0 ∨ r < a.rows) (hc : c0 + n ≤ a.cols) (hr' : n = 0 ∨ r' < R) (hd : d0 + n ≤ C) {s d : Nat}
    (hs : s = x.addr r c0) (hd' : d = r' * C + d0) :
    Res.Ok (x.mem.copy s m d n) (fun m' => m'.size = R * C ∧
      ∀ i c, c < C → m'.data (i * C + c) = if i = r' ∧ d0 ≤ c ∧ c < d0 + n then a.cell r (c0 + (c - d0)) else m.data (i * C + c)) := by
  have hst : s = x.h.base + r * x.h.rowSkip + c0 := by rw [hs]; unfold DM.addr; rw [h.wf.start]
  refine (Buf.copy_ok ?_ ?_).mono ?_
  · rcases hr with h0 | hr
    · exact .inl h0
    · by_cases h0 : n = 0
      · exact .inl h0
      · have := h.inb (r := r) (c := c0 + (n - 1)) hr (by omega)
        right; omega
  · rcases hr' with h0 | hr'
    · exact .inl h0
    · right
      have : (r' + 1) * C ≤ R * C := Nat.mul_le_mul_right _ hr'
      have e : (r' + 1) * C = r' * C + C := by ring
      omega
  · rintro m' ⟨h1, h2⟩
    refine ⟨h1.trans hm, fun i c hcC => ?_⟩
    rw [h2, hd']
    have e : (r' * C + d0 ≤ i * C + c ∧ i * C + c < r' * C + d0 + n) ↔ (i = r' ∧ d0 ≤ c ∧ c < d0 + n) := by
      have := rm_seg_iff (r := i) (r' := r') (c0 := d0) (c1 := d0 + n) hcC hd
      rw [← Nat.add_assoc] at this
      exact this
    by_cases hcond : i = r' ∧ d0 ≤ c ∧ c < d0 + n
    · rw [if_pos (e.2 hcond), if_pos hcond]
      obtain ⟨rfl, h3, h4⟩ := hcond
      rw [hst]
      have : x.h.base + r * x.h.rowSkip + c0 + (i * C + c - (i * C + d0)) = x.h.base + r * x.h.rowSkip + (c0 + (c - d0)) := by omega
      rw [this]
      exact h.data (by omega) (by omega)
    · rw [if_neg (fun hh => hcond (e.1 hh)), if_neg hcond]

theorem create_start (rows cols : Nat) (junk : Nat → α) : (DM.create rows cols junk).h.start = 0 := by
  simp [DM.create, Hdr.new, Hdr.start, Hdr.isPartial]

theorem create_addr (rows cols : Nat) (junk : Nat → α) (r c : Nat) :
    (DM.create rows cols junk).addr r c = r * cols + c := by
  unfold DM.addr; rw [create_start]; simp [DM.create, Hdr.new]

theorem create_h (rows cols : Nat) (junk : Nat → α) : (DM.create rows cols junk).h = Hdr.new rows cols := rfl
theorem create_size (rows cols : Nat) (junk : Nat → α) : (DM.create rows cols junk).mem.size = rows * cols := rfl

/-! ### C20: slicing -/

/-- What a range `l:u` over `n` rows means: a negative bound counts from the end; with a negative lower bound, the upper
bound 0 stands for the end. -/
def rangeLower (l : Int) (n : Nat) : Int := if l < 0 then l + n else l
def rangeUpper (l u : Int) (n : Nat) : Int := if u < 0 then u + n else if u = 0 ∧ l < 0 then n else u

/-- The range is usable: it starts at an existing row and does not end before its start or after the last row. -/
def RangeOk (l u : Int) (n : Nat) : Prop :=
  0 ≤ rangeLower l n ∧ rangeLower l n < n ∧ rangeLower l n ≤ rangeUpper l u n ∧ rangeUpper l u n ≤ n

theorem resolveSlice_eq (l u : Int) (n : Nat) : resolveSlice l u n = (rangeLower l n, rangeUpper l u n) := by
  unfold resolveSlice rangeLower rangeUpper
  by_cases h : l < 0
  · simp only [h, if_true, and_true, Prod.mk.injEq, true_and]
    by_cases h2 : u < 0
    · rw [if_pos (by omega), if_pos h2]
    · by_cases h3 : u = 0
      · subst h3; simp
      · rw [if_neg (by omega), if_neg h2, if_neg h3]
  · by_cases h2 : u < 0
    · simp [h, h2]
    · simp [h, h2]

theorem sliceInvalid_iff (l u : Int) (n : Nat) :
    sliceInvalid (rangeLower l n) (rangeUpper l u n) n = false ↔ RangeOk l u n := by
  unfold sliceInvalid RangeOk
  simp only [Bool.or_eq_false_iff, decide_eq_false_iff_not]
  omega

/-- **C20 (rows).** `sliceRow(l, u)` succeeds exactly on usable ranges and then shows exactly the addressed rows; otherwise
it throws. -/
theorem C20_sliceRow (x : DM α) (a : Mat α) (h : x.Is a) (l u : Int) :
    (RangeOk l u a.rows → Res.Ok (sliceRow x l u) (fun y =>
      y.Is (a.window (rangeLower l a.rows).toNat (rangeUpper l u a.rows).toNat 0 a.cols))) ∧
    (¬ RangeOk l u a.rows → Res.Throws (sliceRow x l u)) := by
  have hn : x.numRows = a.rows := h.rows
  constructor
  · intro hok
    have hv : LegalRange (rangeLower l a.rows) (rangeUpper l u a.rows) a.rows := by
      unfold RangeOk at hok; unfold LegalRange; omega
    have hc : LegalRange 0 (x.h.numCols : Int) a.cols := by
      rw [h.cols]; unfold LegalRange; omega
    obtain ⟨v, e, hi⟩ := h.view hv hc
    refine ⟨⟨v, x.mem⟩, ?_, ?_⟩
    · unfold sliceRow
      simp only [hn, resolveSlice_eq, (sliceInvalid_iff l u a.rows).2 hok, Hdr.sliceRow, e]
      rfl
    · simpa [h.cols] using hi
  · intro hno
    have : sliceInvalid (rangeLower l a.rows) (rangeUpper l u a.rows) a.rows = true := by
      rw [← Bool.not_eq_false, sliceInvalid_iff]; exact hno
    exact ⟨"invalid arguments passed to SliceRow", by unfold sliceRow; simp only [hn, resolveSlice_eq, this]; rfl⟩

/-- **C20 (columns).** -/
theorem C20_sliceCol (x : DM α) (a : Mat α) (h : x.Is a) (l u : Int) :
    (RangeOk l u a.cols → Res.Ok (sliceCol x l u) (fun y =>
      y.Is (a.window 0 a.rows (rangeLower l a.cols).toNat (rangeUpper l u a.cols).toNat))) ∧
    (¬ RangeOk l u a.cols → Res.Throws (sliceCol x l u)) := by
  have hn : x.numCols = a.cols := h.cols
  constructor
  · intro hok
    have hv : LegalRange (rangeLower l a.cols) (rangeUpper l u a.cols) a.cols := by
      unfold RangeOk at hok; unfold LegalRange; omega
    have hc : LegalRange 0 (x.h.numRows : Int) a.rows := by
      rw [h.rows]; unfold LegalRange; omega
    obtain ⟨v, e, hi⟩ := h.view hc hv
    refine ⟨⟨v, x.mem⟩, ?_, ?_⟩
    · unfold sliceCol
      simp only [hn, resolveSlice_eq, (sliceInvalid_iff l u a.cols).2 hok, Hdr.sliceCol, e]
      rfl
    · simpa [h.rows] using hi
  · intro hno
    have : sliceInvalid (rangeLower l a.cols) (rangeUpper l u a.cols) a.cols = true := by
      rw [← Bool.not_eq_false, sliceInvalid_iff]; exact hno
    exact ⟨"invalid arguments passed to SliceCol", by unfold sliceCol; simp only [hn, resolveSlice_eq, this]; rfl⟩

/-! ### C21: binding -/

/-- **C21 (columns).** `colBind` of any two dense matrices or views: the operands side by side; throws exactly if the
numbers of rows differ. -/
theorem C21_colBind (junk : Nat → α) (x y : DM α) (a b : Mat α) (hx : x.Is a) (hy : y.Is b) :
    (a.rows = b.rows → Res.Ok (colBind junk x y) (fun z => z.Is (a.hcat b))) ∧
    (a.rows ≠ b.rows → Res.Throws (colBind junk x y)) := by
  have e1 : x.numRows = a.rows := hx.rows
  have e2 : y.numRows = b.rows := hy.rows
  have e3 : x.numCols = a.cols := hx.cols
  have e4 : y.numCols = b.cols := hy.cols
  constructor
  · intro heq
    unfold colBind
    rw [e1, e2, e3, e4, if_neg (by simpa using heq)]
    simp only [create_addr, create_h]
    refine Res.Ok.bind (P := fun m' => m'.size = a.rows * (a.cols + b.cols) ∧ ∀ r c, c < a.cols + b.cols →
        m'.data (r * (a.cols + b.cols) + c) = if 0 ≤ r ∧ r < a.rows then (a.hcat b).cell r c else junk (r * (a.cols + b.cols) + c)) ?_ ?_
    · refine fill_rows (Nat.zero_le _) rfl (a.hcat b).cell _ ?_
      intro r m _ hr hm
      refine (copy_seg hx (c0 := 0) (n := a.cols) (r := r) (r' := r) (d0 := 0) hm (.inr hr) (by omega) (.inr hr) (by omega) rfl rfl).bind ?_
      rintro m1 ⟨hs1, hd1⟩
      refine (copy_seg hy (c0 := 0) (n := b.cols) (r := r) (r' := r) (d0 := a.cols) hs1 (.inr (by omega)) (by omega) (.inr hr) (by omega) rfl (by omega)).mono ?_
      rintro m2 ⟨hs2, hd2⟩
      refine ⟨hs2, fun i c hc => ?_⟩
      rw [hd2 i c hc, hd1 i c hc]
      by_cases hi : i = r
      · subst hi
        simp only [true_and, Nat.zero_le, Nat.zero_add, Mat.hcat, if_true, Nat.sub_zero]
        by_cases hca : c < a.cols
        · rw [if_neg (by omega), if_pos hca, if_pos hca]
        · rw [if_pos (by omega), if_neg hca]
      · simp [hi]
    · rintro m ⟨hs, hd⟩
      refine ⟨_, rfl, is_new hs fun r c hr hc => ?_⟩
      rw [hd r c hc, if_pos ⟨Nat.zero_le _, hr⟩]; rfl
  · intro hne
    exact ⟨"the two operands must have the same number of rows", by unfold colBind; rw [e1, e2, if_pos hne]⟩

/-- **C36 (part).** `rowBind` of dense matrices whose rows are adjacent in memory (originals and views of complete rows):
the operands stacked; throws exactly if the numbers of columns differ. -/
theorem C36_rowBind_partial (junk : Nat → α) (x y : DM α) (a b : Mat α) (hx : x.Is a) (hy : y.Is b)
    (hxs : x.h.rowSkip = x.h.numCols) (hys : y.h.rowSkip = y.h.numCols) :
    (a.cols = b.cols → Res.Ok (rowBind junk x y) (fun z => z.Is (a.vcat b))) ∧
    (a.cols ≠ b.cols → Res.Throws (rowBind junk x y)) := by
  have e1 : x.numRows = a.rows := hx.rows
  have e2 : y.numRows = b.rows := hy.rows
  have e3 : x.numCols = a.cols := hx.cols
  have e4 : y.numCols = b.cols := hy.cols
  have hxs' : x.h.rowSkip = a.cols := hxs.trans hx.cols
  have hys' : y.h.rowSkip = b.cols := hys.trans hy.cols
  have bnd : ∀ (z : DM α) (d : Mat α), z.Is d → z.h.rowSkip = d.cols →
      d.cols * d.rows = 0 ∨ z.h.start + d.cols * d.rows ≤ z.mem.size := by
    intro z d hz hs
    by_cases h0 : d.cols * d.rows = 0
    · exact .inl h0
    · right
      have hr : 0 < d.rows := Nat.pos_of_ne_zero (by rintro h; simp [h] at h0)
      have hc : 0 < d.cols := Nat.pos_of_ne_zero (by rintro h; simp [h] at h0)
      have := hz.inb (r := d.rows - 1) (c := d.cols - 1) (by omega) (by omega)
      rw [hs] at this
      have e : (d.rows - 1 + 1) * d.cols = (d.rows - 1) * d.cols + d.cols := by ring
      rw [Nat.sub_add_cancel hr] at e
      rw [hz.wf.start, Nat.mul_comm]
      omega
  constructor
  · intro heq
    unfold rowBind
    rw [e1, e2, e3, e4, if_neg (by simpa using heq)]
    simp only [create_start, Nat.zero_add]
    have hsz : (a.rows + b.rows) * a.cols = a.rows * a.cols + b.rows * a.cols := by ring
    have hbs : b.cols * b.rows = b.rows * a.cols := by rw [heq]; ring
    refine Res.Ok.bind (Buf.copy_ok (bnd x a hx hxs') (.inr ?_)) ?_
    · rw [create_size, hsz, Nat.mul_comm]; omega
    rintro m1 ⟨hs1, hd1⟩
    rw [create_size] at hs1
    refine Res.Ok.bind (Buf.copy_ok (bnd y b hy hys') (.inr ?_)) ?_
    · rw [hs1, hsz, hbs]
    rintro m2 ⟨hs2, hd2⟩
    refine ⟨_, rfl, is_new (hs2.trans hs1) fun r c hr hc => ?_⟩
    rw [hd2, hd1]
    by_cases hra : r < a.rows
    · have h1 : r * a.cols + c < a.rows * a.cols := rm_lt hra hc (Nat.le_refl _)
      rw [if_neg (by omega), if_pos ⟨Nat.zero_le _, by rw [Nat.mul_comm a.cols]; omega⟩, if_pos hra, Nat.sub_zero]
      rw [← hx.data hra hc, hx.wf.start, hxs', Nat.add_assoc]
    · have h1 : r * a.cols = a.rows * a.cols + (r - a.rows) * a.cols := by
        rw [← Nat.add_mul]; congr 1; omega
      have h2 : (r - a.rows) * a.cols + c < b.rows * a.cols := rm_lt (by omega) hc (Nat.le_refl _)
      rw [if_pos ⟨by omega, by rw [hbs]; omega⟩, if_neg hra]
      rw [← hy.data (r := r - a.rows) (c := c) (by omega) (by omega), hy.wf.start, hys', ← heq]
      congr 1; omega
  · intro hne
    exact ⟨"the two operands must have the same number of columns", by unfold rowBind; rw [e3, e4, if_pos hne]⟩

/-- Why `rowBind` needs adjacent rows: stacking a view of the first column of a 2×2 matrix above itself copies cells of the
second column (RowBind.h:79-82, "TODO Take rowSkip into account"). -/
theorem C36_rowBind_column_view_wrong :
    ∃ (v : Hdr) (z : DM Nat), (Hdr.new 2 2).view 0 2 0 1 = .ok v ∧
      rowBind (fun _ => 0) ⟨v, ⟨4, fun i => i⟩⟩ ⟨v, ⟨4, fun i => i⟩⟩ = .ok z ∧
      DM.get ⟨v, ⟨4, fun i => i⟩⟩ 1 0 = .ok 2 ∧ z.get 1 0 = .ok 1 :=
  ⟨_, _, rfl, rfl, rfl, rfl⟩

/-! ### C22: filtering -/

/-- The selection matrix is a column of zeros and ones; `p` says which entries are one. -/
def IsSelection (sel : DM Int) (n : Nat) (p : Nat → Bool) : Prop :=
  sel.Is ⟨n, 1, fun r _ => if p r then 1 else 0⟩

theorem positions_succ (n : Nat) (p : Nat → Bool) :
    positions (n + 1) p = positions n p ++ (if p n then [n] else []) := by
  unfold positions
  rw [List.range_succ, List.filter_append]
  by_cases h : p n <;> simp [h]

theorem positions_lt {n : Nat} {p : Nat → Bool} {i : Nat} (h : i ∈ positions n p) : i < n ∧ p i = true := by
  unfold positions at h
  rw [List.mem_filter, List.mem_range] at h
  exact h

theorem positions_len_mono {n m : Nat} (p : Nat → Bool) (h : n ≤ m) :
    (positions n p).length ≤ (positions m p).length := by
  induction m with
  | zero => have : n = 0 := by omega
            subst this; exact Nat.le_refl _
  | succ m ih =>
    by_cases e : n = m + 1
    · subst e; exact Nat.le_refl _
    · rw [positions_succ, List.length_append]; have := ih (by omega); omega

/-- A prefix of the positions. -/
theorem positions_getD {n m : Nat} (p : Nat → Bool) (h : n ≤ m) {i : Nat} (hi : i < (positions n p).length) :
    (positions m p).getD i 0 = (positions n p).getD i 0 := by
  induction m with
  | zero => have : n = 0 := by omega
            subst this; rfl
  | succ m ih =>
    by_cases e : n = m + 1
    · subst e; rfl
    · rw [positions_succ, List.getD_append]
      · exact ih (by omega)
      · exact Nat.lt_of_lt_of_le hi (positions_len_mono p (by omega))

theorem selSum_ok {sel : DM Int} {n : Nat} {p : Nat → Bool} (h : IsSelection sel n p) :
    selSum sel n = .ok ((positions n p).length : Int) := by
  have : Res.Ok (selSum sel n) (fun v => v = ((positions n p).length : Int)) := by
    refine forLoop_ok (fun i acc => acc = ((positions i p).length : Int)) 0 n 0 (Nat.zero_le _) rfl ?_
    intro j s _ hj hs
    rw [h.2.2.2 j 0 hj (by simp)]
    refine ⟨_, rfl, ?_⟩
    rw [positions_succ, hs]
    by_cases hp : p j <;> simp [hp]
  obtain ⟨v, e, rfl⟩ := this
  exact e

/-- **C22 (rows).** Filtering by a 0/1 column returns exactly the selected rows, in order. -/
theorem C22_filterRow (junk : Nat → α) (x : DM α) (a : Mat α) (hx : x.Is a) (sel : DM Int) (p : Nat → Bool)
    (hsel : IsSelection sel a.rows p) :
    Res.Ok (filterRow junk x sel) (fun y => y.Is (a.pickRows (positions a.rows p))) := by
  have e1 : x.numRows = a.rows := hx.rows
  have e3 : x.numCols = a.cols := hx.cols
  have s1 : sel.numRows = a.rows := hsel.rows
  have s2 : sel.numCols = 1 := hsel.cols
  unfold filterRow
  rw [s1, e1, if_neg (by simp), s2, if_neg (by simp), selSum_ok hsel, e3, Res.ok_bind]
  simp only [create_addr, create_h, Int.toNat_natCast]
  refine Res.Ok.bind (forLoop_ok (fun i (s : Buf α × Nat) => s.1.size = (positions a.rows p).length * a.cols ∧
      s.2 = (positions i p).length ∧
      ∀ k c, k < (positions i p).length → c < a.cols →
        s.1.data (k * a.cols + c) = a.cell ((positions a.rows p).getD k 0) c) 0 a.rows _ (Nat.zero_le _)
      ⟨rfl, by simp [positions], by intro k c h; simp [positions] at h⟩ ?_) ?_
  · rintro i ⟨m, k⟩ _ hi ⟨h1, h2, h3⟩
    simp only at h1 h2 h3 ⊢
    rw [hsel.2.2.2 i 0 hi (by simp)]
    show Res.Ok (if _ then _ else _) _
    have hlen := positions_succ i p
    by_cases hp : p i
    · simp only [hp, if_true]
      rw [if_pos (by decide)]
      have hlen' : (positions (i + 1) p).length = (positions i p).length + 1 := by rw [hlen]; simp [hp]
      have hle := positions_len_mono p (show i + 1 ≤ a.rows by omega)
      refine (copy_seg hx (c0 := 0) (n := a.cols) (r := i) (r' := k) (d0 := 0) h1 (.inr hi) (by omega)
        (.inr (by omega)) (by omega) rfl rfl).bind ?_
      rintro m1 ⟨hs1, hd1⟩
      refine ⟨_, rfl, hs1, by rw [hlen', h2], ?_⟩
      intro k' c hk hc
      simp only
      rw [hd1 k' c hc]
      by_cases e : k' = k
      · subst e
        rw [if_pos (by omega)]
        have : (positions a.rows p).getD k' 0 = i := by
          rw [positions_getD p (show i + 1 ≤ a.rows by omega) (by omega), hlen]
          simp [hp, h2]
        rw [this]; congr 1; omega
      · rw [if_neg (by omega)]; exact h3 k' c (by omega) hc
    · have hlen' : (positions (i + 1) p).length = (positions i p).length := by rw [hlen]; simp [hp]
      simp only [hp]
      rw [if_neg (by simp)]
      exact ⟨_, rfl, h1, by rw [hlen', h2], fun k' c hk hc => h3 k' c (by omega) hc⟩
  · rintro ⟨m, k⟩ ⟨h1, h2, h3⟩
    exact ⟨_, rfl, is_new h1 fun r c hr hc => h3 r c hr hc⟩

/-- **C22 (columns).** -/
theorem C22_filterCol (junk : Nat → α) (x : DM α) (a : Mat α) (hx : x.Is a) (sel : DM Int) (p : Nat → Bool)
    (hsel : IsSelection sel a.cols p) :
    Res.Ok (filterCol junk x sel) (fun y => y.Is (a.pickCols (positions a.cols p))) := by
  have e1 : x.numRows = a.rows := hx.rows
  have e3 : x.numCols = a.cols := hx.cols
  have s1 : sel.numRows = a.cols := hsel.rows
  have s2 : sel.numCols = 1 := hsel.cols
  unfold filterCol
  rw [s1, e3, if_neg (by simp), s2, if_neg (by simp), selSum_ok hsel, e1, Res.ok_bind]
  simp only [create_addr, create_h, Int.toNat_natCast]
  refine Res.Ok.bind (P := fun l => l = positions a.cols p) (forLoop_ok (fun i l => l = positions i p) 0 a.cols [] (Nat.zero_le _) rfl ?_) ?_
  · rintro i l _ hi rfl
    rw [hsel.2.2.2 i 0 hi (by simp)]
    show Res.Ok (if _ then _ else _) _
    rw [positions_succ]
    by_cases hp : p i
    · simp only [hp, if_true]; rw [if_pos (by decide)]; exact ⟨_, rfl, rfl⟩
    · simp only [hp]; rw [if_neg (by simp)]; exact ⟨_, rfl, by simp⟩
  · rintro l rfl
    refine Res.Ok.bind (fill_cells rfl (a.pickCols (positions a.cols p)).cell
      (fun r i m => x.mem.read (x.addr r ((positions a.cols p).getD i 0)) >>= fun v =>
        m.write (r * (positions a.cols p).length + i) v) ?_) ?_
    · intro r c m hr hc hm
      have hin : (positions a.cols p).getD c 0 < a.cols := by
        rw [List.getD_eq_getElem _ _ hc]
        exact (positions_lt (List.getElem_mem hc)).1
      show (x.mem.read _ >>= _) = _
      rw [hx.read hr hin]
      show m.write _ _ = _
      rw [Buf.write_eq]
      · rfl
      · rw [hm]; exact rm_lt hr hc (Nat.le_refl _)
    · rintro m ⟨hs, hd⟩
      exact ⟨_, rfl, is_new hs fun r c hr hc => hd r c hr hc⟩

/-- Filtering rejects a selection of the wrong shape. -/
theorem C22_filter_rejects (junk : Nat → α) (x : DM α) (sel : DM Int) :
    (¬ (sel.numRows = x.numRows ∧ sel.numCols = 1) → Res.Throws (filterRow junk x sel)) ∧
    (¬ (sel.numRows = x.numCols ∧ sel.numCols = 1) → Res.Throws (filterCol junk x sel)) := by
  constructor
  · intro h
    by_cases h1 : sel.numRows = x.numRows
    · have h2 : sel.numCols ≠ 1 := fun h2 => h ⟨h1, h2⟩
      exact ⟨_, by unfold filterRow; rw [if_neg (by simpa using h1), if_pos h2]⟩
    · exact ⟨_, by unfold filterRow; rw [if_pos h1]⟩
  · intro h
    by_cases h1 : sel.numRows = x.numCols
    · have h2 : sel.numCols ≠ 1 := fun h2 => h ⟨h1, h2⟩
      exact ⟨_, by unfold filterCol; rw [if_neg (by simpa using h1), if_pos h2]⟩
    · exact ⟨_, by unfold filterCol; rw [if_pos h1]⟩

/-- Why the selection must be 0/1: a selection value 2 makes the result one row longer than what is written, so that the
last row of the result is uninitialised memory. -/
theorem C22_selection_value_two_exposes_junk (junk : Nat → Nat) :
    ∃ y, filterRow junk ⟨Hdr.new 1 1, ⟨1, fun _ => 5⟩⟩ ⟨Hdr.new 1 1, ⟨1, fun _ => 2⟩⟩ = .ok y ∧
      y.numRows = 2 ∧ y.get 1 0 = .ok (junk 1) :=
  ⟨_, rfl, rfl, rfl⟩

/-! ### C23: positional extraction -/

/-- Position `v` addresses row `i` of `n` (negative positions count from the end). -/
def Addresses (v : Int) (n i : Nat) : Prop := i < n ∧ (v = i ∨ v = (i : Int) - n)

theorem resolvePos_ok {v : Int} {n i : Nat} (h : Addresses v n i) : resolvePos v n = .ok i := by
  obtain ⟨h1, h2⟩ := h
  unfold resolvePos
  simp only
  by_cases hv : v < 0
  · simp only [hv, if_true]
    rw [if_neg (by omega)]
    have : (v + n).toNat = i := by omega
    rw [this]
  · simp only [hv, if_false, false_or]
    rw [if_neg (by omega)]
    have : v.toNat = i := by omega
    rw [this]

theorem resolvePos_throws {v : Int} {n : Nat} (h : ∀ i, ¬ Addresses v n i) : resolvePos v n = .error (.throw "out of bounds") := by
  unfold resolvePos
  simp only
  rw [if_pos]
  by_cases hv : v < 0
  · simp only [hv, if_true]
    by_contra hc
    exact h (v + n).toNat ⟨by omega, .inr (by omega)⟩
  · simp only [hv, if_false]
    by_contra hc
    exact h v.toNat ⟨by omega, .inl (by omega)⟩

/-- The copy loop of `extractRow` for one row. -/
theorem extract_copy {x : DM α} {a : Mat α} (hx : x.Is a) {R q r : Nat} {m : Buf α} (hm : m.size = R * a.cols) (hr : r < R)
    (hq : q < a.rows) :
    Res.Ok (forLoop 0 a.cols m fun c m => x.mem.read (x.addr q c) >>= fun v => m.write (r * a.cols + c) v)
      (fun m' => m'.size = R * a.cols ∧ ∀ r' c, c < a.cols → m'.data (r' * a.cols + c) = if r' = r then a.cell q c else m.data (r' * a.cols + c)) := by
  refine forLoop_post (fun j m' => m'.size = R * a.cols ∧ ∀ r' c, c < a.cols →
    m'.data (r' * a.cols + c) = if r' = r ∧ c < j then a.cell q c else m.data (r' * a.cols + c)) 0 a.cols m (Nat.zero_le _)
    ⟨hm, by intro r' c _; simp⟩ ?_ ?_
  · rintro j m1 _ hj ⟨h1, h2⟩
    rw [hx.read hq hj]
    show Res.Ok (m1.write _ _) _
    rw [Buf.write_eq (by rw [h1]; exact rm_lt hr hj (Nat.le_refl _))]
    refine ⟨_, rfl, h1, fun r' c hc => ?_⟩
    rw [Buf.put_data, h2 r' c hc]
    by_cases e : r' = r ∧ c = j
    · obtain ⟨rfl, rfl⟩ := e; simp
    · rw [if_neg (by rw [rm_eq_iff hc hj]; exact e)]
      by_cases e2 : r' = r ∧ c < j
      · rw [if_pos e2, if_pos (by omega)]
      · rw [if_neg e2, if_neg (by omega)]
  · rintro m1 ⟨h1, h2⟩
    refine ⟨h1, fun r' c hc => ?_⟩
    rw [h2 r' c hc]
    by_cases e : r' = r <;> simp [e, hc]

/-- The selection is a column matrix whose values are adjacent in memory (a matrix of its own, not a column cut out of a
wider matrix), holding the positions `s`. -/
def IsPositions (sel : DM Int) (s : List Int) : Prop :=
  sel.Is ⟨s.length, 1, fun r _ => s.getD r 0⟩ ∧ sel.h.rowSkip = 1

theorem IsPositions.read {sel : DM Int} {s : List Int} (h : IsPositions sel s) {r : Nat} (hr : r < s.length) :
    sel.mem.read (sel.h.start + r) = .ok (s.getD r 0) := by
  have := h.1.read (r := r) (c := 0) hr (by simp)
  unfold DM.addr at this
  rw [h.2] at this
  simpa using this

/-- **C23 (rows).** If every position in the selection addresses a row, `extractRow` returns these rows in selection
order; if some position is out of range, it throws. -/
theorem C23_extractRow (junk : Nat → α) (x : DM α) (a : Mat α) (hx : x.Is a) (sel : DM Int) (s : List Int)
    (hsel : IsPositions sel s) :
    (∀ q : List Nat, q.length = s.length → (∀ i, i < s.length → Addresses (s.getD i 0) a.rows (q.getD i 0)) →
      Res.Ok (extractRow junk x sel) (fun y => y.Is (a.pickRows q))) ∧
    ((∃ v ∈ s, ∀ i, ¬ Addresses v a.rows i) → Res.Throws (extractRow junk x sel)) := by
  have e1 : x.numRows = a.rows := hx.rows
  have e3 : x.numCols = a.cols := hx.cols
  have s1 : sel.numRows = s.length := hsel.1.rows
  have s2 : sel.numCols = 1 := hsel.1.cols
  unfold extractRow
  rw [s1, e1, e3, s2, if_neg (by simp)]
  simp only [create_addr, create_h]
  constructor
  · intro q hlen hget
    refine Res.Ok.bind (fill_rows (Nat.zero_le _) rfl (a.pickRows q).cell _ ?_) ?_
    · intro r m _ hr hm
      rw [hsel.read hr, Res.ok_bind, resolvePos_ok (hget r hr)]
      exact extract_copy hx hm hr (hget r hr).1
    · rintro m ⟨hs, hd⟩
      rw [← hlen] at hs hd ⊢
      refine ⟨_, rfl, is_new hs fun r c hr hc => ?_⟩
      rw [hd r c hc, if_pos (by omega)]; rfl
  · rintro ⟨v, hv, hbad⟩
    obtain ⟨k, hk, rfl⟩ := List.getElem_of_mem hv
    refine Res.throws_bind (forLoop_throws (fun m => m.size = s.length * a.cols) 0 s.length _ rfl ?_ ?_)
    · intro r m _ hr hm
      rw [hsel.read hr, Res.ok_bind]
      by_cases h : ∃ i, Addresses (s.getD r 0) a.rows i
      · obtain ⟨i, hi⟩ := h
        left
        rw [resolvePos_ok hi]
        exact (extract_copy hx hm hr hi.1).mono fun m' h => h.1
      · right
        rw [resolvePos_throws (fun i hi => h ⟨i, hi⟩)]
        exact ⟨_, rfl⟩
    · refine ⟨k, Nat.zero_le _, hk, fun m hm => ?_⟩
      rw [hsel.read hk, Res.ok_bind, List.getD_eq_getElem _ _ hk, resolvePos_throws hbad]
      exact ⟨_, rfl⟩

/-- **C23 (columns).** The same for `extractCol`; with no rows at all, positions are not looked at, so throwing is claimed
for arguments with at least one row. -/
theorem C23_extractCol (junk : Nat → α) (x : DM α) (a : Mat α) (hx : x.Is a) (sel : DM Int) (s : List Int)
    (hsel : IsPositions sel s) :
    (∀ q : List Nat, q.length = s.length → (∀ i, i < s.length → Addresses (s.getD i 0) a.cols (q.getD i 0)) →
      Res.Ok (extractCol junk x sel) (fun y => y.Is (a.pickCols q))) ∧
    (0 < a.rows → (∃ v ∈ s, ∀ i, ¬ Addresses v a.cols i) → Res.Throws (extractCol junk x sel)) := by
  have e1 : x.numRows = a.rows := hx.rows
  have e3 : x.numCols = a.cols := hx.cols
  have s1 : sel.numRows = s.length := hsel.1.rows
  have s2 : sel.numCols = 1 := hsel.1.cols
  unfold extractCol
  rw [s1, e1, e3, s2, if_neg (by simp)]
  simp only [create_addr, create_h]
  constructor
  · intro q hlen hget
    refine Res.Ok.bind (fill_cells rfl (a.pickCols q).cell _ ?_) ?_
    · intro r c m hr hc hm
      rw [hsel.read hc, Res.ok_bind, resolvePos_ok (hget c hc), Res.ok_bind, hx.read hr (hget c hc).1, Res.ok_bind,
        Buf.write_eq (by rw [hm]; exact rm_lt hr hc (Nat.le_refl _))]
      rfl
    · rintro m ⟨hs, hd⟩
      rw [← hlen] at hs hd ⊢
      exact ⟨_, rfl, is_new hs fun r c hr hc => hd r c hr hc⟩
  · rintro hpos ⟨v, hv, hbad⟩
    obtain ⟨k, hk, rfl⟩ := List.getElem_of_mem hv
    have hin : ∀ r, r < a.rows → ∀ m : Buf α, m.size = a.rows * s.length →
        Res.Throws (forLoop 0 s.length m fun c m => do
          let v ← sel.mem.read (sel.h.start + c)
          let p ← resolvePos v a.cols
          let e ← x.mem.read (x.addr r p)
          m.write (r * s.length + c) e) := by
      intro r hr m hm
      refine forLoop_throws (fun m => m.size = a.rows * s.length) 0 s.length _ hm ?_ ?_
      · intro c m _ hc hm
        rw [hsel.read hc, Res.ok_bind]
        by_cases h : ∃ i, Addresses (s.getD c 0) a.cols i
        · obtain ⟨i, hi⟩ := h
          left
          rw [resolvePos_ok hi, Res.ok_bind, hx.read hr hi.1, Res.ok_bind,
            Buf.write_eq (by rw [hm]; exact rm_lt hr hc (Nat.le_refl _))]
          exact ⟨_, rfl, hm⟩
        · right
          rw [resolvePos_throws (fun i hi => h ⟨i, hi⟩)]
          exact ⟨_, rfl⟩
      · refine ⟨k, Nat.zero_le _, hk, fun m hm => ?_⟩
        rw [hsel.read hk, Res.ok_bind, List.getD_eq_getElem _ _ hk, resolvePos_throws hbad]
        exact ⟨_, rfl⟩
    refine Res.throws_bind (forLoop_throws (fun m => m.size = a.rows * s.length) 0 a.rows _ rfl ?_ ?_)
    · intro r m _ hr hm
      exact .inr (hin r hr m hm)
    · exact ⟨0, Nat.le_refl _, hpos, fun m hm => hin 0 hpos m hm⟩

/-- Why the positions must be adjacent in memory: with the selection `[[0,7],[1,7]][:, 0]`, the kernel reads the second
position from the neighbouring column (7) and throws although both positions are valid. -/
theorem C23_strided_selection_misread :
    ∃ sel : Hdr, (Hdr.new 2 2).view 0 2 0 1 = .ok sel ∧
      DM.get (⟨sel, Buf.ofList [0, 7, 1, 7]⟩ : DM Int) 1 0 = .ok 1 ∧
      Res.Throws (extractRow (fun _ => 0) (⟨Hdr.new 2 1, ⟨2, fun i => i⟩⟩ : DM Nat) ⟨sel, Buf.ofList [0, 7, 1, 7]⟩) :=
  ⟨_, rfl, rfl, _, rfl⟩

/-! ### C24: range insertion -/

/-- What an insertion range `l:u` over `n` rows means: a negative bound counts from the end; `l:0` with negative `l`
addresses the single row `l`. -/
def insUpper (l u : Int) (n : Nat) : Int := if u < 0 then u + n else if u = 0 ∧ l < 0 then l + n + 1 else u

/-- The range and the shape of the inserted matrix are acceptable. -/
def InsertOk (l u : Int) (n : Nat) (k : Nat) : Prop :=
  0 ≤ rangeLower l n ∧ rangeLower l n ≤ insUpper l u n ∧ insUpper l u n ≤ n ∧
  (rangeLower l n < n ∨ rangeLower l n = 0) ∧ insUpper l u n - rangeLower l n = k

theorem sizeT_nonneg {i : Int} (h : 0 ≤ i) (h2 : i < 2 ^ 64) : (sizeT i : Int) = i := by
  unfold sizeT; omega

theorem sizeT_neg {i : Int} (h : i < 0) (h2 : -2 ^ 64 ≤ i) : (sizeT i : Int) = i + 2 ^ 64 := by
  unfold sizeT; omega

theorem insert_resolve {l u : Int} {n o k ok : Nat} (hn : n < 2 ^ 63) (hk : k < 2 ^ 63) (hl : -2 ^ 63 ≤ l ∧ l < 2 ^ 63) (hu : -2 ^ 63 ≤ u ∧ u < 2 ^ 63) :
    insertInvalid (resolveInsert l u n).1 (resolveInsert l u n).2 n o k ok = false ↔
      InsertOk l u n k ∧ ok = o := by
  have key : ∀ lo hi : Nat, insertInvalid lo hi n o k ok = false ↔
      (lo ≤ hi ∧ hi ≤ n ∧ (lo < n ∨ lo = 0) ∧ hi - lo = k) ∧ ok = o := by
    intro lo hi
    unfold insertInvalid
    simp only [Bool.or_eq_false_iff, Bool.and_eq_false_iff, decide_eq_false_iff_not]
    omega
  rw [key]
  unfold InsertOk rangeLower insUpper
  have hlo : ((resolveInsert l u n).1 : Int) = if l < 0 then (if (n : Int) + l < 0 then n + l + 2 ^ 64 else n + l) else l := by
    unfold resolveInsert
    simp only
    by_cases h : l < 0
    · simp only [h, if_true]
      by_cases h2 : (n : Int) + l < 0
      · rw [if_pos h2, sizeT_neg h2 (by omega)]
      · rw [if_neg h2, sizeT_nonneg (by omega) (by omega)]
    · simp only [h, if_false]
      rw [sizeT_nonneg (by omega) (by omega)]
  have hhi : ((resolveInsert l u n).2 : Int) = if l < 0 ∧ u = 0 then (((resolveInsert l u n).1 : Int) + 1) % 2 ^ 64
      else if u < 0 then (if (n : Int) + u < 0 then n + u + 2 ^ 64 else n + u) else u := by
    show (((if l < 0 ∧ u = 0 then ((resolveInsert l u n).1 + 1) % 2 ^ 64 else
        (if u < 0 then sizeT (n + u) else sizeT u)) : Nat) : Int) = _
    by_cases h : l < 0 ∧ u = 0
    · rw [if_pos h, if_pos h]; norm_cast
    · rw [if_neg h, if_neg h]
      by_cases h1 : u < 0
      · rw [if_pos h1, if_pos h1]
        by_cases h2 : (n : Int) + u < 0
        · rw [if_pos h2, sizeT_neg h2 (by omega)]
        · rw [if_neg h2, sizeT_nonneg (by omega) (by omega)]
      · rw [if_neg h1, if_neg h1, sizeT_nonneg (by omega) (by omega)]
  generalize (resolveInsert l u n).1 = lo at *
  generalize (resolveInsert l u n).2 = hi at *
  constructor
  · rintro ⟨h, rfl⟩
    refine ⟨?_, rfl⟩
    split_ifs at * <;> omega
  · rintro ⟨h, rfl⟩
    refine ⟨?_, rfl⟩
    split_ifs at * <;> omega

theorem insert_resolve_val {l u : Int} {n k : Nat} (hn : n < 2 ^ 63) (hl : -2 ^ 63 ≤ l ∧ l < 2 ^ 63)
    (hu : -2 ^ 63 ≤ u ∧ u < 2 ^ 63) (h : InsertOk l u n k) :
    resolveInsert l u n = ((rangeLower l n).toNat, (insUpper l u n).toNat) := by
  unfold InsertOk at h
  unfold resolveInsert
  have e1 : (if l < 0 then sizeT (n + l) else sizeT l) = (rangeLower l n).toNat := by
    unfold rangeLower insUpper at *
    unfold sizeT
    split_ifs at * <;> omega
  simp only [e1, Prod.mk.injEq, true_and]
  unfold rangeLower insUpper at *
  unfold sizeT
  split_ifs at * <;> omega

/-- **C24 (rows).** `insertRow` succeeds exactly on acceptable ranges and shapes and then returns the argument with exactly
the addressed rows replaced; otherwise it throws. (`n < 2^63`; the bounds are `int64_t`.) -/
theorem C24_insertRow (junk : Nat → α) (x y : DM α) (a b : Mat α) (hx : x.Is a) (hy : y.Is b) (l u : Int)
    (hn : a.rows < 2 ^ 63) (hk : b.rows < 2 ^ 63) (hl : -2 ^ 63 ≤ l ∧ l < 2 ^ 63) (hu : -2 ^ 63 ≤ u ∧ u < 2 ^ 63) :
    (InsertOk l u a.rows b.rows ∧ b.cols = a.cols → Res.Ok (insertRow junk x y l u) (fun z =>
      z.Is (a.replaceRows b (rangeLower l a.rows).toNat (insUpper l u a.rows).toNat))) ∧
    (¬ (InsertOk l u a.rows b.rows ∧ b.cols = a.cols) → Res.Throws (insertRow junk x y l u)) := by
  have e1 : x.numRows = a.rows := hx.rows
  have e2 : y.numRows = b.rows := hy.rows
  have e3 : x.numCols = a.cols := hx.cols
  have e4 : y.numCols = b.cols := hy.cols
  unfold insertRow
  rw [e1, e2, e3, e4]
  have hval := insert_resolve (o := a.cols) (ok := b.cols) hn hk hl hu
  constructor
  · intro hok
    have hr := insert_resolve_val hn hl hu hok.1
    have hv := hval.2 hok
    rw [hr] at hv ⊢
    simp only [hv, Bool.false_eq_true, if_false, create_addr, create_h]
    obtain ⟨⟨k1, k2, k3, k4, k5⟩, hcols⟩ := hok
    generalize hlo : (rangeLower l a.rows).toNat = lo at *
    generalize hhi : (insUpper l u a.rows).toNat = hi at *
    have g1 : lo ≤ hi := by omega
    have g2 : hi ≤ a.rows := by omega
    have g3 : hi - lo = b.rows := by omega
    have rowcopy : ∀ (z : DM α) (d : Mat α), z.Is d → d.cols = a.cols → ∀ (f : Nat → Nat) (r : Nat) (m : Buf α),
        r < a.rows → f r < d.rows → m.size = a.rows * a.cols →
        Res.Ok (z.mem.copy (z.addr (f r) 0) m (r * a.cols + 0) a.cols) (fun m' => m'.size = a.rows * a.cols ∧
          ∀ r' c, c < a.cols → m'.data (r' * a.cols + c) = if r' = r then d.cell (f r) c else m.data (r' * a.cols + c)) := by
      intro z d hz hd f r m hr hf hm
      refine (copy_seg hz (c0 := 0) (n := a.cols) (r := f r) (r' := r) (d0 := 0) hm (.inr hf) (by omega) (.inr hr)
        (by omega) rfl rfl).mono ?_
      rintro m' ⟨h1, h2⟩
      refine ⟨h1, fun r' c hc => ?_⟩
      rw [h2 r' c hc]
      by_cases e : r' = r
      · rw [if_pos ⟨e, by omega, by omega⟩, if_pos e]; congr 1; omega
      · rw [if_neg (by omega), if_neg e]
    refine Res.Ok.bind (fill_rows (rows := a.rows) (Nat.zero_le _) rfl a.cell _
      (fun r m _ hr hm => rowcopy x a hx rfl id r m (by omega) (by show r < a.rows; omega) hm)) ?_
    rintro m1 ⟨hs1, hd1⟩
    refine Res.Ok.bind (fill_rows g1 hs1 (fun r c => b.cell (r - lo) c) _
      (fun r m h1 hr hm => rowcopy y b hy hcols (fun r => r - lo) r m (by omega) (by show r - lo < b.rows; omega) hm)) ?_
    rintro m2 ⟨hs2, hd2⟩
    refine Res.Ok.bind (fill_rows g2 hs2 a.cell _
      (fun r m _ hr hm => rowcopy x a hx rfl id r m (by omega) (by show r < a.rows; omega) hm)) ?_
    rintro m3 ⟨hs3, hd3⟩
    refine ⟨_, rfl, is_new hs3 fun r c hr hc => ?_⟩
    rw [hd3 r c hc, hd2 r c hc, hd1 r c hc]
    split_ifs <;> first | rfl | omega
  · intro hno
    have : insertInvalid (resolveInsert l u a.rows).1 (resolveInsert l u a.rows).2 a.rows a.cols b.rows b.cols = true := by
      rw [← Bool.not_eq_false, hval]; exact hno
    exact ⟨"invalid arguments passed to InsertRow", by simp only [this]; rfl⟩

/-- **C24 (columns).** -/
theorem C24_insertCol (junk : Nat → α) (x y : DM α) (a b : Mat α) (hx : x.Is a) (hy : y.Is b) (l u : Int)
    (hn : a.cols < 2 ^ 63) (hk : b.cols < 2 ^ 63) (hl : -2 ^ 63 ≤ l ∧ l < 2 ^ 63) (hu : -2 ^ 63 ≤ u ∧ u < 2 ^ 63) :
    (InsertOk l u a.cols b.cols ∧ b.rows = a.rows → Res.Ok (insertCol junk x y l u) (fun z =>
      z.Is (a.replaceCols b (rangeLower l a.cols).toNat (insUpper l u a.cols).toNat))) ∧
    (¬ (InsertOk l u a.cols b.cols ∧ b.rows = a.rows) → Res.Throws (insertCol junk x y l u)) := by
  have e1 : x.numRows = a.rows := hx.rows
  have e2 : y.numRows = b.rows := hy.rows
  have e3 : x.numCols = a.cols := hx.cols
  have e4 : y.numCols = b.cols := hy.cols
  unfold insertCol
  rw [e1, e2, e3, e4]
  have hval := insert_resolve (o := a.rows) (ok := b.rows) hn hk hl hu
  constructor
  · intro hok
    have hr := insert_resolve_val hn hl hu hok.1
    have hv := hval.2 hok
    rw [hr] at hv ⊢
    simp only [hv, Bool.false_eq_true, if_false, create_addr, create_h]
    obtain ⟨⟨k1, k2, k3, k4, k5⟩, hrows⟩ := hok
    generalize hlo : (rangeLower l a.cols).toNat = lo at *
    generalize hhi : (insUpper l u a.cols).toNat = hi at *
    have g1 : lo ≤ hi := by omega
    have g2 : hi ≤ a.cols := by omega
    have g3 : hi - lo = b.cols := by omega
    refine Res.Ok.bind (fill_rows (rows := a.rows) (Nat.zero_le _) rfl (a.replaceCols b lo hi).cell _ ?_) ?_
    · intro r m _ hr hm
      refine (copy_seg hx (c0 := 0) (n := lo) (r := r) (r' := r) (d0 := 0) hm (.inr hr) (by omega) (.inr hr) (by omega) rfl rfl).bind ?_
      rintro m1 ⟨hs1, hd1⟩
      refine (copy_seg hy (c0 := 0) (n := b.cols) (r := r) (r' := r) (d0 := lo) hs1 (.inr (by omega)) (by omega) (.inr hr) (by omega) rfl (by omega)).bind ?_
      rintro m2 ⟨hs2, hd2⟩
      refine (copy_seg hx (c0 := hi) (n := a.cols - hi) (r := r) (r' := r) (d0 := hi) hs2 (.inr hr) (by omega) (.inr hr) (by omega)
        (by unfold DM.addr; omega) (by omega)).mono ?_
      rintro m3 ⟨hs3, hd3⟩
      refine ⟨hs3, fun r' c hc => ?_⟩
      rw [hd3 r' c hc, hd2 r' c hc, hd1 r' c hc]
      simp only [Mat.replaceCols]
      by_cases e : r' = r
      · subst e
        simp only [true_and, if_true]
        have z1 : hi + (c - hi) = c ∨ c < hi := by omega
        by_cases c1 : c < lo
        · rw [if_neg (by omega), if_neg (by omega), if_pos (by omega), if_neg (by omega)]; congr 1; omega
        · by_cases c2 : c < hi
          · rw [if_neg (by omega), if_pos (by omega), if_pos (by omega)]; congr 1; omega
          · rw [if_pos (by omega), if_neg (by omega)]; congr 1; omega
      · simp [e]
    · rintro m ⟨hs, hd⟩
      refine ⟨_, rfl, is_new hs fun r c hr hc => ?_⟩
      rw [hd r c hc, if_pos ⟨Nat.zero_le _, hr⟩]; rfl
  · intro hno
    have : insertInvalid (resolveInsert l u a.cols).1 (resolveInsert l u a.cols).2 a.cols a.rows b.cols b.rows = true := by
      rw [← Bool.not_eq_false, hval]; exact hno
    exact ⟨"invalid arguments passed to InsertCol", by simp only [this]; rfl⟩

/-- Slicing and insertion disagree on `l:0` with negative `l`: `X[-2:0, ]` as a right-hand side selects the last two of
three rows, as a left-hand side it addresses only one row. -/
theorem C24_negative_range_to_zero_differs_from_slicing :
    rangeLower (-2) 3 = 1 ∧ rangeUpper (-2) 0 3 = 3 ∧ insUpper (-2) 0 3 = 2 := by decide

/-! ### C25: transposition -/

/-- **C25.** `transpose` of any dense matrix or view has swapped dimensions and coordinates. -/
theorem C25_transpose (junk : Nat → α) (x : DM α) (a : Mat α) (hx : x.Is a) :
    Res.Ok (transpose junk x) (fun y => y.Is a.transpose) := by
  have e1 : x.numRows = a.rows := hx.rows
  have e3 : x.numCols = a.cols := hx.cols
  unfold transpose
  rw [e1, e3]
  by_cases hv : (a.rows = 1 ∨ a.cols = 1) ∧ x.h.isView = false
  · rw [if_pos hv]
    have hskip : x.h.rowSkip = a.cols := (hx.wf.orig hv.2).trans hx.cols
    have idx : ∀ r c, r < a.cols → c < a.rows → x.h.base + r * a.rows + c = x.h.base + c * x.h.rowSkip + r := by
      intro r c hr hc
      rw [hskip]
      rcases hv.1 with h1 | h1
      · rw [h1] at hc ⊢
        have : c = 0 := by omega
        subst this; omega
      · rw [h1] at hr ⊢
        have : r = 0 := by omega
        subst this; omega
    refine ⟨_, rfl, is_of_data ⟨Nat.le_refl _, rfl, ?_, fun _ => rfl⟩ rfl rfl ?_⟩
    · intro r c hr hc
      simp only at hr hc ⊢
      rw [idx r c hr hc]
      exact hx.inb hc hr
    · intro r c hr hc
      simp only [Mat.transpose] at hr hc ⊢
      rw [idx r c hr hc]
      exact hx.data hc hr
  · rw [if_neg hv]
    have hsk : (DM.create a.cols a.rows junk).h.rowSkip = a.rows := rfl
    simp only [create_start, hsk, Nat.zero_add]
    refine Res.Ok.bind (P := fun m => m.size = a.cols * a.rows ∧ ∀ r c, r < a.cols → c < a.rows → m.data (r * a.rows + c) = a.cell c r)
      (forLoop_post (fun i m => m.size = a.cols * a.rows ∧ ∀ r c, r < a.cols → c < i → m.data (r * a.rows + c) = a.cell c r)
        0 a.rows _ (Nat.zero_le _) ⟨rfl, by intro r c _ h; omega⟩ ?_ (fun m h => h)) ?_
    · rintro i m _ hi ⟨h1, h2⟩
      refine forLoop_post (fun j m => m.size = a.cols * a.rows ∧ (∀ r c, r < a.cols → c < i → m.data (r * a.rows + c) = a.cell c r) ∧
        ∀ r, r < j → m.data (r * a.rows + i) = a.cell i r) 0 a.cols m (Nat.zero_le _) ⟨h1, h2, by intro r h; omega⟩ ?_ ?_
      · rintro j m _ hj ⟨g1, g2, g3⟩
        rw [hx.read hi hj, Res.ok_bind]
        have hb := rm_lt hj hi (Nat.le_refl a.rows)
        rw [Buf.write_eq (by rw [g1]; omega)]
        refine ⟨_, rfl, g1, ?_, ?_⟩
        · intro r c hr hc
          rw [Buf.put_data, if_neg]
          · exact g2 r c hr hc
          · intro e
            have := rm_inj (s := a.rows) (r := r) (r' := j) (c := c) (c' := i) (by omega) hi (by omega)
            omega
        · intro r hr
          rw [Buf.put_data]
          by_cases e : r = j
          · subst e; rw [if_pos (by omega)]
          · rw [if_neg]
            · exact g3 r (by omega)
            · intro e'
              have := rm_inj (s := a.rows) (r := r) (r' := j) (c := i) (c' := i) hi hi (by omega)
              omega
      · rintro m ⟨g1, g2, g3⟩
        refine ⟨g1, fun r c hr hc => ?_⟩
        by_cases e : c = i
        · subst e; exact g3 r hr
        · exact g2 r c hr (by omega)
    · rintro m ⟨hs, hd⟩
      exact ⟨_, rfl, is_new hs fun r c hr hc => hd r c hr hc⟩

/-- Transposing twice gives back the original contents. -/
theorem C25_transpose_twice (junk junk' : Nat → α) (x : DM α) (a : Mat α) (hx : x.Is a) :
    Res.Ok (transpose junk x) (fun y => Res.Ok (transpose junk' y) (fun z => z.Is a)) :=
  (C25_transpose junk x a hx).mono fun y hy => (C25_transpose junk' y _ hy).mono fun _ hz => hz.congr ⟨rfl, rfl, fun _ _ _ _ => rfl⟩

/-! ### The hypotheses are met by concrete, non-trivial matrices -/

/-- A 3×4 matrix, and the strided 2×2 view of its rows 1..2 and columns 1..2. -/
def exM : DM Nat := ⟨Hdr.new 3 4, ⟨12, fun i => i⟩⟩

theorem exM_is : exM.Is ⟨3, 4, fun r c => r * 4 + c⟩ := is_new rfl fun _ _ _ _ => rfl

example : Res.Ok (exM.h.view 1 3 1 3) (fun v => DM.Is ⟨v, exM.mem⟩ ⟨2, 2, fun r c => (1 + r) * 4 + (1 + c)⟩) :=
  (exM_is.view (by decide) (by decide)).mono fun _ h => h

example : RangeOk (-2) 0 3 ∧ ¬ RangeOk (-4) 0 3 ∧ InsertOk (-2) 0 3 1 := by
  unfold RangeOk InsertOk; decide

example : IsSelection ⟨Hdr.new 3 1, ⟨3, fun i => if i = 1 then 0 else 1⟩⟩ 3 (fun i => i != 1) :=
  is_new rfl fun r c hr hc => by
    have : c = 0 := by omega
    subst this
    match r, hr with
    | 0, _ => rfl
    | 1, _ => rfl
    | 2, _ => rfl

example : IsPositions ⟨Hdr.new 2 1, Buf.ofList [-1, 0]⟩ [-1, 0] :=
  ⟨is_new rfl fun r c hr hc => by
    have : c = 0 := by omega
    subst this
    simp [Buf.ofList], rfl⟩

end Verif.Dense
