/-
  Well-formed dense matrices and what they contain.
-/
import Verif.Dense.Windows

namespace Verif.Dense
open Verif
variable {α : Type _}

/-- Well-formed matrix object: rows do not overlap, all cells lie inside the allocation, and the object is not a shrunk
view. New matrices and (repeated) slices of them are well-formed, see `wf_create` and `Is.view`. -/
structure DM.WF (x : DM α) : Prop where
  skip : x.h.numCols ≤ x.h.rowSkip
  full : x.h.bufElems = x.h.numRows * x.h.rowSkip
  inb : ∀ r c, r < x.h.numRows → c < x.h.numCols → x.h.base + r * x.h.rowSkip + c < x.mem.size
  orig : x.h.isView = false → x.h.rowSkip = x.h.numCols

/-- The object `x` is well-formed and `get` shows exactly the mathematical matrix `a`. -/
def DM.Is (x : DM α) (a : Mat α) : Prop :=
  x.WF ∧ x.numRows = a.rows ∧ x.numCols = a.cols ∧
  ∀ r c, r < a.rows → c < a.cols → x.get r c = .ok (a.cell r c)

theorem DM.WF.start {x : DM α} (w : x.WF) : x.h.start = x.h.base := by
  simp [Hdr.start, Hdr.isPartial, w.full]

theorem DM.WF.get {x : DM α} (w : x.WF) {r c : Nat} (hr : r < x.h.numRows) (hc : c < x.h.numCols) :
    x.get r c = .ok (x.mem.data (x.h.base + r * x.h.rowSkip + c)) := by
  have h1 : ¬ x.h.numRows ≤ r := by omega
  have h2 : ¬ x.h.numCols ≤ c := by omega
  have hp : x.h.isPartial = false := by simp [Hdr.isPartial, w.full]
  have hb := w.inb r c hr hc
  unfold DM.get Hdr.get Hdr.pos
  rw [if_neg h1, if_neg h2, hp, w.start]
  show x.mem.read _ = _
  simp only [Bool.false_eq_true, if_false]
  rw [Buf.read_eq (by omega)]
  congr 2; omega

theorem DM.Is.wf {x : DM α} {a : Mat α} (h : x.Is a) : x.WF := h.1
theorem DM.Is.rows {x : DM α} {a : Mat α} (h : x.Is a) : x.h.numRows = a.rows := h.2.1
theorem DM.Is.cols {x : DM α} {a : Mat α} (h : x.Is a) : x.h.numCols = a.cols := h.2.2.1

theorem DM.Is.data {x : DM α} {a : Mat α} (h : x.Is a) {r c : Nat} (hr : r < a.rows) (hc : c < a.cols) :
    x.mem.data (x.h.base + r * x.h.rowSkip + c) = a.cell r c := by
  have h1 := h.2.2.2 r c hr hc
  rw [h.wf.get (by rw [h.rows]; exact hr) (by rw [h.cols]; exact hc)] at h1
  injection h1

theorem DM.Is.inb {x : DM α} {a : Mat α} (h : x.Is a) {r c : Nat} (hr : r < a.rows) (hc : c < a.cols) :
    x.h.base + r * x.h.rowSkip + c < x.mem.size :=
  h.wf.inb r c (by rw [h.rows]; exact hr) (by rw [h.cols]; exact hc)

/-- Reading a cell through the raw pointer. -/
theorem DM.Is.read {x : DM α} {a : Mat α} (h : x.Is a) {r c : Nat} (hr : r < a.rows) (hc : c < a.cols) :
    x.mem.read (x.addr r c) = .ok (a.cell r c) := by
  unfold DM.addr
  rw [h.wf.start, Buf.read_eq (h.inb hr hc), h.data hr hc]

theorem is_of_data {x : DM α} {a : Mat α} (w : x.WF) (hr : x.h.numRows = a.rows) (hc : x.h.numCols = a.cols)
    (hd : ∀ r c, r < a.rows → c < a.cols → x.mem.data (x.h.base + r * x.h.rowSkip + c) = a.cell r c) : x.Is a := by
  refine ⟨w, hr, hc, fun r c h1 h2 => ?_⟩
  rw [w.get (by rw [hr]; exact h1) (by rw [hc]; exact h2), hd r c h1 h2]

theorem DM.Is.congr {x : DM α} {a b : Mat α} (h : x.Is a) (e : a.Same b) : x.Is b := by
  obtain ⟨e1, e2, e3⟩ := e
  refine ⟨h.1, h.2.1.trans e1, h.2.2.1.trans e2, fun r c hr hc => ?_⟩
  rw [h.2.2.2 r c (by omega) (by omega), e3 r c (by omega) (by omega)]

/-- The mathematical matrix is determined by the object. -/
theorem DM.Is.same {x : DM α} {a b : Mat α} (h : x.Is a) (h' : x.Is b) : a.Same b := by
  have e1 : a.rows = b.rows := h.rows.symm.trans h'.rows
  have e2 : a.cols = b.cols := h.cols.symm.trans h'.cols
  refine ⟨e1, e2, fun r c hr hc => ?_⟩
  rw [← h.data hr hc, h'.data (by omega) (by omega)]

/-- A fresh result buffer of `rows × cols` cells, filled as described, is the described matrix. -/
theorem is_new {rows cols : Nat} {m : Buf α} (hs : m.size = rows * cols) {f : Nat → Nat → α}
    (hd : ∀ r c, r < rows → c < cols → m.data (r * cols + c) = f r c) :
    DM.Is ⟨Hdr.new rows cols, m⟩ ⟨rows, cols, f⟩ := by
  refine is_of_data ⟨Nat.le_refl _, rfl, ?_, fun _ => rfl⟩ rfl rfl ?_
  · intro r c hr hc
    simp only [Hdr.new] at *
    rw [hs]
    have := rm_lt hr hc (Nat.le_refl cols)
    omega
  · intro r c hr hc
    simp only [Hdr.new, Nat.zero_add]
    exact hd r c hr hc

/-- Every well-formed object is some matrix. -/
theorem DM.WF.is {x : DM α} (w : x.WF) :
    x.Is ⟨x.h.numRows, x.h.numCols, fun r c => x.mem.data (x.h.base + r * x.h.rowSkip + c)⟩ :=
  is_of_data w rfl rfl fun _ _ _ _ => rfl

/-- Slicing: a legal range gives a well-formed view showing exactly that window. -/
theorem DM.Is.view {x : DM α} {a : Mat α} (h : x.Is a) {rl ru cl cu : Int}
    (l1 : LegalRange rl ru a.rows) (l2 : LegalRange cl cu a.cols) :
    Res.Ok (x.h.view rl ru cl cu) (fun v =>
      DM.Is ⟨v, x.mem⟩ (a.window rl.toNat ru.toNat cl.toNat cu.toNat)) := by
  have hr := h.rows; have hc := h.cols
  have v1 : Hdr.validRange rl ru x.h.numRows = true := by rw [hr]; exact (validRange_iff _ _ _).2 l1
  have v2 : Hdr.validRange cl cu x.h.numCols = true := by rw [hc]; exact (validRange_iff _ _ _).2 l2
  have hv : x.h.view rl ru cl cu = .ok ⟨(ru - rl).toNat, (cu - cl).toNat, x.h.rowSkip,
      x.h.base + (rl.toNat * x.h.rowSkip + cl.toNat), rl.toNat, cl.toNat, (ru - rl).toNat * x.h.rowSkip, true, 0, 0⟩ := by
    simp [Hdr.view, v1, v2]
  refine ⟨_, hv, ?_⟩
  obtain ⟨a1, a2, a3, a4⟩ := l1
  obtain ⟨b1, b2, b3, b4⟩ := l2
  have hs := h.wf.skip
  have e : ∀ r c, x.h.base + (rl.toNat * x.h.rowSkip + cl.toNat) + r * x.h.rowSkip + c
      = x.h.base + (rl.toNat + r) * x.h.rowSkip + (cl.toNat + c) := by intro r c; ring
  refine is_of_data ⟨?_, rfl, ?_, fun h => nomatch h⟩ ?_ ?_ ?_
  · simp only; omega
  · intro r c h1 h2
    simp only at h1 h2 ⊢
    rw [e]
    exact h.inb (by omega) (by omega)
  · simp only [Mat.window]; omega
  · simp only [Mat.window]; omega
  · intro r c h1 h2
    simp only [Mat.window] at h1 h2 ⊢
    rw [e]
    exact h.data (by omega) (by omega)

theorem DM.Is.view_throws {x : DM α} {a : Mat α} (h : x.Is a) {rl ru cl cu : Int}
    (hn : ¬ (LegalRange rl ru a.rows ∧ LegalRange cl cu a.cols)) : Res.Throws (x.h.view rl ru cl cu) := by
  have e1 := validRange_iff rl ru x.h.numRows
  have e2 := validRange_iff cl cu x.h.numCols
  rw [h.rows] at e1; rw [h.cols] at e2
  by_cases l1 : LegalRange rl ru a.rows
  · have l2 : ¬ LegalRange cl cu a.cols := fun l2 => hn ⟨l1, l2⟩
    have : Hdr.validRange cl cu a.cols = false := by simpa [← e2] using l2
    exact ⟨"invalid column range", by simp [Hdr.view, h.rows, h.cols, e1.2 l1, this]⟩
  · have : Hdr.validRange rl ru a.rows = false := by simpa [← e1] using l1
    exact ⟨"invalid row range", by simp [Hdr.view, h.rows, this]⟩

/-- A matrix created with `zero = true` is all zero. -/
theorem is_createZero (rows cols : Nat) (zero : α) : (DM.createZero rows cols zero).Is ⟨rows, cols, fun _ _ => zero⟩ :=
  is_new rfl fun _ _ _ _ => rfl

/-! ### Loop rules for filling a fresh row-major result -/

/-- Filling cell by cell in row-major order. -/
theorem fill_cells {rows cols : Nat} {m : Buf α} (hs : m.size = rows * cols) (f : Nat → Nat → α)
    (body : Nat → Nat → Buf α → Res (Buf α))
    (hb : ∀ r c (m : Buf α), r < rows → c < cols → m.size = rows * cols →
      body r c m = .ok (m.put (r * cols + c) (f r c))) :
    Res.Ok (forLoop 0 rows m fun r m => forLoop 0 cols m fun c m => body r c m)
      (fun m' => m'.size = rows * cols ∧ ∀ r c, r < rows → c < cols → m'.data (r * cols + c) = f r c) := by
  refine forLoop_post (fun i m' => m'.size = rows * cols ∧ ∀ r c, r < i → c < cols → m'.data (r * cols + c) = f r c)
    0 rows m (Nat.zero_le _) ⟨hs, by intro r c h; omega⟩ ?_ (fun s h => h)
  intro i m1 _ hi ⟨h1, h2⟩
  refine forLoop_post (fun j m' => m'.size = rows * cols ∧ (∀ r c, r < i → c < cols → m'.data (r * cols + c) = f r c) ∧
      ∀ c, c < j → m'.data (i * cols + c) = f i c) 0 cols m1 (Nat.zero_le _) ⟨h1, h2, by intro c h; omega⟩ ?_ ?_
  · intro j m2 _ hj ⟨g1, g2, g3⟩
    refine ⟨_, hb i j m2 hi hj g1, g1, ?_, ?_⟩
    · intro r c hr hc
      rw [Buf.put_data, if_neg (by rw [rm_eq_iff hc hj]; omega)]
      exact g2 r c hr hc
    · intro c hc
      rw [Buf.put_data]
      by_cases e : c = j
      · subst e; simp
      · rw [if_neg (by omega)]; exact g3 c (by omega)
  · rintro m2 ⟨g1, g2, g3⟩
    refine ⟨g1, fun r c hr hc => ?_⟩
    by_cases e : r = i
    · subst e; exact g3 c hc
    · exact g2 r c (by omega) hc

/-- Filling row by row. -/
theorem fill_rows {lo hi rows cols : Nat} {m : Buf α} (hle : lo ≤ hi) (hs : m.size = rows * cols)
    (f : Nat → Nat → α) (body : Nat → Buf α → Res (Buf α))
    (hb : ∀ r (m : Buf α), lo ≤ r → r < hi → m.size = rows * cols →
      Res.Ok (body r m) (fun m' => m'.size = rows * cols ∧
        ∀ r' c, c < cols → m'.data (r' * cols + c) = if r' = r then f r c else m.data (r' * cols + c))) :
    Res.Ok (forLoop lo hi m body)
      (fun m' => m'.size = rows * cols ∧
        ∀ r c, c < cols → m'.data (r * cols + c) = if lo ≤ r ∧ r < hi then f r c else m.data (r * cols + c)) := by
  refine forLoop_post (fun i m' => m'.size = rows * cols ∧
      ∀ r c, c < cols → m'.data (r * cols + c) = if lo ≤ r ∧ r < i then f r c else m.data (r * cols + c))
    lo hi m hle ⟨hs, ?_⟩ ?_ (fun s h => h)
  · intro r c _; rw [if_neg (by omega)]
  · intro i m1 hlo hi' ⟨h1, h2⟩
    refine (hb i m1 hlo hi' h1).mono ?_
    rintro m2 ⟨g1, g2⟩
    refine ⟨g1, fun r c hc => ?_⟩
    rw [g2 r c hc]
    by_cases e : r = i
    · subst e; simp [hlo]
    · rw [if_neg e, h2 r c hc]
      by_cases h : lo ≤ r ∧ r < i
      · rw [if_pos h, if_pos (by omega)]
      · rw [if_neg h, if_neg (by omega)]

end Verif.Dense
