/-
  C19: building a dense matrix by in-order append; comparison of dense matrices (part of C18).
-/
import Verif.Dense.Lemmas

namespace Verif.Dense
open Verif
variable {α : Type _}

/-- `prepareAppend(); append(..) for each triple; finishAppend()` on the matrix object `x`. -/
def buildByAppend (x : DM α) (zero : α) (l : List (Nat × Nat × α)) : Res (DM α) := do
  let (h, m) ← x.h.prepareAppend x.mem zero
  let (h, m) ← l.foldlM (fun (s : Hdr × Buf α) (t : Nat × Nat × α) => s.1.append s.2 zero t.1 t.2.1 t.2.2) (h, m)
  let (h, m) ← h.finishAppend m zero
  .ok ⟨h, m⟩

/-- `(r, c)` comes strictly before `(r', c')` in row-major order. -/
def Before (a b : Nat × Nat × α) : Prop := a.1 < b.1 ∨ (a.1 = b.1 ∧ a.2.1 < b.2.1)

/-- State invariant while appending: `done` are the cells appended so far. -/
private structure AppInv (R C b : Nat) (m0 : Buf α) (zero : α) (s : Hdr × Buf α) (done : List (Nat × Nat × α)) : Prop where
  rows : s.1.numRows = R
  cols : s.1.numCols = C
  skip : s.1.rowSkip = C
  base : s.1.base = b
  buf : s.1.bufElems = R * C
  size : s.2.size = m0.size
  lastR : s.1.lastR < R
  lastC : s.1.lastC < C
  vals : ∀ t ∈ done, s.2.data (b + (t.1 * C + t.2.1)) = t.2.2
  inrange : ∀ t ∈ done, t.1 < R ∧ t.2.1 < C
  le : ∀ t ∈ done, t.1 * C + t.2.1 ≤ s.1.lastR * C + s.1.lastC
  zeros : ∀ r c, r < R → c < C → r * C + c ≤ s.1.lastR * C + s.1.lastC →
    (∀ t ∈ done, ¬ (t.1 = r ∧ t.2.1 = c)) → s.2.data (b + (r * C + c)) = zero
  outside : ∀ j, ¬ (b ≤ j ∧ j < b + R * C) → s.2.data j = m0.data j

private theorem app_step {R C b : Nat} {m0 : Buf α} {zero : α} {s : Hdr × Buf α} {done : List (Nat × Nat × α)}
    (inv : AppInv R C b m0 zero s done) (hsz : b + R * C ≤ m0.size) {r c : Nat} {v : α}
    (hr : r < R) (hc : c < C)
    (hfirst : s.1.lastR * C + s.1.lastC ≤ r * C + c)
    (hnew : ∀ t ∈ done, t.1 * C + t.2.1 < r * C + c) :
    Res.Ok (s.1.append s.2 zero r c v) (fun s' => AppInv R C b m0 zero s' (done ++ [(r, c, v)]) ∧
      s'.1.lastR = r ∧ s'.1.lastC = c) := by
  have hlt : r * C + c < R * C := rm_lt hr hc (Nat.le_refl C)
  have pos1 : ∀ r c, r < R → c < C → s.1.pos r c false = .ok (r * C + c) := by
    intro r c h1 h2
    have a1 : ¬ s.1.numRows ≤ r := by have := inv.rows; omega
    have a2 : ¬ s.1.numCols ≤ c := by have := inv.cols; omega
    simp only [Hdr.pos, a1, a2, if_false, Bool.false_eq_true, inv.skip]
  have hfill : Res.Ok (s.1.fillZeroUntil s.2 zero r c) (fun m => m.size = m0.size ∧
      ∀ j, m.data j = if b + (s.1.lastR * C + s.1.lastC) + 1 ≤ j ∧ j < b + (r * C + c) then zero else s.2.data j) := by
    unfold Hdr.fillZeroUntil
    rw [if_pos (Or.inl (inv.skip.trans inv.cols.symm)), pos1 _ _ inv.lastR inv.lastC, pos1 _ _ hr hc]
    show Res.Ok (if _ then _ else _) _
    split
    · refine (Buf.fill_ok (.inr ?_)).mono ?_
      · rw [inv.size, inv.base]; omega
      · rintro m ⟨h1, h2⟩
        refine ⟨h1.trans inv.size, fun j => ?_⟩
        rw [h2 j, inv.base]
        have : (b + (s.1.lastR * C + s.1.lastC + 1) ≤ j) = (b + (s.1.lastR * C + s.1.lastC) + 1 ≤ j) := by
          rw [Nat.add_assoc b]
        simp only [this]
    · refine ⟨_, rfl, inv.size, fun j => ?_⟩
      rw [if_neg (by omega)]
  unfold Hdr.append
  refine hfill.bind ?_
  rintro m ⟨hm1, hm2⟩
  rw [pos1 _ _ hr hc]
  show Res.Ok (m.write (s.1.base + (r * C + c)) v >>= _) _
  rw [inv.base, Buf.write_eq (by omega)]
  refine ⟨_, rfl, ⟨inv.rows, inv.cols, inv.skip, rfl, inv.buf, hm1, hr, hc, ?_, ?_, ?_, ?_, ?_⟩, rfl, rfl⟩
  · intro t ht
    rcases List.mem_append.1 ht with h | h
    · have h1 := hnew t h
      have h2 := inv.le t h
      have h3 := inv.vals t h
      rw [Buf.put_data, if_neg (by omega), hm2, if_neg (by omega)]
      exact h3
    · simp at h; subst h; simp
  · intro t ht
    rcases List.mem_append.1 ht with h | h
    · exact inv.inrange t h
    · simp at h; subst h; exact ⟨hr, hc⟩
  · intro t ht
    rcases List.mem_append.1 ht with h | h
    · exact Nat.le_of_lt (hnew t h)
    · simp at h; subst h; exact Nat.le_refl _
  · intro r' c' hr' hc' hle' hnot
    simp only at hle'
    have hne : ¬ (r = r' ∧ c = c') := hnot (r, c, v) (by simp)
    have hne' : b + (r' * C + c') ≠ b + (r * C + c) := by
      intro e
      have e' : r' * C + c' = r * C + c := by omega
      have := rm_inj hc' hc e'
      omega
    rw [Buf.put_data, if_neg hne', hm2]
    split
    · rfl
    · rename_i hno
      refine inv.zeros r' c' hr' hc' (by omega) fun t ht => hnot t (by simp [ht])
  · intro j hj
    rw [Buf.put_data, if_neg (by omega), hm2, if_neg (by omega)]
    exact inv.outside j hj

private theorem app_fold {R C b : Nat} {m0 : Buf α} {zero : α} (hsz : b + R * C ≤ m0.size) :
    ∀ (l : List (Nat × Nat × α)) (s : Hdr × Buf α) (done : List (Nat × Nat × α)),
      AppInv R C b m0 zero s done →
      (∀ t ∈ l, t.1 < R ∧ t.2.1 < C) → l.Pairwise Before →
      (∀ t ∈ l, s.1.lastR * C + s.1.lastC ≤ t.1 * C + t.2.1) →
      (∀ t ∈ l, ∀ u ∈ done, u.1 * C + u.2.1 < t.1 * C + t.2.1) →
      Res.Ok (l.foldlM (fun (s : Hdr × Buf α) (t : Nat × Nat × α) => s.1.append s.2 zero t.1 t.2.1 t.2.2) s)
        (fun s' => AppInv R C b m0 zero s' (done ++ l)) := by
  intro l
  induction l with
  | nil =>
    intro s done inv _ _ _ _
    exact ⟨s, rfl, by simpa using inv⟩
  | cons t l ih =>
    intro s done inv hin hpw hge hnew
    rw [List.foldlM_cons]
    have ht := hin t (by simp)
    refine (app_step inv hsz ht.1 ht.2 (hge t (by simp)) (hnew t (by simp)) (v := t.2.2)).bind ?_
    rintro s' ⟨inv', e1, e2⟩
    have hp := List.pairwise_cons.1 hpw
    have hlt : ∀ u ∈ l, t.1 * C + t.2.1 < u.1 * C + u.2.1 := by
      intro u hu
      exact (rm_lt_iff ht.2 (hin u (by simp [hu])).2).2 (hp.1 u hu)
    have := ih s' (done ++ [(t.1, t.2.1, t.2.2)]) inv' (fun u hu => hin u (by simp [hu])) hp.2
      (fun u hu => by rw [e1, e2]; exact Nat.le_of_lt (hlt u hu))
      (fun u hu w hw => by
        rcases List.mem_append.1 hw with h | h
        · exact hnew u (by simp [hu]) w h
        · simp at h; subst h; exact hlt u hu)
    simpa [List.append_assoc] using this

/-- **C19.** Let `x` be a dense matrix whose rows are adjacent in memory (every newly created matrix and every view of
complete rows). Appending any cells in strictly increasing row-major order, and finishing, makes `get` show the appended
value at each appended cell and zero at every other cell; memory outside the matrix's own cells is untouched. -/
theorem C19_append_in_order (x : DM α) (hwf : x.WF) (hcontig : x.h.rowSkip = x.h.numCols) (zero : α)
    (l : List (Nat × Nat × α)) (hin : ∀ t ∈ l, t.1 < x.numRows ∧ t.2.1 < x.numCols) (hord : l.Pairwise Before) :
    Res.Ok (buildByAppend x zero l) (fun y =>
      y.WF ∧ y.numRows = x.numRows ∧ y.numCols = x.numCols ∧
      (∀ r c v, (r, c, v) ∈ l → y.get r c = .ok v) ∧
      (∀ r c, r < x.numRows → c < x.numCols → (∀ v, (r, c, v) ∉ l) → y.get r c = .ok zero) ∧
      (∀ j, ¬ (x.h.base ≤ j ∧ j < x.h.base + x.numRows * x.numCols) → y.mem.data j = x.mem.data j)) := by
  unfold buildByAppend
  by_cases hne : x.h.numRows ≠ 0 ∧ x.h.numCols ≠ 0
  · -- non-empty matrix
    have hsz : x.h.base + x.h.numRows * x.h.numCols ≤ x.mem.size := by
      have := hwf.inb (x.h.numRows - 1) (x.h.numCols - 1) (by omega) (by omega)
      rw [hcontig] at this
      have e : (x.h.numRows - 1 + 1) * x.h.numCols = (x.h.numRows - 1) * x.h.numCols + x.h.numCols := by ring
      rw [Nat.sub_add_cancel (by omega)] at e
      omega
    have hpos : 0 < x.h.numRows * x.h.numCols := Nat.mul_pos (by omega) (by omega)
    have hprep : x.h.prepareAppend x.mem zero = .ok ({ x.h with lastR := 0, lastC := 0 }, x.mem.put x.h.base zero) := by
      unfold Hdr.prepareAppend
      rw [if_pos hne, Buf.write_eq (by omega)]; rfl
    rw [hprep]
    have inv0 : AppInv x.h.numRows x.h.numCols x.h.base x.mem zero
        ({ x.h with lastR := 0, lastC := 0 }, x.mem.put x.h.base zero) [] := by
      refine ⟨rfl, rfl, hcontig, rfl, by rw [hwf.full, hcontig], rfl, ?_, ?_, ?_, ?_, ?_, ?_, ?_⟩
      · simp only; omega
      · simp only; omega
      · simp
      · simp
      · simp
      · intro r c hr hc hle _
        simp only [Nat.zero_mul, Nat.add_zero, Nat.le_zero] at hle
        rw [Buf.put_data, if_pos (by omega)]
      · intro j hj
        rw [Buf.put_data, if_neg (by omega)]
    show Res.Ok (_ >>= _) _
    refine (app_fold hsz l _ [] inv0 hin hord ?_ ?_).bind ?_
    · intro t _; simp
    · intro t _ u hu; simp at hu
    rintro ⟨h, m⟩ inv
    simp only [List.nil_append] at inv
    have hfinish : Res.Ok (h.finishAppend m zero) (fun s' => ∃ done, AppInv x.h.numRows x.h.numCols x.h.base x.mem zero s' done ∧
        (s'.1.lastR + 1 = x.h.numRows ∧ s'.1.lastC + 1 = x.h.numCols) ∧
        (∀ t ∈ l, t ∈ done) ∧ (∀ r c, (∀ v, (r, c, v) ∉ l) → ∀ t ∈ done, (t.1 = r ∧ t.2.1 = c) → t.2.2 = zero)) := by
      unfold Hdr.finishAppend
      have hR := inv.rows; have hC := inv.cols; have h1 := inv.lastR; have h2 := inv.lastC
      simp only at hR hC h1 h2
      split
      · rename_i hcond
        have hlt : h.lastR * x.h.numCols + h.lastC < (h.numRows - 1) * x.h.numCols + (h.numCols - 1) := by
          rw [rm_lt_iff h2 (by omega)]; omega
        refine (app_step inv hsz (r := h.numRows - 1) (c := h.numCols - 1) (v := zero) (by omega) (by omega)
          (Nat.le_of_lt hlt) (fun t ht => Nat.lt_of_le_of_lt (inv.le t ht) hlt)).mono ?_
        rintro s' ⟨i', e1, e2⟩
        refine ⟨_, i', ⟨by omega, by omega⟩, fun t ht => by simp [ht], ?_⟩
        intro r c hn t ht he
        rcases List.mem_append.1 ht with hh | hh
        · exact absurd hh (by have := hn t.2.2; obtain ⟨rfl, rfl⟩ := he; exact this)
        · simp at hh; subst hh; rfl
      · rename_i hcond
        refine ⟨_, rfl, l, inv, ⟨?_, ?_⟩, fun t ht => ht, ?_⟩
        · simp only; omega
        · simp only; omega
        · intro r c hn t ht he
          exact absurd ht (by have := hn t.2.2; obtain ⟨rfl, rfl⟩ := he; exact this)
    refine hfinish.bind ?_
    rintro ⟨h', m'⟩ ⟨done, inv', ⟨e1, e2⟩, hsub, hz⟩
    simp only at e1 e2
    refine ⟨_, rfl, ?_⟩
    have w : DM.WF (⟨h', m'⟩ : DM α) := by
      have hR := inv'.rows; have hC := inv'.cols; have hS := inv'.skip; have hB := inv'.base; have hsz' := inv'.size
      simp only at hR hC hS hB hsz'
      refine ⟨?_, ?_, ?_, fun _ => by simp only; omega⟩
      · simp only; omega
      · have := inv'.buf; simp only at this; simp only [hR, hS]; exact this
      · intro r c hr hc
        simp only [hR, hC, hS, hB, hsz'] at *
        have := rm_lt hr hc (Nat.le_refl x.h.numCols)
        omega
    refine ⟨w, inv'.rows, inv'.cols, ?_, ?_, inv'.outside⟩
    · intro r c v hv
      have hi := inv'.inrange _ (hsub _ hv)
      have hR := inv'.rows; have hC := inv'.cols; have hS := inv'.skip; have hB := inv'.base
      simp only at hR hC hS hB hi
      rw [w.get (by simp only; omega) (by simp only; omega)]
      simp only [hS, hB]
      have := inv'.vals _ (hsub _ hv)
      simp only at this
      rw [Nat.add_assoc, this]
    · intro r c hr hc hn
      have hR := inv'.rows; have hC := inv'.cols; have hS := inv'.skip; have hB := inv'.base
      simp only [DM.numRows, DM.numCols] at hR hC hS hB hr hc
      rw [w.get (by simp only; omega) (by simp only; omega)]
      simp only [hS, hB]
      rw [Nat.add_assoc]
      by_cases hex : ∃ t ∈ done, t.1 = r ∧ t.2.1 = c
      · obtain ⟨t, ht, he⟩ := hex
        have h1 := inv'.vals t ht
        rw [he.1, he.2] at h1
        simp only at h1
        rw [h1, hz r c hn t ht he]
      · have := inv'.zeros r c hr hc ?_ (fun t ht he => hex ⟨t, ht, he⟩)
        · simp only at this; rw [this]
        · simp only
          have : r * x.h.numCols ≤ h'.lastR * x.h.numCols := Nat.mul_le_mul_right _ (by omega)
          omega
  · -- empty matrix: nothing can be appended
    have hnil : l = [] := by
      cases l with
      | nil => rfl
      | cons t l => have := hin t (by simp); simp only [DM.numRows, DM.numCols] at this; omega
    subst hnil
    have hprep : x.h.prepareAppend x.mem zero = .ok ({ x.h with lastR := 0, lastC := 0 }, x.mem) := by
      unfold Hdr.prepareAppend; rw [if_neg hne]; rfl
    rw [hprep]
    have hfin : Hdr.finishAppend { x.h with lastR := 0, lastC := 0 } x.mem zero
        = .ok ({ x.h with lastR := 0, lastC := 0 }, x.mem) := by
      unfold Hdr.finishAppend; rw [if_neg]; rintro ⟨h, _⟩; exact hne h
    show Res.Ok (Hdr.finishAppend { x.h with lastR := 0, lastC := 0 } x.mem zero >>= _) _
    rw [hfin]
    refine ⟨_, rfl, ⟨hwf.skip, hwf.full, hwf.inb, hwf.orig⟩, rfl, rfl, by simp, ?_, fun j _ => rfl⟩
    intro r c hr hc
    simp only [DM.numRows, DM.numCols] at hr hc
    omega

/-- Non-trivial instance: on a 2×3 matrix with junk contents, append cells (0,1) and (1,1). -/
example : ∃ y, buildByAppend (DM.create 2 3 (fun i => 100 + i)) 0 [(0, 1, 7), (1, 1, 8)] = .ok y ∧
    [y.get 0 0, y.get 0 1, y.get 0 2, y.get 1 0, y.get 1 1, y.get 1 2] = [.ok 0, .ok 7, .ok 0, .ok 0, .ok 8, .ok 0] :=
  ⟨_, rfl, rfl⟩

/-- Why the rows must be adjacent in memory: on a view of columns 0..2 of a 2×4 matrix, appending cells (0,0) and (1,2)
leaves the cell (1,1) in between at its old value instead of zero (the fill in DenseMatrix.h:141 ends one cell early). -/
theorem C37_column_view_gap_not_zeroed :
    ∃ (v : Hdr) (y : DM Nat), (Hdr.new 2 4).view 0 2 0 3 = .ok v ∧
      buildByAppend ⟨v, ⟨8, fun i => 100 + i⟩⟩ 0 [(0, 0, 7), (1, 2, 8)] = .ok y ∧ y.get 1 1 = .ok 105 :=
  ⟨_, _, rfl, rfl, rfl⟩

/-- `operator==` on dense matrices answers "same shape and same cells", for matrices in different or in the same
allocation. -/
theorem C18_equality_means_same_contents [DecidableEq α] (x y : DM α) (hx : x.WF) (hy : y.WF) (same : Bool)
    (hsame : same = true → x.mem = y.mem) (a b : Mat α) (ha : x.Is a) (hb : y.Is b) :
    Res.Ok (Hdr.eq same x.h x.mem y.h y.mem) (fun e => e = true ↔ a.Same b) := by
  have r1 := ha.rows; have r2 := hb.rows; have c1 := ha.cols; have c2 := hb.cols
  unfold Hdr.eq
  by_cases hd : x.h.numRows ≠ y.h.numRows ∨ x.h.numCols ≠ y.h.numCols
  · rw [if_pos hd]
    refine ⟨_, rfl, by simp only [Bool.false_eq_true, false_iff]; rintro ⟨h1, h2, _⟩; omega⟩
  · rw [if_neg hd]
    have hd1 : a.rows = b.rows := by omega
    have hd2 : a.cols = b.cols := by omega
    by_cases hs : same = true ∧ x.h.start = y.h.start ∧ x.h.rowSkip = y.h.rowSkip
    · rw [if_pos hs]
      refine ⟨_, rfl, ?_⟩
      simp only [true_iff]
      refine ⟨hd1, hd2, fun r c hr hc => ?_⟩
      rw [← ha.data hr hc, ← hb.data (by omega) (by omega), hsame hs.1]
      have := hs.2.1
      rw [hx.start, hy.start] at this
      rw [this, hs.2.2]
    · rw [if_neg hs]
      unfold Hdr.eqLoop
      rw [r1, c1]
      refine forLoop_post (fun i ok => ok = true ↔ ∀ r c, r < i → c < a.cols → a.cell r c = b.cell r c)
        0 a.rows true (Nat.zero_le _) (by simp) ?_ ?_
      · intro i ok _ hi hinv
        refine forLoop_post (fun j ok' => ok' = true ↔ (∀ r c, r < i → c < a.cols → a.cell r c = b.cell r c) ∧
          ∀ c, c < j → a.cell i c = b.cell i c) 0 a.cols ok (Nat.zero_le _) (by simpa using hinv) ?_ ?_
        · intro j ok' _ hj hinv'
          cases ok' with
          | false =>
            refine ⟨_, rfl, ?_⟩
            simp only [Bool.false_eq_true, false_iff] at hinv' ⊢
            intro hall
            exact hinv' ⟨hall.1, fun c hc => hall.2 c (by omega)⟩
          | true =>
            have e1 := ha.read hi hj
            have e2 := hb.read (show i < b.rows by omega) (show j < b.cols by omega)
            unfold DM.addr at e1 e2
            simp only [if_true, e1, e2]
            refine ⟨_, rfl, ?_⟩
            simp only [true_iff] at hinv'
            simp only [decide_eq_true_eq]
            constructor
            · intro heq
              refine ⟨hinv'.1, fun c hc => ?_⟩
              by_cases e : c = j
              · subst e; exact heq
              · exact hinv'.2 c (by omega)
            · intro hall; exact hall.2 j (by omega)
        · intro ok' h
          rw [h]
          constructor
          · rintro ⟨h1, h2⟩ r c hr hc
            by_cases e : r = i
            · subst e; exact h2 c hc
            · exact h1 r c (by omega) hc
          · intro hall
            exact ⟨fun r c hr hc => hall r c (by omega) hc, fun c hc => hall i c (by omega) hc⟩
      · intro ok h
        rw [h]
        exact ⟨fun hall => ⟨hd1, hd2, hall⟩, fun hs => hs.2.2⟩

/-! ### Appending every cell, in row-major order, to any matrix or view -/

/-- The construction used by the generic `Matrix` kernels (e.g. SliceRow.h:128-132):
`prepareAppend(); for r, c: append(r, c, f(r, c)); finishAppend()`, where `f` may fail. -/
def appendAll (x : DM α) (zero : α) (f : Nat → Nat → Res α) : Res (DM α) := do
  let s ← x.h.prepareAppend x.mem zero
  let s ← forLoop 0 x.numRows s fun r s => forLoop 0 x.numCols s fun c s => do
    let v ← f r c
    s.1.append s.2 zero r c v
  let s ← s.1.finishAppend s.2 zero
  .ok ⟨s.1, s.2⟩

/-- Invariant of `appendAll`: cells before `(i, j)` are written, the last appended cell is the one before `(i, j)`. -/
private structure AllInv (x : DM α) (f : Nat → Nat → α) (i j : Nat) (s : Hdr × Buf α) : Prop where
  hdr : s.1 = { x.h with lastR := s.1.lastR, lastC := s.1.lastC }
  size : s.2.size = x.mem.size
  last : (i = 0 ∧ j = 0 ∧ s.1.lastR = 0 ∧ s.1.lastC = 0) ∨ (0 < j ∧ s.1.lastR = i ∧ s.1.lastC + 1 = j) ∨
    (j = 0 ∧ 0 < i ∧ s.1.lastR + 1 = i ∧ s.1.lastC + 1 = x.h.numCols)
  vals : ∀ r c, c < x.h.numCols → (r < i ∨ (r = i ∧ c < j)) → s.2.data (x.h.base + r * x.h.rowSkip + c) = f r c
  outside : ∀ k, (∀ r c, r < x.h.numRows → c < x.h.numCols → k ≠ x.h.base + r * x.h.rowSkip + c) → s.2.data k = x.mem.data k

private theorem all_step {x : DM α} (hwf : x.WF) {f : Nat → Nat → α} {zero : α} {i j : Nat} {s : Hdr × Buf α}
    (inv : AllInv x f i j s) (hi : i < x.h.numRows) (hj : j < x.h.numCols) :
    Res.Ok (s.1.append s.2 zero i j (f i j)) (AllInv x f i (j + 1)) := by
  have hR : s.1.numRows = x.h.numRows := by rw [inv.hdr]
  have hC : s.1.numCols = x.h.numCols := by rw [inv.hdr]
  have hS : s.1.rowSkip = x.h.rowSkip := by rw [inv.hdr]
  have hB : s.1.base = x.h.base := by rw [inv.hdr]
  have hskip := hwf.skip
  have pos1 : ∀ r c, r < x.h.numRows → c < x.h.numCols → s.1.pos r c false = .ok (r * x.h.rowSkip + c) := by
    intro r c h1 h2
    simp only [Hdr.pos, hR, hC, hS, show ¬ x.h.numRows ≤ r by omega, show ¬ x.h.numCols ≤ c by omega, if_false,
      Bool.false_eq_true]
  have hlr : s.1.lastR < x.h.numRows ∧ s.1.lastC < x.h.numCols := by rcases inv.last with h | h | h <;> omega
  have hfill : s.1.fillZeroUntil s.2 zero i j = .ok s.2 := by
    unfold Hdr.fillZeroUntil
    by_cases hc : s.1.rowSkip = s.1.numCols ∨ s.1.lastR = i
    · rw [if_pos hc, pos1 _ _ hlr.1 hlr.2, Res.ok_bind, pos1 _ _ hi hj, Res.ok_bind, if_neg]
      rcases inv.last with h | h | h
      · obtain ⟨rfl, rfl, h1, h2⟩ := h; rw [h1, h2]; omega
      · obtain ⟨h0, h1, h2⟩ := h; rw [h1]; omega
      · obtain ⟨rfl, h1, h2, h3⟩ := h
        rcases hc with hc | hc
        · have e : (s.1.lastR + 1) * x.h.rowSkip = s.1.lastR * x.h.rowSkip + x.h.rowSkip := by ring
          rw [h2] at e
          omega
        · omega
    · rw [if_neg hc]
      have hlast : j = 0 ∧ 0 < i ∧ s.1.lastR + 1 = i ∧ s.1.lastC + 1 = x.h.numCols := by
        rcases inv.last with h | h | h
        · exact absurd (Or.inr (h.2.2.1.trans h.1.symm)) hc
        · exact absurd (Or.inr h.2.1) hc
        · exact h
      obtain ⟨rfl, h1, h2, h3⟩ := hlast
      have hf : s.2.fill (s.1.base + s.1.lastR * s.1.rowSkip + s.1.lastC + 1) (s.1.base + s.1.lastR * s.1.rowSkip + s.1.numCols) zero = .ok s.2 := by
        unfold Buf.fill; rw [if_pos (by rw [hC]; omega)]
      simp only [hf, Res.ok_bind]
      rw [forLoop_empty _ _ _ (by omega), Res.ok_bind]
      rfl
  unfold Hdr.append
  rw [hfill, Res.ok_bind, pos1 _ _ hi hj, Res.ok_bind, hB,
    Buf.write_eq (by rw [inv.size]; have := hwf.inb i j hi hj; omega), Res.ok_bind]
  refine ⟨_, rfl, ?_, inv.size, .inr (.inl ⟨by omega, rfl, rfl⟩), ?_, ?_⟩
  · rw [inv.hdr]
  · intro r c hc hrc
    simp only [Buf.put_data]
    by_cases e : r = i ∧ c = j
    · obtain ⟨rfl, rfl⟩ := e; rw [if_pos (by omega)]
    · rw [if_neg]
      · exact inv.vals r c hc (by omega)
      · intro he
        exact e (rm_inj (s := x.h.rowSkip) (by omega) (by omega) (by omega))
  · intro k hk
    simp only [Buf.put_data]
    rw [if_neg (by have := hk i j hi hj; omega)]
    exact inv.outside k hk

/-- **C37 (part).** Appending all cells in row-major order makes `get` show exactly the appended values, for every dense
matrix and every view (also views of some columns), and leaves all other cells of the allocation untouched. Missing from
C37: append sequences that leave gaps, for which the claim is false on column views, see
`C37_column_view_gap_not_zeroed`. -/
theorem C37_append_all_cells_partial (x : DM α) (hwf : x.WF) (zero : α) (f : Nat → Nat → α) :
    Res.Ok (appendAll x zero (fun r c => .ok (f r c))) (fun y => y.Is ⟨x.numRows, x.numCols, f⟩ ∧
      y.h.base = x.h.base ∧ y.h.rowSkip = x.h.rowSkip ∧ y.mem.size = x.mem.size ∧
      ∀ k, (∀ r c, r < x.numRows → c < x.numCols → k ≠ x.h.base + r * x.h.rowSkip + c) → y.mem.data k = x.mem.data k) := by
  unfold appendAll
  have hprep : Res.Ok (x.h.prepareAppend x.mem zero) (AllInv x f 0 0) := by
    unfold Hdr.prepareAppend
    by_cases hne : x.h.numRows ≠ 0 ∧ x.h.numCols ≠ 0
    · have := hwf.inb 0 0 (by omega) (by omega)
      rw [if_pos hne, Buf.write_eq (by omega), Res.ok_bind]
      refine ⟨_, rfl, rfl, rfl, .inl ⟨rfl, rfl, rfl, rfl⟩, by intro r c _ h; omega, ?_⟩
      intro k hk
      simp only [Buf.put_data]
      rw [if_neg (by have := hk 0 0 (by omega) (by omega); omega)]
    · rw [if_neg hne, Res.ok_bind]
      exact ⟨_, rfl, rfl, rfl, .inl ⟨rfl, rfl, rfl, rfl⟩, by intro r c _ h; omega, fun k _ => rfl⟩
  refine hprep.bind fun s0 inv0 => ?_
  simp only [DM.numRows, DM.numCols, Res.ok_bind]
  by_cases hC : x.h.numCols = 0
  · -- no columns: nothing is appended
    have hloop : forLoop 0 x.h.numRows s0 (fun r s => forLoop 0 x.h.numCols s fun c s => s.1.append s.2 zero r c (f r c)) = .ok s0 := by
      have : Res.Ok (forLoop 0 x.h.numRows s0 (fun r s => forLoop 0 x.h.numCols s fun c s => s.1.append s.2 zero r c (f r c))) (fun s => s = s0) := by
        refine forLoop_ok (fun _ s => s = s0) 0 _ s0 (Nat.zero_le _) rfl ?_
        rintro j s _ _ rfl
        rw [hC, forLoop_empty _ _ _ (Nat.le_refl _)]; exact ⟨_, rfl, rfl⟩
      obtain ⟨_, e, rfl⟩ := this; exact e
    rw [hloop, Res.ok_bind]
    have hfin : s0.1.finishAppend s0.2 zero = .ok s0 := by
      unfold Hdr.finishAppend
      rw [if_neg]; rintro ⟨⟨_, h⟩, _⟩
      rw [inv0.hdr] at h; exact h hC
    rw [hfin, Res.ok_bind]
    refine ⟨_, rfl, ?_, by rw [inv0.hdr], by rw [inv0.hdr], inv0.size, inv0.outside⟩
    refine is_of_data ⟨by rw [inv0.hdr]; exact hwf.skip, by rw [inv0.hdr]; exact hwf.full, ?_, by rw [inv0.hdr]; exact hwf.orig⟩
      (by rw [inv0.hdr]) (by rw [inv0.hdr]) ?_
    · intro r c _ hc; rw [inv0.hdr] at hc; simp only at hc; omega
    · intro r c _ hc; simp only at hc; omega
  · refine Res.Ok.bind (forLoop_ok (fun i s => AllInv x f i 0 s) 0 x.h.numRows s0 (Nat.zero_le _) inv0 ?_) ?_
    · intro i s _ hi inv
      refine forLoop_post (fun j s => AllInv x f i j s) 0 x.h.numCols s (Nat.zero_le _) inv
        (fun j s _ hj inv => all_step hwf inv hi hj) ?_
      intro s inv
      refine ⟨inv.hdr, inv.size, .inr (.inr ⟨rfl, by omega, ?_, ?_⟩), ?_, inv.outside⟩
      · rcases inv.last with h | h | h <;> omega
      · rcases inv.last with h | h | h <;> omega
      · intro r c hc hrc
        exact inv.vals r c hc (by omega)
    · intro s inv
      have hfin : s.1.finishAppend s.2 zero = .ok s := by
        unfold Hdr.finishAppend
        rw [if_neg]; rintro ⟨⟨h1, h2⟩, h3⟩
        have e1 : s.1.numRows = x.h.numRows := by rw [inv.hdr]
        have e2 : s.1.numCols = x.h.numCols := by rw [inv.hdr]
        rw [e1, e2] at h3; rw [e1] at h1
        rcases inv.last with h | h | h <;> omega
      rw [hfin, Res.ok_bind]
      refine ⟨_, rfl, ?_, by rw [inv.hdr], by rw [inv.hdr], inv.size, inv.outside⟩
      refine is_of_data ⟨by rw [inv.hdr]; exact hwf.skip, by rw [inv.hdr]; exact hwf.full, ?_, by rw [inv.hdr]; exact hwf.orig⟩
        (by rw [inv.hdr]) (by rw [inv.hdr]) ?_
      · intro r c hr hc
        rw [inv.hdr] at hr hc ⊢
        simp only [inv.size] at hr hc ⊢
        exact hwf.inb r c hr hc
      · intro r c hr hc
        simp only at hr hc
        rw [inv.hdr]
        exact inv.vals r c hc (.inl hr)

end Verif.Dense
