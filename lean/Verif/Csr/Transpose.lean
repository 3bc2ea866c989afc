/-
  C16: transposition of sparse matrices (counting sort).
-/
import Verif.Csr.Kernels

namespace Verif.Csr
open Verif
variable {α : Type}

/-- Number of `k < n` with `f k = c`. -/
def cnt (f : Nat → Nat) (c : Nat) : Nat → Nat
  | 0 => 0
  | n + 1 => cnt f c n + if f n = c then 1 else 0

/-- `T 0 + ... + T (c - 1)`. -/
def psum (T : Nat → Nat) : Nat → Nat
  | 0 => 0
  | c + 1 => psum T c + T c

theorem cnt_mono {f : Nat → Nat} {c n n' : Nat} (h : n ≤ n') : cnt f c n ≤ cnt f c n' := by
  induction h with
  | refl => exact Nat.le_refl _
  | step _ ih => simp only [cnt]; omega

theorem cnt_lt {f : Nat → Nat} {c k n : Nat} (h : k < n) (hk : f k = c) : cnt f c k < cnt f c n := by
  have h1 : cnt f c (k + 1) = cnt f c k + 1 := by simp [cnt, hk]
  have := cnt_mono (f := f) (c := c) (show k + 1 ≤ n from h)
  omega

theorem cnt_surj {f : Nat → Nat} {c : Nat} : ∀ n i, i < cnt f c n → ∃ k, k < n ∧ f k = c ∧ cnt f c k = i := by
  intro n
  induction n with
  | zero => intro i h; simp [cnt] at h
  | succ n ih =>
    intro i h
    simp only [cnt] at h
    by_cases h1 : i < cnt f c n
    · obtain ⟨k, a, b, d⟩ := ih i h1; exact ⟨k, by omega, b, d⟩
    · by_cases hc : f n = c
      · exact ⟨n, by omega, hc, by rw [if_pos hc] at h; omega⟩
      · rw [if_neg hc] at h; omega

theorem psum_mono {T : Nat → Nat} {c c' : Nat} (h : c ≤ c') : psum T c ≤ psum T c' := by
  induction h with
  | refl => exact Nat.le_refl _
  | step _ ih => simp only [psum]; omega

theorem psum_add (T U : Nat → Nat) : ∀ c, psum (fun i => T i + U i) c = psum T c + psum U c
  | 0 => rfl
  | c + 1 => by simp only [psum, psum_add T U c]; omega

theorem psum_single (d : Nat) : ∀ c, psum (fun i => if d = i then 1 else 0) c = if d < c then 1 else 0
  | 0 => by simp [psum]
  | c + 1 => by
    simp only [psum, psum_single d c]
    split <;> split <;> split <;> omega

theorem psum_zero : ∀ c, psum (fun _ => 0) c = 0
  | 0 => rfl
  | c + 1 => by simp only [psum, psum_zero c]

/-- Every element is counted once. -/
theorem psum_cnt {f : Nat → Nat} {C : Nat} : ∀ n, (∀ k, k < n → f k < C) → psum (fun c => cnt f c n) C = n
  | 0, _ => by simp only [cnt]; exact psum_zero C
  | n + 1, h => by
    have : (fun c => cnt f c (n + 1)) = fun c => cnt f c n + if f n = c then 1 else 0 := by funext c; rfl
    rw [this, psum_add, psum_cnt n (fun k hk => h k (by omega)), psum_single, if_pos (h n (by omega))]

/-- The row an entry belongs to. -/
theorem CM.WF.findRow {x : CM α} (w : x.WF) {j : Nat} (h0 : x.o 0 ≤ j) : ∀ R, R ≤ x.h.numRows → j < x.o R →
    ∃ r, r < R ∧ x.o r ≤ j ∧ j < x.o (r + 1) := by
  intro R
  induction R with
  | zero => intro _ h; omega
  | succ R ih =>
    intro hR h
    by_cases h1 : j < x.o R
    · obtain ⟨r, a, b⟩ := ih (by omega) h1; exact ⟨r, by omega, b⟩
    · exact ⟨R, by omega, by omega, h⟩

theorem CM.WF.rowUnique {x : CM α} (w : x.WF) {j r r' : Nat} (hr : r < x.h.numRows) (hr' : r' < x.h.numRows)
    (h1 : x.o r ≤ j) (h2 : j < x.o (r + 1)) (h3 : x.o r' ≤ j) (h4 : j < x.o (r' + 1)) : r = r' := by
  rcases Nat.lt_trichotomy r r' with h | h | h
  · have := w.mono' (r := r + 1) (r' := r') (by omega) (by omega); omega
  · exact h
  · have := w.mono' (r := r' + 1) (r' := r) (by omega) (by omega); omega

section
variable {x : CM α} (w : x.WF)
include w

theorem countCols_ok (offs : Buf Nat) (hs : x.h.numCols < offs.size) (hz : ∀ c, c < x.h.numCols → offs.data c = 0) :
    Res.Ok (countCols x offs) (fun o => o.size = offs.size ∧ ∀ c, c < x.h.numCols →
      o.data c = cnt (fun k => x.mem.cols.data (x.o 0 + k)) c (x.o x.h.numRows - x.o 0)) := by
  unfold countCols
  refine forLoop_ok (fun row (o : Buf Nat) => o.size = offs.size ∧ ∀ c, c < x.h.numCols →
      o.data c = cnt (fun k => x.mem.cols.data (x.o 0 + k)) c (x.o row - x.o 0)) 0 x.h.numRows _ (Nat.zero_le _) ?_ ?_
  · refine ⟨rfl, fun c hc => ?_⟩
    rw [hz c hc, Nat.sub_self]; rfl
  · rintro row o - hrow ⟨i1, i2⟩
    rw [w.off (by omega), w.off (by omega)]
    simp only [Res.ok_bind]
    have hm := w.mono row hrow
    have hm0 := w.mono' (r := 0) (r' := row) (Nat.zero_le _) (by omega)
    have ht := w.rowTop hrow
    refine forLoop_ok (fun j (o : Buf Nat) => o.size = offs.size ∧ ∀ c, c < x.h.numCols →
      o.data c = cnt (fun k => x.mem.cols.data (x.o 0 + k)) c (j - x.o 0)) _ _ _ hm ⟨i1, i2⟩ ?_
    rintro j o h1 h2 ⟨k1, k2⟩
    have hb := w.bound row j hrow h1 h2
    rw [Buf.read_eq (by omega)]
    simp only [Res.ok_bind]
    rw [Buf.read_eq (by omega)]
    simp only [Res.ok_bind]
    rw [Buf.write_eq (by omega)]
    refine Res.ok_iff.2 ⟨by simpa using k1, fun c hc => ?_⟩
    rw [show j + 1 - x.o 0 = (j - x.o 0) + 1 by omega]
    simp only [cnt, Buf.put_data, show x.o 0 + (j - x.o 0) = j by omega]
    by_cases e : c = x.mem.cols.data j
    · rw [if_pos e, if_pos e.symm, ← e, k2 c hc]
    · rw [if_neg e, if_neg (fun h => e h.symm), k2 c hc]; rfl

end

theorem prefixSum_ok (n : Nat) (offs : Buf Nat) (hs : n ≤ offs.size) :
    Res.Ok (prefixSum n offs) (fun os => os.1.size = offs.size ∧ ∀ c, os.1.data c = if c < n then psum offs.data c else offs.data c) := by
  unfold prefixSum
  refine forLoop_post (fun col (os : Buf Nat × Nat) => os.1.size = offs.size ∧ os.2 = psum offs.data col ∧
    ∀ c, os.1.data c = if c < col then psum offs.data c else offs.data c) 0 n _ (Nat.zero_le _) ?_ ?_ ?_
  · exact ⟨rfl, rfl, fun c => by rw [if_neg (by omega)]⟩
  · rintro col ⟨o, s⟩ - hcol ⟨i1, i2, i3⟩
    simp only at i1 i2 i3 ⊢
    rw [Buf.read_eq (by omega)]
    simp only [Res.ok_bind]
    rw [Buf.write_eq (by omega)]
    simp only [Res.ok_bind]
    refine Res.ok_iff.2 ⟨by simpa using i1, ?_, fun c => ?_⟩
    · simp only [psum]; rw [i2, i3, if_neg (by omega)]
    · simp only [Buf.put_data]
      by_cases e : c = col
      · rw [if_pos e, if_pos (by omega), i2, e]
      · rw [if_neg e, i3]
        by_cases h : c < col
        · rw [if_pos h, if_pos (by omega)]
        · rw [if_neg h, if_neg (by omega)]
  · rintro ⟨o, s⟩ ⟨i1, _, i3⟩; exact ⟨i1, i3⟩

theorem shiftOffsets_ok (n : Nat) (offs : Buf Nat) (hs : n ≤ offs.size) :
    Res.Ok (shiftOffsets n offs) (fun os => os.1.size = offs.size ∧
      ∀ c, os.1.data c = if c < n then (if c = 0 then 0 else offs.data (c - 1)) else offs.data c) := by
  unfold shiftOffsets
  refine forLoop_post (fun col (os : Buf Nat × Nat) => os.1.size = offs.size ∧ os.2 = (if col = 0 then 0 else offs.data (col - 1)) ∧
    ∀ c, os.1.data c = if c < col then (if c = 0 then 0 else offs.data (c - 1)) else offs.data c) 0 n _ (Nat.zero_le _) ?_ ?_ ?_
  · exact ⟨rfl, rfl, fun c => by rw [if_neg (by omega)]⟩
  · rintro col ⟨o, s⟩ - hcol ⟨i1, i2, i3⟩
    simp only at i1 i2 i3 ⊢
    rw [Buf.read_eq (by omega)]
    simp only [Res.ok_bind]
    rw [Buf.write_eq (by omega)]
    simp only [Res.ok_bind]
    refine Res.ok_iff.2 ⟨by simpa using i1, ?_, fun c => ?_⟩
    · rw [i3, if_neg (by omega), if_neg (by omega)]; rfl
    · simp only [Buf.put_data]
      by_cases e : c = col
      · rw [if_pos e, if_pos (by omega), i2, e]
      · rw [if_neg e, i3]
        by_cases h : c < col
        · rw [if_pos h, if_pos (show c < col + 1 by omega)]
        · rw [if_neg h, if_neg (by omega)]
  · rintro ⟨o, s⟩ ⟨i1, _, i3⟩; exact ⟨i1, i3⟩

section
variable {x : CM α} (w : x.WF)
include w

theorem placeEntries_ok (m : CMem α) (start : Nat → Nat) (nnz : Nat) (hnnz : nnz = x.o x.h.numRows - x.o 0)
    (hO : x.h.numCols < m.offs.size) (hV : m.vals.size = nnz) (hC : m.cols.size = nnz)
    (hst : ∀ c, start c = psum (fun c => cnt (fun k => x.mem.cols.data (x.o 0 + k)) c nnz) c)
    (hoffs : ∀ c, c < x.h.numCols → m.offs.data c = start c) :
    Res.Ok (placeEntries x m) (fun m' => m'.vals.size = nnz ∧ m'.cols.size = nnz ∧ m'.offs.size = m.offs.size ∧
      (∀ c, c < x.h.numCols → m'.offs.data c = start (c + 1)) ∧
      (∀ c, ¬ c < x.h.numCols → m'.offs.data c = m.offs.data c) ∧
      (∀ r k, r < x.h.numRows → x.o r ≤ x.o 0 + k → x.o 0 + k < x.o (r + 1) →
        m'.cols.data (start (x.mem.cols.data (x.o 0 + k)) + cnt (fun k => x.mem.cols.data (x.o 0 + k)) (x.mem.cols.data (x.o 0 + k)) k) = r ∧
        m'.vals.data (start (x.mem.cols.data (x.o 0 + k)) + cnt (fun k => x.mem.cols.data (x.o 0 + k)) (x.mem.cols.data (x.o 0 + k)) k)
          = x.mem.vals.data (x.o 0 + k))) := by
  -- abbreviations
  generalize hf : (fun k => x.mem.cols.data (x.o 0 + k)) = f at *
  have fval : ∀ k, f k = x.mem.cols.data (x.o 0 + k) := fun k => by rw [← hf]
  simp only [← fval]
  have hcol : ∀ k, k < nnz → f k < x.h.numCols := by
    intro k hk
    obtain ⟨r, h1, h2, h3⟩ := w.findRow (j := x.o 0 + k) (by omega) x.h.numRows (Nat.le_refl _) (by omega)
    rw [fval]; exact w.bound r _ h1 h2 h3
  have htot : start x.h.numCols = nnz := by rw [hst]; exact psum_cnt nnz hcol
  have hsucc : ∀ c, start (c + 1) = start c + cnt f c nnz := by intro c; rw [hst, hst]; rfl
  have hmono : ∀ c c', c ≤ c' → start c ≤ start c' := by intro c c' h; rw [hst, hst]; exact psum_mono h
  -- destinations are distinct and inside the arrays
  have hdest : ∀ k, k < nnz → start (f k) + cnt f (f k) k < start (f k + 1) := by
    intro k hk
    rw [hsucc]
    have := cnt_lt (f := f) (c := f k) hk rfl
    omega
  have hdestN : ∀ k, k < nnz → start (f k) + cnt f (f k) k < nnz := by
    intro k hk
    have h1 := hdest k hk
    have h2 := hmono (f k + 1) x.h.numCols (by have := hcol k hk; omega)
    omega
  have hinj : ∀ k k', k < k' → k' < nnz → start (f k) + cnt f (f k) k ≠ start (f k') + cnt f (f k') k' := by
    intro k k' h1 h2 he
    have a1 := hdest k (by omega)
    have a2 := hdest k' h2
    rcases Nat.lt_trichotomy (f k) (f k') with h | h | h
    · have := hmono (f k + 1) (f k') (by omega); omega
    · rw [h] at he
      have := cnt_lt (f := f) (c := f k') h1 h
      omega
    · have := hmono (f k' + 1) (f k) (by omega); omega
  let P (j : Nat) (m' : CMem α) : Prop := m'.vals.size = nnz ∧ m'.cols.size = nnz ∧ m'.offs.size = m.offs.size ∧
      (∀ c, c < x.h.numCols → m'.offs.data c = start c + cnt f c (j - x.o 0)) ∧
      (∀ c, ¬ c < x.h.numCols → m'.offs.data c = m.offs.data c) ∧
      (∀ r k, r < x.h.numRows → x.o r ≤ x.o 0 + k → x.o 0 + k < x.o (r + 1) → x.o 0 + k < j →
        m'.cols.data (start (f k) + cnt f (f k) k) = r ∧ m'.vals.data (start (f k) + cnt f (f k) k) = x.mem.vals.data (x.o 0 + k))
  unfold placeEntries
  refine forLoop_post (fun row (m' : CMem α) => P (x.o row) m') 0 x.h.numRows _ (Nat.zero_le _) ?_ ?_ ?_
  · refine ⟨hV, hC, rfl, fun c hc => ?_, fun c _ => rfl, fun r k _ _ _ h => by omega⟩
    rw [hoffs c hc, Nat.sub_self]; rfl
  · rintro row m' - hrow hP
    rw [w.off (by omega), w.off (by omega)]
    simp only [Res.ok_bind]
    have hm := w.mono row hrow
    have hm0 := w.mono' (r := 0) (r' := row) (Nat.zero_le _) (by omega)
    have hm1 := w.mono' (r := row + 1) (r' := x.h.numRows) (by omega) (Nat.le_refl _)
    have ht := w.rowTop hrow
    refine forLoop_ok P _ _ _ hm hP ?_
    rintro j m'' h1 h2 ⟨k1, k2, k3, k4, k5, k6⟩
    have hjk : x.o 0 + (j - x.o 0) = j := by omega
    have hfj : f (j - x.o 0) = x.mem.cols.data j := by rw [fval, hjk]
    have hk : j - x.o 0 < nnz := by omega
    have hcj := hcol (j - x.o 0) hk
    have hd := hdestN (j - x.o 0) hk
    rw [hfj] at hcj hd
    rw [Buf.read_eq (by omega)]
    simp only [Res.ok_bind]
    rw [Buf.read_eq (by omega)]
    simp only [Res.ok_bind]
    rw [k4 _ hcj]
    rw [Buf.write_eq (by omega)]
    simp only [Res.ok_bind]
    rw [Buf.read_eq (by omega)]
    simp only [Res.ok_bind]
    rw [Buf.write_eq (by omega)]
    simp only [Res.ok_bind]
    rw [Buf.write_eq (by omega)]
    simp only [Res.ok_bind]
    refine Res.ok_iff.2 ⟨by simpa using k1, by simpa using k2, by simpa using k3, fun c hc => ?_, fun c hc => ?_, fun r k hr a1 a2 a3 => ?_⟩
    · rw [show j + 1 - x.o 0 = (j - x.o 0) + 1 by omega]
      simp only [cnt, Buf.put_data, hfj]
      by_cases e : c = x.mem.cols.data j
      · rw [if_pos e, if_pos e.symm, ← e]; omega
      · rw [if_neg e, if_neg (fun h => e h.symm), k4 c hc]; rfl
    · simp only [Buf.put_data]
      rw [if_neg (fun e => hc (by rw [e]; exact hcj)), k5 c hc]
    · simp only [Buf.put_data]
      by_cases e : x.o 0 + k = j
      · have ek : k = j - x.o 0 := by omega
        subst ek
        rw [hjk, hfj, if_pos rfl, if_pos rfl]
        rw [hjk] at a1 a2
        exact ⟨w.rowUnique hrow hr h1 h2 a1 a2, rfl⟩
      · have := hinj k (j - x.o 0) (by omega) hk
        rw [hfj] at this
        rw [if_neg this, if_neg this]
        exact k6 r k hr a1 a2 (by omega)
  · rintro m' ⟨k1, k2, k3, k4, k5, k6⟩
    refine ⟨k1, k2, k3, fun c hc => ?_, k5, fun r k hr a1 a2 => k6 r k hr a1 a2 ?_⟩
    · rw [k4 c hc, hsucc, hnnz]
    · have := w.mono' (r := r + 1) (r' := x.h.numRows) (by omega) (Nat.le_refl _); omega

end

theorem CM.WF.numNonZeros {x : CM α} (w : x.WF) : x.h.numNonZeros x.mem = .ok (x.o x.h.numRows - x.o 0) := by
  unfold CHdr.numNonZeros
  rw [w.off (Nat.le_refl _), w.off (Nat.zero_le _)]; rfl

/-- **C16.** Transposing a sparse matrix or row view that contains `a` yields a well-formed sparse matrix (sorted column
indexes) with the swapped dimensions and cells of `a`; nothing is read or written out of bounds. -/
theorem C16_transpose (zero : α) (x : CM α) (a : Mat α) (hx : x.Is zero a) (jv : Nat → α) (jc jo : Nat → Nat) :
    Res.Ok (transpose x jv jc jo) (fun y => y.Is zero a.transpose) := by
  have w := hx.wf
  have e1 := hx.rows; have e2 := hx.cols
  have hm0 := w.mono' (r := 0) (r' := x.h.numRows) (Nat.zero_le _) (Nat.le_refl _)
  unfold transpose
  rw [w.numNonZeros]
  simp only [Res.ok_bind, CM.create]
  refine (Buf.fill_ok (.inr (by simp))).bind ?_
  rintro o0 ⟨s0, d0⟩
  simp only at s0 d0
  refine (countCols_ok w o0 (by omega) (fun c hc => by rw [d0, if_pos (by omega)])).bind ?_
  rintro o1 ⟨s1, d1⟩
  refine (prefixSum_ok x.h.numCols o1 (by omega)).bind ?_
  rintro ⟨o2, cum⟩ ⟨s2, d2⟩
  simp only at s2 d2 ⊢
  rw [Buf.write_eq (by omega)]
  simp only [Res.ok_bind]
  -- counts and start positions
  let f : Nat → Nat := fun k => x.mem.cols.data (x.o 0 + k)
  let nnz := x.o x.h.numRows - x.o 0
  let start : Nat → Nat := psum (fun c => cnt f c nnz)
  have hps : ∀ c, c ≤ x.h.numCols → psum o1.data c = start c := by
    intro c
    induction c with
    | zero => intro _; rfl
    | succ c ih => intro h; simp only [psum, start]; rw [ih (by omega), d1 c (by omega)]
  refine (placeEntries_ok w _ start nnz rfl (by simp only [Buf.put_size]; omega) rfl rfl (fun c => rfl) ?_).bind ?_
  · intro c hc
    simp only [Buf.put_data]
    rw [if_neg (by omega), d2, if_pos hc, hps c (by omega)]
  rintro m ⟨m1, m2, m3, m4, m5, m6⟩
  simp only [Buf.put_size] at m3
  refine (shiftOffsets_ok (x.h.numCols + 1) m.offs (by omega)).bind ?_
  rintro ⟨o4, la⟩ ⟨s4, d4⟩
  simp only at s4 d4 ⊢
  -- final offsets
  have ho : ∀ c, c ≤ x.h.numCols → o4.data c = start c := by
    intro c hc
    rw [d4, if_pos (by omega)]
    by_cases h0 : c = 0
    · subst h0; rw [if_pos rfl]; rfl
    · rw [if_neg h0, m4 (c - 1) (by omega), show c - 1 + 1 = c by omega]
  have hcol : ∀ k, k < nnz → f k < x.h.numCols := by
    intro k hk
    obtain ⟨r, h1, h2, h3⟩ := w.findRow (j := x.o 0 + k) (by omega) x.h.numRows (Nat.le_refl _) (by omega)
    exact w.bound r _ h1 h2 h3
  have htot : start x.h.numCols = nnz := psum_cnt nnz hcol
  have hsucc : ∀ c, start (c + 1) = start c + cnt f c nnz := fun c => rfl
  have hO : ∀ c, CM.o ⟨CHdr.new x.h.numCols x.h.numRows, ⟨m.vals, m.cols, o4⟩⟩ c = o4.data c := by
    intro c; simp [CM.o, CHdr.new]
  -- the entry at a position of the result
  have hat : ∀ c p, c < x.h.numCols → start c ≤ p → p < start (c + 1) → ∃ k r, k < nnz ∧ f k = c ∧ p = start c + cnt f c k ∧
      r < x.h.numRows ∧ x.o r ≤ x.o 0 + k ∧ x.o 0 + k < x.o (r + 1) ∧ m.cols.data p = r ∧ m.vals.data p = x.mem.vals.data (x.o 0 + k) := by
    intro c p hc h1 h2
    rw [hsucc] at h2
    obtain ⟨k, k1, k2, k3⟩ := cnt_surj (f := f) (c := c) nnz (p - start c) (by omega)
    obtain ⟨r, r1, r2, r3⟩ := w.findRow (j := x.o 0 + k) (by omega) x.h.numRows (Nat.le_refl _) (by omega)
    have hp : p = start c + cnt f c k := by omega
    obtain ⟨g1, g2⟩ := m6 r k r1 r2 r3
    change m.cols.data (start (f k) + cnt f (f k) k) = r at g1
    change m.vals.data (start (f k) + cnt f (f k) k) = _ at g2
    rw [k2, ← hp] at g1 g2
    exact ⟨k, r, k1, k2, hp, r1, r2, r3, g1, g2⟩
  refine Res.ok_iff.2 ⟨⟨?_, ?_, ?_, ?_, ?_, ?_⟩, e2, e1, ?_, ?_⟩
  · simp only [CHdr.new]; omega
  · intro c hc
    simp only [CHdr.new] at hc
    rw [hO, hO, ho c (by omega), ho (c + 1) (by omega), hsucc]; omega
  · rw [hO]; simp only [CHdr.new]; rw [ho _ (Nat.le_refl _), htot, m1]
  · rw [hO]; simp only [CHdr.new]; rw [ho _ (Nat.le_refl _), htot, m2]
  · intro c p q hc h1 h2 h3
    simp only [CHdr.new] at hc
    rw [hO, ho c (by omega)] at h1; rw [hO, ho (c + 1) (by omega)] at h3
    obtain ⟨k, r, a1, a2, a3, a4, a5, a6, a7, a8⟩ := hat c p hc h1 (by omega)
    obtain ⟨k', r', b1, b2, b3, b4, b5, b6, b7, b8⟩ := hat c q hc (by omega) h3
    simp only
    rw [a7, b7]
    have hkk : k < k' := by
      by_contra hcon
      have := cnt_mono (f := f) (c := c) (show k' ≤ k by omega)
      omega
    rcases Nat.lt_trichotomy r r' with h | h | h
    · exact h
    · subst h
      have := w.sorted r (x.o 0 + k) (x.o 0 + k') a4 a5 (by omega) b6
      have t1 : f k = f k' := by rw [a2, b2]
      simp only [f] at t1; omega
    · have := w.mono' (r := r' + 1) (r' := r) (by omega) (by omega); omega
  · intro c p hc h1 h3
    simp only [CHdr.new] at hc ⊢
    rw [hO, ho c (by omega)] at h1; rw [hO, ho (c + 1) (by omega)] at h3
    obtain ⟨k, r, a1, a2, a3, a4, a5, a6, a7, a8⟩ := hat c p hc h1 h3
    rw [a7]; exact a4
  · intro c p hc h1 h3
    simp only [Mat.transpose] at hc ⊢
    rw [hO, ho c (by omega)] at h1; rw [hO, ho (c + 1) (by omega)] at h3
    obtain ⟨k, r, a1, a2, a3, a4, a5, a6, a7, a8⟩ := hat c p (by omega) h1 h3
    rw [a7, a8, ← hx.entry r (x.o 0 + k) (by omega) a5 a6]
    congr 1; exact a2.symm
  · intro c r hc hr hno
    simp only [Mat.transpose] at hc hr hno ⊢
    refine hx.rest r c hr hc fun j h1 h2 h3 => ?_
    have hj0 := w.mono' (r := 0) (r' := r) (Nat.zero_le _) (by omega)
    have hj1 := w.mono' (r := r + 1) (r' := x.h.numRows) (by omega) (Nat.le_refl _)
    have hk : j - x.o 0 < nnz := by omega
    have hjk : x.o 0 + (j - x.o 0) = j := by omega
    have hfj : f (j - x.o 0) = c := by simp only [f]; rw [hjk]; exact h3
    obtain ⟨g1, g2⟩ := m6 r (j - x.o 0) (by omega) (by omega) (by omega)
    change m.cols.data (start (f (j - x.o 0)) + cnt f (f (j - x.o 0)) (j - x.o 0)) = r at g1
    rw [hfj] at g1
    have := cnt_lt (f := f) (c := c) hk hfj
    refine hno (start c + cnt f c (j - x.o 0)) ?_ ?_ g1
    · rw [hO, ho c (by omega)]; omega
    · rw [hO, ho (c + 1) (by omega), hsucc]; omega

end Verif.Csr
