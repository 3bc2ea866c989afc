/-
  Symmetry checks (C230-C232).
-/
import Verif.Check.Model

namespace Verif.Check
open Verif Verif.Csr Verif.Dense
variable {α : Type}

theorem mem_upper {n r c : Nat} : (r, c) ∈ upper n ↔ r < c ∧ c < n := by
  simp only [upper, List.mem_flatMap, List.mem_range, List.mem_map, List.mem_range'_1, Prod.mk.injEq]
  constructor
  · rintro ⟨r', h1, c', ⟨h2, h3⟩, rfl, rfl⟩; omega
  · rintro ⟨h1, h2⟩; exact ⟨r, by omega, c, ⟨by omega, by omega⟩, rfl, rfl⟩

theorem symScan_ok {ne : α → α → Bool} {x : DM α} {a : Mat α} (hx : x.Is a) : ∀ (ps : List (Nat × Nat)),
    (∀ p ∈ ps, p.1 < a.rows ∧ p.1 < a.cols ∧ p.2 < a.rows ∧ p.2 < a.cols) →
    Res.Ok (symScan ne x ps) fun b => b = true ↔ ∀ p ∈ ps, ne (a.cell p.1 p.2) (a.cell p.2 p.1) = false := by
  intro ps
  induction ps with
  | nil => intro _; exact ⟨true, rfl, by simp⟩
  | cons p ps ih =>
    intro h
    obtain ⟨r, c⟩ := p
    obtain ⟨h1, h2, h3, h4⟩ := h (r, c) (by simp)
    unfold symScan
    have e1 : x.h.get x.mem r c = .ok (a.cell r c) := hx.2.2.2 r c h1 h4
    have e2 : x.h.get x.mem c r = .ok (a.cell c r) := hx.2.2.2 c r h3 h2
    rw [e1, e2]
    simp only [Res.ok_bind]
    cases hn : ne (a.cell r c) (a.cell c r)
    · obtain ⟨b, hb, hi⟩ := ih fun p hp => h p (by simp [hp])
      refine ⟨b, by simpa using hb, ?_⟩
      show b = true ↔ _
      rw [hi]
      simp [hn]
    · refine ⟨false, rfl, ?_⟩
      simp [hn]

/-- **C230.** `isSymmetric` of a dense matrix rejects matrices that are not square; for a square matrix it returns whether all cells above the
diagonal equal (in the sense of `!=` of the value type, so that NaN differs from NaN) the mirrored cells. -/
theorem C230_is_symmetric_dense (ne : α → α → Bool) (x : DM α) (a : Mat α) (hx : x.Is a) :
    (a.rows ≠ a.cols → Res.Throws (isSymmetricDense ne x)) ∧
    (a.rows = a.cols → ∃ b, isSymmetricDense ne x = .ok b ∧
      (b = true ↔ ∀ r c, r < c → c < a.rows → ne (a.cell r c) (a.cell c r) = false)) := by
  have e1 := hx.rows; have e2 := hx.cols
  constructor
  · intro h
    unfold isSymmetricDense
    rw [if_pos (by omega)]
    exact ⟨_, rfl⟩
  · intro h
    unfold isSymmetricDense
    rw [if_neg (by omega), e1]
    obtain ⟨b, hb, hi⟩ := symScan_ok (ne := ne) hx (upper a.rows) (by
      rintro ⟨r, c⟩ hp
      have := mem_upper.1 hp
      exact ⟨by simp only; omega, by simp only; omega, by simp only; omega, by simp only; omega⟩)
    refine ⟨b, hb, hi.trans ⟨fun h r c h1 h2 => h (r, c) (mem_upper.2 ⟨h1, h2⟩), ?_⟩⟩
    rintro h ⟨r, c⟩ hp
    exact h r c (mem_upper.1 hp).1 (mem_upper.1 hp).2

/-! ### Sparse matrices -/

theorem rowNnz {x : CM α} (w : x.WF) {r : Nat} (hr : r < x.h.numRows) :
    x.h.rowNumNonZeros x.mem r = .ok (x.o (r + 1) - x.o r) := by
  unfold CHdr.rowNumNonZeros
  rw [if_neg (by omega), w.off (by omega), w.off (by omega)]
  rfl

/-- The entry at position `p` of the arrays, in row `r`, has a mirrored entry with an equal value. -/
def Mirrored (ne : α → α → Bool) (x : CM α) (r p : Nat) : Prop :=
  ∃ q, x.o (x.mem.cols.data p) ≤ q ∧ q < x.o (x.mem.cols.data p + 1) ∧ x.mem.cols.data q = r ∧ ne (x.mem.vals.data p) (x.mem.vals.data q) = false

theorem symRow_ok {ne : α → α → Bool} {x : CM α} (w : x.WF) (hsq : x.h.numRows = x.h.numCols) {r : Nat} (hr : r < x.h.numRows) :
    ∀ (is : List Nat) (pos : Buf Nat), (∀ i ∈ is, x.o r + i < x.o (r + 1)) → pos.size = x.h.numRows →
    Res.Ok (symRow ne x r (x.o r) is pos) fun o => ∀ pos', o = some pos' → pos'.size = x.h.numRows ∧
      ∀ i ∈ is, r < x.mem.cols.data (x.o r + i) → Mirrored ne x r (x.o r + i) := by
  intro is
  have ht := w.rowTop hr
  induction is with
  | nil => intro pos _ hs; exact ⟨_, rfl, by rintro _ ⟨⟩; exact ⟨hs, by simp⟩⟩
  | cons i is ih =>
    intro pos hi hs
    have h0 := hi i (by simp)
    unfold symRow
    rw [Buf.read_eq (by omega)]
    simp only [Res.ok_bind]
    have hc := w.bound r (x.o r + i) hr (by omega) h0
    generalize hcd : x.mem.cols.data (x.o r + i) = c at hc ⊢
    by_cases hle : c ≤ r
    · rw [if_pos hle]
      refine (ih pos (fun j hj => hi j (by simp [hj])) hs).mono fun o ho pos' hp => ?_
      obtain ⟨h1, h2⟩ := ho pos' hp
      refine ⟨h1, fun j hj hlt => ?_⟩
      rcases List.mem_cons.1 hj with rfl | hj
      · omega
      · exact h2 j hj hlt
    · rw [if_neg hle, Buf.write_eq (by omega)]
      simp only [Res.ok_bind]
      rw [Buf.read_eq (by omega), w.rowPtr (by omega), rowNnz w (by omega)]
      simp only [Res.ok_bind]
      rw [Buf.read_eq (by simp; omega)]
      simp only [Res.ok_bind]
      rw [Buf.write_eq (by simp; omega)]
      simp only [Res.ok_bind]
      generalize hold : (pos.put r (i + 1)).data c = old
      have htc := w.rowTop (r := c) (by omega)
      by_cases hn : x.o (c + 1) - x.o c ≤ old
      · rw [if_pos hn]; exact ⟨_, rfl, by rintro _ ⟨⟩⟩
      · rw [if_neg hn, Buf.read_eq (by omega), Buf.read_eq (by omega)]
        simp only [Res.ok_bind]
        split
        · exact ⟨_, rfl, by rintro _ ⟨⟩⟩
        · rename_i hcond
          simp only [ne_eq, not_or, not_not, Bool.not_eq_true] at hcond
          refine (ih _ (fun j hj => hi j (by simp [hj])) (by simpa using hs)).mono fun o ho pos' hp => ?_
          obtain ⟨h1, h2⟩ := ho pos' hp
          refine ⟨h1, fun j hj hlt => ?_⟩
          rcases List.mem_cons.1 hj with rfl | hj
          · refine ⟨x.o c + old, ?_, ?_, hcond.1, hcond.2⟩
            · rw [hcd]; omega
            · rw [hcd]; omega
          · exact h2 j hj hlt

theorem symRows_ok {ne : α → α → Bool} {x : CM α} (w : x.WF) (hsq : x.h.numRows = x.h.numCols) :
    ∀ (rs : List Nat) (pos : Buf Nat), (∀ r ∈ rs, r < x.h.numRows) → pos.size = x.h.numRows →
    Res.Ok (symRows ne x rs pos) fun b => b = true → ∀ r ∈ rs, ∀ p, x.o r ≤ p → p < x.o (r + 1) → r < x.mem.cols.data p → Mirrored ne x r p := by
  intro rs
  induction rs with
  | nil => intro pos _ _; exact ⟨true, rfl, by simp⟩
  | cons r rs ih =>
    intro pos hr hs
    have hr0 := hr r (by simp)
    unfold symRows
    rw [w.rowPtr (by omega), rowNnz w hr0]
    simp only [Res.ok_bind]
    have hm := w.mono r hr0
    obtain ⟨o, ho, hp⟩ := symRow_ok (ne := ne) w hsq hr0 (List.range (x.o (r + 1) - x.o r)) pos (by intro i hi; have := List.mem_range.1 hi; omega) hs
    rw [ho]
    simp only [Res.ok_bind]
    cases o with
    | none => exact ⟨false, rfl, by simp⟩
    | some pos' =>
      obtain ⟨h1, h2⟩ := hp pos' rfl
      simp only
      rw [Buf.read_eq (by omega)]
      simp only [Res.ok_bind]
      split
      · exact ⟨false, rfl, by simp⟩
      · refine (ih pos' (fun s hs => hr s (by simp [hs])) h1).mono fun b hb hbt s hs p g1 g2 g3 => ?_
        rcases List.mem_cons.1 hs with rfl | hs
        · have := h2 (p - x.o s) (List.mem_range.2 (by omega))
          rw [show x.o s + (p - x.o s) = p by omega] at this
          exact this g3
        · exact hb hbt s hs p g1 g2 g3

/-- Positions of row `c` before `k` have columns before `r`, the others do not. -/
def Cut (x : CM α) (c r k : Nat) : Prop :=
  x.o c + k ≤ x.o (c + 1) ∧ (∀ j, j < k → x.mem.cols.data (x.o c + j) < r) ∧
    ∀ j, k ≤ j → x.o c + j < x.o (c + 1) → r ≤ x.mem.cols.data (x.o c + j)

/-- All entries off the diagonal are mirrored. -/
def StoredSym (ne : α → α → Bool) (x : CM α) : Prop := ∀ r p, r < x.h.numRows → x.o r ≤ p → p < x.o (r + 1) → x.mem.cols.data p ≠ r → Mirrored ne x r p

theorem symRow_sym {ne : α → α → Bool} {x : CM α} (w : x.WF) (hsq : x.h.numRows = x.h.numCols) (hsym : StoredSym ne x) {r : Nat} (hr : r < x.h.numRows)
    {k0 : Nat} :
    ∀ (m i : Nat) (pos : Buf Nat), x.o r + i + m = x.o (r + 1) → pos.size = x.h.numRows →
    (∀ c, r < c → c < x.h.numRows → (if ∃ k, k < i ∧ x.mem.cols.data (x.o r + k) = c then Cut x c (r + 1) (pos.data c) else Cut x c r (pos.data c))) →
    (pos.data r ≠ 0 ∨ pos.data r = k0 ∧ ∀ k, k < i → x.mem.cols.data (x.o r + k) ≤ r) →
    Res.Ok (symRow ne x r (x.o r) (List.range' i m) pos) fun o => ∃ pos', o = some pos' ∧ pos'.size = x.h.numRows ∧
      (∀ c, r < c → c < x.h.numRows → Cut x c (r + 1) (pos'.data c)) ∧
      (pos'.data r ≠ 0 ∨ pos'.data r = k0 ∧ ∀ k, x.o r + k < x.o (r + 1) → x.mem.cols.data (x.o r + k) ≤ r) := by
  intro m
  have ht := w.rowTop hr
  induction m with
  | zero =>
    intro i pos hi hs hcut hp
    refine ⟨_, rfl, pos, rfl, hs, fun c h1 h2 => ?_, ?_⟩
    · have := hcut c h1 h2
      split at this
      · exact this
      · rename_i hno
        obtain ⟨g1, g2, g3⟩ := this
        refine ⟨g1, fun j hj => by have := g2 j hj; omega, fun j hj hlt => ?_⟩
        have h3 := g3 j hj hlt
        rcases Nat.lt_or_ge r (x.mem.cols.data (x.o c + j)) with h4 | h4
        · omega
        · exfalso
          have heq : x.mem.cols.data (x.o c + j) = r := by omega
          obtain ⟨q, q1, q2, q3, -⟩ := hsym c (x.o c + j) h2 (by omega) hlt (by omega)
          rw [heq] at q1 q2
          exact hno ⟨q - x.o r, by omega, by rw [show x.o r + (q - x.o r) = q by omega]; exact q3⟩
    · rcases hp with hp | ⟨hp, hk⟩
      · exact .inl hp
      · exact .inr ⟨hp, fun k hk' => hk k (by omega)⟩
  | succ m ih =>
    intro i pos hi hs hcut hp
    rw [List.range'_succ]
    unfold symRow
    rw [Buf.read_eq (by omega)]
    simp only [Res.ok_bind]
    have hc := w.bound r (x.o r + i) hr (by omega) (by omega)
    generalize hcd : x.mem.cols.data (x.o r + i) = c at hc ⊢
    have hvis : ∀ c', r < c' → ((∃ k, k < i + 1 ∧ x.mem.cols.data (x.o r + k) = c') ↔ (∃ k, k < i ∧ x.mem.cols.data (x.o r + k) = c') ∨ c = c') := by
      intro c' _
      constructor
      · rintro ⟨k, hk, he⟩
        by_cases hki : k = i
        · right; rw [← hcd, ← hki]; exact he
        · left; exact ⟨k, by omega, he⟩
      · rintro (⟨k, hk, he⟩ | rfl)
        · exact ⟨k, by omega, he⟩
        · exact ⟨i, by omega, hcd⟩
    by_cases hle : c ≤ r
    · rw [if_pos hle]
      refine ih (i + 1) pos (by omega) hs (fun c' h1 h2 => ?_) ?_
      · have h3 := hcut c' h1 h2
        have : (∃ k, k < i + 1 ∧ x.mem.cols.data (x.o r + k) = c') ↔ (∃ k, k < i ∧ x.mem.cols.data (x.o r + k) = c') := by
          rw [hvis c' h1]
          constructor
          · rintro (h | h)
            · exact h
            · omega
          · exact Or.inl
        simp only [this]
        exact h3
      · rcases hp with hp | ⟨hp, hk⟩
        · exact .inl hp
        · refine .inr ⟨hp, fun k hk' => ?_⟩
          by_cases hki : k = i
          · rw [hki, hcd]; exact hle
          · exact hk k (by omega)
    · rw [if_neg hle, Buf.write_eq (by omega)]
      simp only [Res.ok_bind]
      have hcn : c < x.h.numRows := by omega
      rw [Buf.read_eq (by omega), w.rowPtr (by omega), rowNnz w hcn]
      simp only [Res.ok_bind]
      rw [Buf.read_eq (by simp; omega)]
      simp only [Res.ok_bind]
      rw [Buf.write_eq (by simp; omega)]
      simp only [Res.ok_bind]
      have hold : (pos.put r (i + 1)).data c = pos.data c := Buf.put_data_ne _ _ _ _ (by omega)
      rw [hold]
      have htc := w.rowTop hcn
      -- column `c` has not been visited in this row
      have hnov : ¬ ∃ k, k < i ∧ x.mem.cols.data (x.o r + k) = c := by
        rintro ⟨k, hk, he⟩
        have := w.sorted r (x.o r + k) (x.o r + i) hr (by omega) (by omega) (by omega)
        omega
      have hcc := hcut c (by omega) hcn
      rw [if_neg hnov] at hcc
      obtain ⟨g1, g2, g3⟩ := hcc
      -- the mirrored entry is the next one in row `c`
      obtain ⟨q, q1, q2, q3, q4⟩ := hsym r (x.o r + i) hr (by omega) (by omega) (by omega)
      rw [hcd] at q1 q2
      have hq : q = x.o c + pos.data c := by
        rcases Nat.lt_trichotomy q (x.o c + pos.data c) with h | h | h
        · have := g2 (q - x.o c) (by omega)
          rw [show x.o c + (q - x.o c) = q by omega] at this
          omega
        · exact h
        · have h5 := w.sorted c (x.o c + pos.data c) q hcn (by omega) h q2
          have h6 := g3 (pos.data c) (Nat.le_refl _) (by omega)
          omega
      rw [if_neg (by omega), Buf.read_eq (by omega), Buf.read_eq (by omega)]
      simp only [Res.ok_bind]
      rw [← hq, if_neg (by simp [q3, q4])]
      refine ih (i + 1) _ (by omega) (by simpa using hs) (fun c' h1 h2 => ?_) ?_
      · simp only [hvis c' h1]
        by_cases hcc' : c = c'
        · subst hcc'
          rw [if_pos (.inr rfl), Buf.put_data_same]
          refine ⟨by omega, fun j hj => ?_, fun j hj hlt => ?_⟩
          · by_cases hjk : j = pos.data c
            · rw [hjk, ← hq, q3]; omega
            · have := g2 j (by omega); omega
          · have h5 := w.sorted c (x.o c + pos.data c) (x.o c + j) hcn (by omega) (by omega) hlt
            rw [← hq, q3] at h5
            omega
        · rw [Buf.put_data_ne _ _ _ _ (by omega), Buf.put_data_ne _ _ _ _ (by omega)]
          have h3 := hcut c' h1 h2
          simp only [hcc', or_false]
          exact h3
      · left
        rw [Buf.put_data_ne _ _ _ _ (by omega), Buf.put_data_same]
        omega

theorem symRows_sym {ne : α → α → Bool} {x : CM α} (w : x.WF) (hsq : x.h.numRows = x.h.numCols) (hsym : StoredSym ne x)
    (hoff : ∀ r, r < x.h.numRows → x.o r < x.o (r + 1) → ∃ p, x.o r ≤ p ∧ p < x.o (r + 1) ∧ x.mem.cols.data p ≠ r) :
    ∀ (m r : Nat) (pos : Buf Nat), r + m = x.h.numRows → pos.size = x.h.numRows →
    (∀ c, r ≤ c → c < x.h.numRows → Cut x c r (pos.data c)) → symRows ne x (List.range' r m) pos = .ok true := by
  intro m
  induction m with
  | zero => intro r pos _ _ _; rfl
  | succ m ih =>
    intro r pos hrm hs hcut
    have hr : r < x.h.numRows := by omega
    have hm := w.mono r hr
    rw [List.range'_succ]
    unfold symRows
    rw [w.rowPtr (by omega), rowNnz w hr]
    simp only [Res.ok_bind]
    obtain ⟨o, ho, pos', rfl, h1, h2, h3⟩ := symRow_sym (ne := ne) w hsq hsym hr (k0 := pos.data r) (x.o (r + 1) - x.o r) 0 pos (by omega) hs
      (fun c g1 g2 => by
        rw [if_neg (by rintro ⟨k, hk, -⟩; omega)]
        exact hcut c (by omega) g2) (.inr ⟨rfl, by intro k hk; omega⟩)
    rw [List.range_eq_range', ho]
    simp only [Res.ok_bind]
    rw [Buf.read_eq (by omega)]
    simp only [Res.ok_bind]
    rw [if_neg]
    · exact ih (r + 1) pos' (by omega) h1 fun c g1 g2 => h2 c (by omega) g2
    · rintro ⟨g1, g2⟩
      rcases h3 with h3 | ⟨h3, h4⟩
      · exact h3 g1
      · obtain ⟨p, p1, p2, p3⟩ := hoff r hr (by omega)
        have h5 := h4 (p - x.o r) (by omega)
        rw [show x.o r + (p - x.o r) = p by omega] at h5
        obtain ⟨-, -, c3⟩ := hcut r (Nat.le_refl _) hr
        have h6 := c3 (p - x.o r) (by omega) (by omega)
        rw [show x.o r + (p - x.o r) = p by omega] at h6
        omega

/-- **C231.** `isSymmetric` of a sparse matrix rejects matrices that are not square, and otherwise returns. If it returns `true`, then every
stored entry above the diagonal equals the mirrored cell. A symmetric matrix without stored zeros, in which every row with a diagonal
entry also has another entry, is found symmetric. -/
theorem C231_is_symmetric_sparse (ne : α → α → Bool) (zero : α) (x : CM α) (a : Mat α) (hx : x.Is zero a) :
    (a.rows ≠ a.cols → Res.Throws (isSymmetricCsr ne x)) ∧
    (a.rows = a.cols → ∃ b, isSymmetricCsr ne x = .ok b ∧
      (b = true → ∀ r c, r < c → c < a.cols → c ∈ x.rowCols r → ne (a.cell r c) (a.cell c r) = false) ∧
      ((∀ u v, ne u v = false ↔ u = v) → x.NoZeros zero → (∀ r c, r < a.rows → c < a.cols → a.cell r c = a.cell c r) →
        (∀ r, r < a.rows → a.cell r r ≠ zero → ∃ c, c < a.cols ∧ c ≠ r ∧ a.cell r c ≠ zero) → b = true)) := by
  have e1 := hx.rows; have e2 := hx.cols
  have w := hx.wf
  constructor
  · intro h
    unfold isSymmetricCsr
    rw [if_pos (by omega)]
    exact ⟨_, rfl⟩
  · intro h
    unfold isSymmetricCsr
    rw [if_neg (by omega)]
    by_cases h1 : x.h.numRows ≤ 1
    · rw [if_pos h1]
      exact ⟨true, rfl, fun _ r c h2 h3 => by omega, fun _ _ _ _ => rfl⟩
    · rw [if_neg h1]
      obtain ⟨b, hb, hi⟩ := symRows_ok (ne := ne) w (by omega) (List.range x.h.numRows) ⟨x.h.numRows, fun _ => 0⟩ (by simp) rfl
      refine ⟨b, hb, fun hbt r c h2 h3 h4 => ?_, fun hne hnz hsym hoff => ?_⟩
      · obtain ⟨p, p1, p2, rfl⟩ := CM.mem_rowCols.1 h4
        obtain ⟨q, q1, q2, q3, q4⟩ := hi hbt r (List.mem_range.2 (by omega)) p p1 p2 h2
        have f1 := hx.entry r p (by omega) p1 p2
        have f2 := hx.entry (x.mem.cols.data p) q (by omega) q1 q2
        rw [q3] at f2
        rw [f1, f2]
        exact q4
      · have hst : StoredSym ne x := by
          intro r p hr p1 p2 _
          have hc := w.bound r p hr p1 p2
          have f1 := hx.entry r p (by omega) p1 p2
          have hnz1 := hnz r p hr p1 p2
          have hm : r ∈ x.rowCols (x.mem.cols.data p) := by
            rw [hx.mem_rowCols_iff hnz (by omega)]
            refine ⟨by omega, ?_⟩
            rw [← hsym r _ (by omega) (by omega), f1]
            exact hnz1
          obtain ⟨q, q1, q2, q3⟩ := CM.mem_rowCols.1 hm
          refine ⟨q, q1, q2, q3, ?_⟩
          rw [hne]
          have f2 := hx.entry (x.mem.cols.data p) q (by omega) q1 q2
          rw [q3] at f2
          rw [← f1, ← f2]
          exact hsym r _ (by omega) (by omega)
        have hb' := symRows_sym w (by omega) hst (by
          intro r hr hlt
          by_contra hno
          push Not at hno
          have h5 := hno (x.o r) (Nat.le_refl _) hlt
          have f1 := hx.entry r (x.o r) (by omega) (Nat.le_refl _) hlt
          rw [h5] at f1
          obtain ⟨c, c1, c2, c3⟩ := hoff r (by omega) (by rw [f1]; exact hnz r _ hr (Nat.le_refl _) hlt)
          obtain ⟨p, p1, p2, p3⟩ := CM.mem_rowCols.1 ((hx.mem_rowCols_iff hnz (by omega)).2 ⟨c1, c3⟩)
          have := hno p p1 p2
          omega) x.h.numRows 0 ⟨x.h.numRows, fun _ => 0⟩ (by omega) rfl (by
            intro c _ hc
            refine ⟨?_, by intro j hj; simp at hj, by intros; omega⟩
            have := w.mono c hc
            simpa using this)
        rw [List.range_eq_range', hb'] at hb
        cases hb
        rfl

/-- **C232 (refuted).** Full statement: `isSymmetric` of a sparse square matrix returns whether the matrix is symmetric. False: no matrix with
at least two rows whose first row holds only the diagonal entry is found symmetric (the identity matrix, say), and this matrix, for all `u`, `v`, is
(if `v` equals itself) although it is not symmetric unless `u` is zero:
```
0 0 0
u 0 v
0 v 0
``` -/
theorem C232_is_symmetric_sparse_partial (ne : α → α → Bool) :
    (∀ (zero : α) (x : CM α) (a : Mat α), x.Is zero a → a.rows = a.cols → 2 ≤ a.rows → x.rowCols 0 = [0] → isSymmetricCsr ne x = .ok false) ∧
    (∀ zero u v : α, ne v v = false → ∃ (x : CM α) (a : Mat α), x.Is zero a ∧ a.rows = 3 ∧ a.cols = 3 ∧ a.cell 0 1 = zero ∧ a.cell 1 0 = u ∧
      isSymmetricCsr ne x = .ok true) := by
  constructor
  · intro zero x a hx h1 h2 h3
    have e1 := hx.rows; have e2 := hx.cols
    have w := hx.wf
    have hlen : x.o 1 - x.o 0 = 1 := by
      have := congrArg List.length h3
      simpa [CM.rowCols] using this
    have hc0 : x.mem.cols.data (x.o 0) = 0 := by
      unfold CM.rowCols at h3
      rw [show (0 : Nat) + 1 = 1 from rfl, hlen] at h3
      simpa using h3
    have ht := w.rowTop (r := 0) (by omega)
    unfold isSymmetricCsr
    rw [if_neg (by omega), if_neg (by omega)]
    obtain ⟨m, hm⟩ : ∃ m, x.h.numRows = m + 1 := ⟨x.h.numRows - 1, by omega⟩
    rw [List.range_eq_range', hm, List.range'_succ]
    unfold symRows
    rw [w.rowPtr (by omega), rowNnz w (by omega)]
    simp only [Res.ok_bind, Nat.zero_add, hlen, List.range_one]
    unfold symRow
    rw [Nat.add_zero, Buf.read_eq (by simp only [Nat.zero_add] at ht; omega)]
    simp only [Res.ok_bind, hc0, Nat.le_refl, if_true, symRow]
    rw [Buf.read_eq (by simp)]
    simp [Res.ok_bind]
  · intro zero u v hv
    refine ⟨⟨CHdr.new 3 3, ⟨Buf.mk 3 fun p => if p = 0 then u else v, Buf.mk 3 fun p => if p = 0 then 0 else if p = 1 then 2 else 1,
      Buf.mk 4 fun r => if r = 0 then 0 else if r = 1 then 0 else if r = 2 then 2 else 3⟩⟩,
      ⟨3, 3, fun r c => if r = 1 ∧ c = 0 then u else if r = 1 ∧ c = 2 then v else if r = 2 ∧ c = 1 then v else zero⟩, ?_, rfl, rfl, by simp, by simp, ?_⟩
    · refine ⟨⟨by simp [CHdr.new], ?_, by simp [CM.o, CHdr.new], by simp [CM.o, CHdr.new], ?_, ?_⟩, rfl, rfl, ?_, ?_⟩
      · intro r hr
        simp only [CHdr.new] at hr
        rcases (by omega : r = 0 ∨ r = 1 ∨ r = 2) with rfl | rfl | rfl <;> simp [CM.o, CHdr.new]
      · intro r p q hr h1 h2 h3
        simp only [CHdr.new] at hr
        rcases (by omega : r = 0 ∨ r = 1 ∨ r = 2) with rfl | rfl | rfl <;> simp [CM.o, CHdr.new] at h1 h2 h3 ⊢
        all_goals (try omega)
        have hp : p = 0 := by omega
        have hq : q = 1 := by omega
        subst hp hq; simp
      · intro r p hr h1 h2
        simp only [CHdr.new] at hr ⊢
        split
        · omega
        · split <;> omega
      · intro r p hr h1 h2
        simp only at hr
        rcases (by omega : r = 0 ∨ r = 1 ∨ r = 2) with rfl | rfl | rfl <;> simp [CM.o, CHdr.new] at h1 h2 ⊢
        · rcases (by omega : p = 0 ∨ p = 1) with rfl | rfl <;> simp
        · have hp : p = 2 := by omega
          subst hp; simp
      · intro r c hr hc h
        simp only at hr hc
        rcases (by omega : r = 0 ∨ r = 1 ∨ r = 2) with rfl | rfl | rfl <;> simp [CM.o, CHdr.new] at h ⊢
        · have h1 := h 0 (by omega); have h2 := h 1 (by omega)
          simp at h1 h2
          rw [if_neg (by omega), if_neg (by omega)]
        · have h2 := h 2 (by omega) (by omega)
          simp at h2
          intro h; omega
    · simp [isSymmetricCsr, CHdr.new, symRows, symRow, CHdr.rowPtr, CHdr.rowNumNonZeros, CHdr.off, Buf.read, Buf.write, Buf.put, Res.ok_bind, List.range_succ, hv]

/-! ### Examples -/

/-- ```
    0 7 0
    7 1 2
    0 2 0
    ``` -/
def exSym : CM Int := ⟨CHdr.new 3 3, ⟨⟨5, fun p => [7, 7, 1, 2, 2].getD p 0⟩, ⟨5, fun p => [1, 0, 1, 2, 1].getD p 0⟩, ⟨4, fun r => [0, 1, 4, 5].getD r 0⟩⟩⟩

example : isSymmetricCsr (fun a b => a != b) exSym = .ok true := by decide +kernel

/-- The identity matrix. -/
def exId : CM Int := ⟨CHdr.new 2 2, ⟨⟨2, fun _ => 1⟩, ⟨2, fun p => p⟩, ⟨3, fun r => r⟩⟩⟩

example : isSymmetricCsr (fun a b => a != b) exId = .ok false := by decide +kernel

example : exId.rowCols 0 = [0] ∧ exId.Is 0 ⟨2, 2, fun r c => if r = c then 1 else 0⟩ := by
  refine ⟨by decide +kernel, ⟨by simp [exId, CHdr.new], by simp [exId, CM.o], by simp [exId, CM.o, CHdr.new], by simp [exId, CM.o, CHdr.new], ?_, ?_⟩, rfl, rfl, ?_, ?_⟩
  · intro r p q _ h1 h2 h3; simp [exId, CM.o, CHdr.new] at h1 h3; omega
  · intro r p hr h1 h2; simp [exId, CM.o, CHdr.new] at h1 h2 hr ⊢; omega
  · intro r p hr h1 h2; simp [exId, CM.o, CHdr.new] at h1 h2 hr ⊢; omega
  · intro r c hr hc h
    have := h r
    simp [exId, CM.o, CHdr.new] at this
    simp [this]

example : isSymmetricDense (fun a b => a != b) exM = .error (.throw "the provided matrix is not square") := by decide +kernel
example : isSymmetricDense (fun a b : Int => a != b) ⟨Hdr.new 2 2, ⟨4, fun p => [1, 5, 5, 2].getD p 0⟩⟩ = .ok true := by decide +kernel

end Verif.Check
