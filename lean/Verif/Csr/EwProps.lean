/-
  C47: elementwise operations on sparse matrices: proofs.
-/
import Verif.Csr.Ew

namespace Verif.Csr
open Verif Verif.Vect
variable {α : Type}

/-! ### Building a row from left to right -/

theorem RowOk.skip {zero : α} {cols : Nat → Nat} {vals : Nat → α} {b e K K' : Nat} {cell : Nat → α} (h : RowOk zero cols vals b e K cell)
    (hK : K ≤ K') (hz : ∀ c, K ≤ c → c < K' → cell c = zero) : RowOk zero cols vals b e K' cell :=
  ⟨h.le, h.sorted, fun p h1 h2 => Nat.lt_of_lt_of_le (h.bound p h1 h2) hK, h.entry, fun c hc hno => by
    by_cases h' : c < K
    · exact h.rest c h' hno
    · exact hz c (by omega) hc⟩

theorem RowOk.push {zero : α} {cols cols' : Nat → Nat} {vals vals' : Nat → α} {b e K : Nat} {cell : Nat → α} (h : RowOk zero cols vals b e K cell)
    (hc : ∀ p, b ≤ p → p < e → cols' p = cols p) (hv : ∀ p, b ≤ p → p < e → vals' p = vals p) (hce : cols' e = K) (hve : vals' e = cell K) :
    RowOk zero cols' vals' b (e + 1) (K + 1) cell := by
  have hle := h.le
  refine ⟨by omega, fun p q h1 h2 h3 => ?_, fun p h1 h2 => ?_, fun p h1 h2 => ?_, fun c h1 h2 => ?_⟩
  · by_cases hq : q = e
    · subst hq; rw [hce, hc p h1 h2]; exact h.bound p h1 h2
    · rw [hc p h1 (by omega), hc q (by omega) (by omega)]; exact h.sorted p q h1 h2 (by omega)
  · by_cases hp : p = e
    · subst hp; omega
    · rw [hc p h1 (by omega)]; have := h.bound p h1 (by omega); omega
  · by_cases hp : p = e
    · subst hp; rw [hce, hve]
    · rw [hc p h1 (by omega), hv p h1 (by omega)]; exact h.entry p h1 (by omega)
  · by_cases hcK : c = K
    · subst hcK; exact absurd hce (h2 e hle (by omega))
    · exact h.rest c (by omega) fun p p1 p2 p3 => h2 p p1 (by omega) (by rw [hc p p1 p2]; exact p3)

/-- Position `l` splits the row at column `K`. -/
def Split (cols : Nat → Nat) (b e l K : Nat) : Prop :=
  b ≤ l ∧ l ≤ e ∧ (∀ q, b ≤ q → q < l → cols q < K) ∧ (∀ q, l ≤ q → q < e → K ≤ cols q)

theorem Split.gap {zero : α} {cols : Nat → Nat} {vals : Nat → α} {b e C l K : Nat} {cell : Nat → α} (h : RowOk zero cols vals b e C cell)
    (s : Split cols b e l K) {c : Nat} (h1 : K ≤ c) (h2 : c < C) (h3 : l < e → c < cols l) : cell c = zero := by
  obtain ⟨s1, s2, s3, s4⟩ := s
  refine h.rest c h2 fun p p1 p2 p3 => ?_
  by_cases hp : p < l
  · have := s3 p p1 hp; omega
  · have h4 := h3 (by omega)
    by_cases hpl : p = l
    · subst hpl; omega
    · have := h.sorted l p s1 (by omega) p2; omega

theorem Split.stay {cols : Nat → Nat} {b e l K K' : Nat} (s : Split cols b e l K) (hK : K ≤ K') (hsorted : ∀ p q, b ≤ p → p < q → q < e → cols p < cols q)
    (h : l < e → K' ≤ cols l) : Split cols b e l K' := by
  obtain ⟨s1, s2, s3, s4⟩ := s
  refine ⟨s1, s2, fun q a b => by have := s3 q a b; omega, fun q a b => ?_⟩
  have h' := h (by omega)
  by_cases hq : q = l
  · subst hq; exact h'
  · have := hsorted l q s1 (by omega) b; omega

theorem Split.next {cols : Nat → Nat} {b e l K : Nat} (s : Split cols b e l K) (hl : l < e) (hsorted : ∀ p q, b ≤ p → p < q → q < e → cols p < cols q) :
    Split cols b e (l + 1) (cols l + 1) := by
  obtain ⟨s1, s2, s3, s4⟩ := s
  refine ⟨by omega, by omega, fun q a b => ?_, fun q a b => ?_⟩
  · by_cases hq : q = l
    · subst hq; omega
    · have := s3 q a (by omega); have := s4 l (Nat.le_refl _) hl; omega
  · have := hsorted l q s1 (by omega) b; omega

/-- The rest of a row is copied, the other operand contributes nothing any more. -/
theorem RowOk.copyRest {zero : α} {xc : Nat → Nat} {xv : Nat → α} {b e C : Nat} {A : Nat → α} (hA : RowOk zero xc xv b e C A) {cell : Nat → α}
    {cols' : Nat → Nat} {vals' : Nat → α} {d p0 : Nat} (n : Nat) : ∀ (l p K : Nat) , e - l = n → K ≤ C → Split xc b e l K →
      RowOk zero cols' vals' p0 p K cell → (∀ c, K ≤ c → c < C → cell c = A c) →
      (∀ q, l ≤ q → q < e → cols' (p + (q - l)) = xc q ∧ vals' (p + (q - l)) = xv q) → d = p + n → RowOk zero cols' vals' p0 d C cell := by
  induction n with
  | zero =>
    intro l p K hn hK s h hcell hcp hd
    subst hd
    refine h.skip hK fun c h1 h2 => ?_
    rw [hcell c h1 h2]
    have := s.2.1
    exact s.gap hA h1 h2 (by omega)
  | succ n ih =>
    intro l p K hn hK s h hcell hcp hd
    have hl : l < e := by omega
    have hKl := s.2.2.2 l (Nat.le_refl _) hl
    have hbl := hA.bound l s.1 hl
    obtain ⟨c1, c2⟩ := hcp l (Nat.le_refl _) hl
    rw [Nat.sub_self, Nat.add_zero] at c1 c2
    have h1 := (h.skip hKl fun c a1 a2 => by
      rw [hcell c a1 (by omega)]; exact s.gap hA a1 (by omega) (fun _ => a2)).push (cols' := cols') (vals' := vals') (fun _ _ _ => rfl)
      (fun _ _ _ => rfl) c1 (by rw [c2, hcell _ hKl hbl, hA.entry l s.1 hl])
    refine ih (l + 1) (p + 1) _ (by omega) hbl (s.next hl hA.sorted) h1 (fun c a1 a2 => hcell c (by omega) a2) (fun q a1 a2 => ?_) (by omega)
    have := hcp q (by omega) a2
    rw [show p + 1 + (q - (l + 1)) = p + (q - l) by omega]; exact this

/-! ### The loop over the rows -/

/-- What one row of a kernel has to achieve. -/
def RowFnOk (zero : α) (W : Mat α) (cap : Nat) (bound : Nat → Nat) (rowFn : Nat → Nat → Buf α → Buf Nat → Res (Nat × Buf α × Buf Nat)) : Prop :=
  ∀ row p vs cs, row < W.rows → p ≤ bound row → vs.size = cap → cs.size = cap →
    Res.Ok (rowFn row p vs cs) (fun o => o.2.1.size = cap ∧ o.2.2.size = cap ∧ o.1 ≤ bound (row + 1) ∧
      RowOk zero o.2.2.data o.2.1.data p o.1 W.cols (W.cell row) ∧ ∀ q, q < p → o.2.1.data q = vs.data q ∧ o.2.2.data q = cs.data q)

theorem rowsLoop_ok {zero : α} {W : Mat α} {cap : Nat} {bound : Nat → Nat} {rowFn : Nat → Nat → Buf α → Buf Nat → Res (Nat × Buf α × Buf Nat)}
    (hfn : RowFnOk zero W cap bound rowFn) (hb : bound W.rows ≤ cap) (jv : Nat → α) (jc jo : Nat → Nat) :
    Res.Ok (rowsLoop W.rows rowFn (CM.create W.rows W.cols cap jv jc jo).mem) (fun m => CM.Is zero ⟨CHdr.new W.rows W.cols, m⟩ W) := by
  unfold rowsLoop CM.create
  simp only
  rw [Buf.write_eq (by simp only; omega)]
  simp only [Res.ok_bind]
  refine (forLoop_ok (fun k (m : CMem α) => m.vals.size = cap ∧ m.cols.size = cap ∧ m.offs.size = W.rows + 1 ∧ m.offs.data k ≤ bound k ∧
    (∀ r, r < k → RowOk zero m.cols.data m.vals.data (m.offs.data r) (m.offs.data (r + 1)) W.cols (W.cell r)) ∧
    ∀ r, r < k → m.offs.data (r + 1) ≤ m.offs.data k) 0 W.rows _ (Nat.zero_le _) ?_ ?_).mono ?_
  · exact ⟨rfl, rfl, rfl, by simp, by omega, by omega⟩
  · rintro k m - hk ⟨i1, i2, i3, i4, i5, i6⟩
    rw [Buf.read_eq (by omega)]
    simp only [Res.ok_bind]
    refine (hfn k _ m.vals m.cols hk i4 i1 i2).bind ?_
    rintro ⟨e, vs, cs⟩ ⟨g1, g2, g3, g4, g5⟩
    simp only at g1 g2 g3 g4 g5 ⊢
    rw [Buf.write_eq (by omega)]
    simp only [Res.ok_bind]
    have hle := g4.le
    refine Res.ok_iff.2 ⟨g1, g2, by simpa using i3, by simpa using g3, fun r hr => ?_, fun r hr => ?_⟩
    · simp only [Buf.put_data]
      by_cases e1 : r = k
      · subst e1
        rw [if_neg (by omega), if_pos rfl]; exact g4
      · rw [if_neg (by omega), if_neg (by omega)]
        have := i6 r (by omega)
        exact (i5 r (by omega)).congr (fun q _ h => (g5 q (by omega)).2) (fun q _ h => (g5 q (by omega)).1) (fun _ _ => rfl)
    · simp only [Buf.put_data, if_pos]
      by_cases e1 : r = k
      · rw [if_pos (by omega)]
      · rw [if_neg (by omega)]
        have := i6 r (by omega); omega
  · rintro m ⟨i1, i2, i3, i4, i5, i6⟩
    have ho : ∀ r, CM.o ⟨CHdr.new W.rows W.cols, m⟩ r = m.offs.data r := by intro r; simp [CM.o, CHdr.new]
    refine CM.Is.ofRows rfl rfl ?_ ?_ ?_ ?_
    · simp only [CHdr.new]; omega
    · rw [ho, show (CHdr.new W.rows W.cols).numRows = W.rows from rfl]; simp only; omega
    · rw [ho, show (CHdr.new W.rows W.cols).numRows = W.rows from rfl]; simp only; omega
    · intro r hr
      rw [ho, ho]; exact i5 r hr

/-! ### Addition -/

theorem CM.WF.rowNum {x : CM α} (w : x.WF) {r : Nat} (hr : r < x.h.numRows) : x.h.rowNumNonZeros x.mem r = .ok (x.o (r + 1) - x.o r) := by
  unfold CHdr.rowNumNonZeros
  rw [if_neg (by omega), w.off (by omega), w.off (by omega)]; rfl

theorem mergeRow_ok [DecidableEq α] {zero : α} {f : α → α → α} (f1 : ∀ a, f a zero = a) (f2 : ∀ b, f zero b = b) {x y : CMem α} {lb le rb re C : Nat}
    {A B : Nat → α} (hA : RowOk zero x.cols.data x.vals.data lb le C A) (hB : RowOk zero y.cols.data y.vals.data rb re C B)
    (tx : le ≤ x.vals.size ∧ le ≤ x.cols.size) (ty : re ≤ y.vals.size ∧ re ≤ y.cols.size) {cap p0 : Nat} :
    ∀ (fuel l r p : Nat) (vs : Buf α) (cs : Buf Nat) (K : Nat), (le - l) + (re - r) ≤ fuel → p + (le - l) + (re - r) ≤ cap → vs.size = cap → cs.size = cap →
      K ≤ C → Split x.cols.data lb le l K → Split y.cols.data rb re r K → RowOk zero cs.data vs.data p0 p K (fun c => f (A c) (B c)) →
      Res.Ok (mergeRow zero f x y le re fuel l r p vs cs) (fun (l', r', p', vs', cs') =>
        ∃ K', vs'.size = cap ∧ cs'.size = cap ∧ p' + (le - l') + (re - r') ≤ p + (le - l) + (re - r) ∧ K' ≤ C ∧ Split x.cols.data lb le l' K' ∧ Split y.cols.data rb re r' K' ∧
        RowOk zero cs'.data vs'.data p0 p' K' (fun c => f (A c) (B c)) ∧ (l' = le ∨ r' = re) ∧
        ∀ q, q < p0 → vs'.data q = vs.data q ∧ cs'.data q = cs.data q) := by
  intro fuel
  induction fuel with
  | zero =>
    intro l r p vs cs K hf hcap sv sc hK s t h
    have := s.2.1
    unfold mergeRow
    exact Res.ok_iff.2 ⟨K, sv, sc, Nat.le_refl _, hK, s, t, h, .inl (by omega), fun _ _ => ⟨rfl, rfl⟩⟩
  | succ fuel ih =>
    intro l r p vs cs K hf hcap sv sc hK s t h
    unfold mergeRow
    by_cases hlr : l < le ∧ r < re
    · obtain ⟨hl, hr⟩ := hlr
      rw [if_pos ⟨hl, hr⟩, Buf.read_eq (by omega)]
      simp only [Res.ok_bind]
      rw [Buf.read_eq (by omega)]
      simp only [Res.ok_bind]
      have kl := s.2.2.2 l (Nat.le_refl _) hl
      have kr := t.2.2.2 r (Nat.le_refl _) hr
      have bl := hA.bound l s.1 hl
      have br := hB.bound r t.1 hr
      have hz : ∀ K', K ≤ K' → K' ≤ C → K' ≤ x.cols.data l → K' ≤ y.cols.data r → RowOk zero cs.data vs.data p0 p K' (fun c => f (A c) (B c)) := by
        intro K' a1 a2 a3 a4
        refine h.skip a1 fun c c1 c2 => ?_
        rw [s.gap hA c1 (by omega) (by omega), t.gap hB c1 (by omega) (by omega), f1]
      have hle := h.le
      by_cases hc : x.cols.data l = y.cols.data r
      · rw [if_pos hc, Buf.read_eq (by omega)]
        simp only [Res.ok_bind]
        rw [Buf.read_eq (by omega)]
        simp only [Res.ok_bind]
        have s' := s.next hl hA.sorted
        have t' := t.next hr hB.sorted
        rw [← hc] at t'
        have hz' := hz _ kl (by omega) (Nat.le_refl _) (by omega)
        have ha := hA.entry l s.1 hl
        have hb := hB.entry r t.1 hr
        rw [← hc] at hb
        by_cases hne : f (x.vals.data l) (y.vals.data r) ≠ zero
        · rw [if_pos hne, Buf.write_eq (by omega)]
          simp only [Res.ok_bind]
          rw [Buf.write_eq (by omega)]
          simp only [Res.ok_bind]
          refine (ih (l + 1) (r + 1) (p + 1) _ _ (x.cols.data l + 1) (by omega) (by omega) (by simpa using sv) (by simpa using sc) bl s' t' ?_).mono ?_
          · exact hz'.push (fun q _ hq => Buf.put_data_ne _ _ _ _ (by omega)) (fun q _ hq => Buf.put_data_ne _ _ _ _ (by omega)) (by simp)
              (by simp [ha, hb])
          · rintro ⟨l', r', p', vs', cs'⟩ ⟨K', g1, g2, g3, g4, g5, g6, g7, g8, g9⟩
            refine ⟨K', g1, g2, Nat.le_trans g3 (by omega), g4, g5, g6, g7, g8, fun q hq => ?_⟩
            rw [(g9 q hq).1, (g9 q hq).2, Buf.put_data_ne _ _ _ _ (by omega), Buf.put_data_ne _ _ _ _ (by omega)]
            exact ⟨rfl, rfl⟩
        · rw [if_neg hne]
          refine (ih (l + 1) (r + 1) p _ _ (x.cols.data l + 1) (by omega) (by omega) sv sc bl s' t' ?_).mono ?_
          · refine hz'.skip (by omega) fun c c1 c2 => ?_
            rw [show c = x.cols.data l by omega, ha, hb]
            exact not_not.1 hne
          · rintro ⟨l', r', p', vs', cs'⟩ ⟨K', g1, g2, g3, g4, g5, g6, g7, g8, g9⟩
            exact ⟨K', g1, g2, Nat.le_trans g3 (by omega), g4, g5, g6, g7, g8, g9⟩
      · rw [if_neg hc]
        by_cases hlt : x.cols.data l < y.cols.data r
        · rw [if_pos hlt, Buf.read_eq (by omega)]
          simp only [Res.ok_bind]
          rw [Buf.write_eq (by omega)]
          simp only [Res.ok_bind]
          rw [Buf.write_eq (by omega)]
          simp only [Res.ok_bind]
          have hb0 : B (x.cols.data l) = zero := t.gap hB kl bl (fun _ => hlt)
          refine (ih (l + 1) r (p + 1) _ _ (x.cols.data l + 1) (by omega) (by omega) (by simpa using sv) (by simpa using sc) bl
            (s.next hl hA.sorted) (t.stay (by omega) hB.sorted (by omega)) ?_).mono ?_
          · exact (hz _ kl (by omega) (Nat.le_refl _) (by omega)).push (fun q _ hq => Buf.put_data_ne _ _ _ _ (by omega))
              (fun q _ hq => Buf.put_data_ne _ _ _ _ (by omega)) (by simp) (by simp [hb0, f1, hA.entry l s.1 hl])
          · rintro ⟨l', r', p', vs', cs'⟩ ⟨K', g1, g2, g3, g4, g5, g6, g7, g8, g9⟩
            refine ⟨K', g1, g2, Nat.le_trans g3 (by omega), g4, g5, g6, g7, g8, fun q hq => ?_⟩
            rw [(g9 q hq).1, (g9 q hq).2, Buf.put_data_ne _ _ _ _ (by omega), Buf.put_data_ne _ _ _ _ (by omega)]
            exact ⟨rfl, rfl⟩
        · rw [if_neg hlt, Buf.read_eq (by omega)]
          simp only [Res.ok_bind]
          rw [Buf.write_eq (by omega)]
          simp only [Res.ok_bind]
          rw [Buf.write_eq (by omega)]
          simp only [Res.ok_bind]
          have ha0 : A (y.cols.data r) = zero := s.gap hA kr br (fun _ => by omega)
          refine (ih l (r + 1) (p + 1) _ _ (y.cols.data r + 1) (by omega) (by omega) (by simpa using sv) (by simpa using sc) br
            (s.stay (by omega) hA.sorted (by omega)) (t.next hr hB.sorted) ?_).mono ?_
          · exact (hz _ kr (by omega) (by omega) (Nat.le_refl _)).push (fun q _ hq => Buf.put_data_ne _ _ _ _ (by omega))
              (fun q _ hq => Buf.put_data_ne _ _ _ _ (by omega)) (by simp) (by simp [ha0, f2, hB.entry r t.1 hr])
          · rintro ⟨l', r', p', vs', cs'⟩ ⟨K', g1, g2, g3, g4, g5, g6, g7, g8, g9⟩
            refine ⟨K', g1, g2, Nat.le_trans g3 (by omega), g4, g5, g6, g7, g8, fun q hq => ?_⟩
            rw [(g9 q hq).1, (g9 q hq).2, Buf.put_data_ne _ _ _ _ (by omega), Buf.put_data_ne _ _ _ _ (by omega)]
            exact ⟨rfl, rfl⟩
    · rw [if_neg hlr]
      have := s.2.1; have := t.2.1
      exact Res.ok_iff.2 ⟨K, sv, sc, Nat.le_refl _, hK, s, t, h, by omega, fun _ _ => ⟨rfl, rfl⟩⟩

theorem addRow_ok [DecidableEq α] {zero : α} {f : α → α → α} (f1 : ∀ a, f a zero = a) (f2 : ∀ b, f zero b = b) {x y : CM α} {a b : Mat α}
    (hx : x.Is zero a) (hy : y.Is zero b) (hr : a.rows = b.rows) (hc : a.cols = b.cols) :
    RowFnOk zero (Mat.zip f a b) ((x.o x.h.numRows - x.o 0) + (y.o y.h.numRows - y.o 0)) (fun r => (x.o r - x.o 0) + (y.o r - y.o 0))
      (addRow zero f x y) := by
  intro row p vs cs hrow hp sv sc
  have e1 := hx.rows; have e2 := hx.cols; have g1 := hy.rows; have g2 := hy.cols
  have hrow' : row < a.rows := hrow
  have hA := hx.row hrow'
  have hB := hy.row (r := row) (by omega)
  rw [← hc] at hB
  have tx := hx.wf.rowTop (r := row) (by omega)
  have ty := hy.wf.rowTop (r := row) (by omega)
  have mx := hx.wf.mono' (r := 0) (r' := row) (by omega) (by omega)
  have my := hy.wf.mono' (r := 0) (r' := row) (by omega) (by omega)
  have mx1 := hx.wf.mono row (by omega)
  have my1 := hy.wf.mono row (by omega)
  have mx2 := hx.wf.mono' (r := row + 1) (r' := x.h.numRows) (by omega) (by omega)
  have my2 := hy.wf.mono' (r := row + 1) (r' := y.h.numRows) (by omega) (by omega)
  generalize hcap : (x.o x.h.numRows - x.o 0) + (y.o y.h.numRows - y.o 0) = cap at *
  simp only at hp ⊢
  have sA : Split x.mem.cols.data (x.o row) (x.o (row + 1)) (x.o row) 0 := ⟨Nat.le_refl _, mx1, by omega, by omega⟩
  have sB : Split y.mem.cols.data (y.o row) (y.o (row + 1)) (y.o row) 0 := ⟨Nat.le_refl _, my1, by omega, by omega⟩
  have hcell : (Mat.zip f a b).cell row = fun c => f (a.cell row c) (b.cell row c) := rfl
  have hcols : (Mat.zip f a b).cols = a.cols := rfl
  rw [hcell, hcols]
  have allA : x.o (row + 1) = x.o row → ∀ c, c < a.cols → a.cell row c = zero := fun h c hc' => hA.rest c hc' fun p h1 h2 => by omega
  have allB : y.o (row + 1) = y.o row → ∀ c, c < a.cols → b.cell row c = zero := fun h c hc' => hB.rest c hc' fun p h1 h2 => by omega
  have empty : ∀ (v : Nat → α) (c : Nat → Nat) (cell : Nat → α), RowOk zero c v p p 0 cell := fun v c cell =>
    ⟨Nat.le_refl _, by omega, by omega, by omega, by omega⟩
  unfold addRow
  rw [hx.wf.rowNum (by omega), hy.wf.rowNum (by omega)]
  simp only [Res.ok_bind]
  by_cases hl : x.o (row + 1) - x.o row ≠ 0
  · by_cases hr' : y.o (row + 1) - y.o row ≠ 0
    · rw [if_pos ⟨hl, hr'⟩, hx.wf.rowPtr (by omega), hy.wf.rowPtr (by omega)]
      simp only [Res.ok_bind]
      rw [show x.o row + (x.o (row + 1) - x.o row) = x.o (row + 1) by omega, show y.o row + (y.o (row + 1) - y.o row) = y.o (row + 1) by omega]
      refine (mergeRow_ok f1 f2 hA hB tx ty (cap := cap) (p0 := p) _ _ _ p vs cs 0 (by omega) (by omega) sv sc (by omega) sA sB (empty _ _ _)).bind ?_
      rintro ⟨l, r, q, vs1, cs1⟩ ⟨K, i1, i2, i3, i4, i5, i6, i7, i8, i9⟩
      simp only at i1 i2 i3 i4 i5 i6 i7 i8 i9 ⊢
      have hq := i7.le
      have il1 := i5.1; have il2 := i5.2.1; have ir1 := i6.1; have ir2 := i6.2.1
      refine (Buf.copy_ok (.inr (by omega)) (.inr (by omega))).bind ?_
      rintro vs2 ⟨v2s, v2⟩
      refine (Buf.copy_ok (.inr (by omega)) (.inr (by omega))).bind ?_
      rintro cs2 ⟨c2s, c2⟩
      refine (Buf.copy_ok (.inr (by omega)) (.inr (by omega))).bind ?_
      rintro vs3 ⟨v3s, v3⟩
      refine (Buf.copy_ok (.inr (by omega)) (.inr (by omega))).bind ?_
      rintro cs3 ⟨c3s, c3⟩
      have low : ∀ j, j < q → vs3.data j = vs1.data j ∧ cs3.data j = cs1.data j := by
        intro j hj
        rw [v3, if_neg (by omega), v2, if_neg (by omega), c3, if_neg (by omega), c2, if_neg (by omega)]
        exact ⟨rfl, rfl⟩
      refine Res.ok_iff.2 ⟨by simp only; omega, by simp only; omega, by simp only; omega, ?_, fun j hj => ?_⟩
      · have hK := i7.congr (cols' := cs3.data) (vals' := vs3.data) (cell' := fun c => f (a.cell row c) (b.cell row c)) (fun j _ h => (low j h).2) (fun j _ h => (low j h).1) (fun _ _ => rfl)
        rcases i8 with h | h
        · -- left exhausted
          subst h
          refine hB.copyRest (y.o (row + 1) - r) r q K rfl i4 i6 hK (fun c h1 h2 => ?_) (fun j h1 h2 => ?_) (by simp only; omega)
          · rw [i5.gap hA h1 h2 (by omega), f2]
          · rw [c3, if_pos (by omega), v3, if_pos (by omega), show r + (q + (j - r) - q) = j by omega]
            exact ⟨rfl, rfl⟩
        · subst h
          refine hA.copyRest (x.o (row + 1) - l) l q K rfl i4 i5 hK (fun c h1 h2 => ?_) (fun j h1 h2 => ?_) (by simp only; omega)
          · rw [i6.gap hB h1 h2 (by omega), f1]
          · rw [c3, if_neg (by omega), v3, if_neg (by omega), c2, if_pos (by omega), v2, if_pos (by omega), show l + (q + (j - l) - q) = j by omega]
            exact ⟨rfl, rfl⟩
      · simp only
        rw [(low j (by omega)).1, (low j (by omega)).2]; exact i9 j hj
    · rw [if_neg (by omega), if_pos hl, hx.wf.rowPtr (by omega)]
      simp only [Res.ok_bind]
      refine (Buf.copy_ok (.inr (by omega)) (.inr (by omega))).bind ?_
      rintro vs2 ⟨v2s, v2⟩
      refine (Buf.copy_ok (.inr (by omega)) (.inr (by omega))).bind ?_
      rintro cs2 ⟨c2s, c2⟩
      refine Res.ok_iff.2 ⟨by simp only; omega, by simp only; omega, by simp only; omega, ?_, fun j hj => ?_⟩
      · refine hA.copyRest (x.o (row + 1) - x.o row) (x.o row) p 0 rfl (by omega) sA (empty _ _ _) (fun c h1 h2 => ?_) (fun j h1 h2 => ?_) rfl
        · rw [allB (by omega) c h2, f1]
        · simp only
          rw [c2, if_pos (by omega), v2, if_pos (by omega), show x.o row + (p + (j - x.o row) - p) = j by omega]
          exact ⟨rfl, rfl⟩
      · simp only
        rw [v2, if_neg (by omega), c2, if_neg (by omega)]; exact ⟨rfl, rfl⟩
  · rw [if_neg (by omega), if_neg hl]
    by_cases hr' : y.o (row + 1) - y.o row ≠ 0
    · rw [if_pos hr', hy.wf.rowPtr (by omega)]
      simp only [Res.ok_bind]
      refine (Buf.copy_ok (.inr (by omega)) (.inr (by omega))).bind ?_
      rintro vs2 ⟨v2s, v2⟩
      refine (Buf.copy_ok (.inr (by omega)) (.inr (by omega))).bind ?_
      rintro cs2 ⟨c2s, c2⟩
      refine Res.ok_iff.2 ⟨by simp only; omega, by simp only; omega, by simp only; omega, ?_, fun j hj => ?_⟩
      · refine hB.copyRest (y.o (row + 1) - y.o row) (y.o row) p 0 rfl (by omega) sB (empty _ _ _) (fun c h1 h2 => ?_) (fun j h1 h2 => ?_) rfl
        · rw [allA (by omega) c h2, f2]
        · simp only
          rw [c2, if_pos (by omega), v2, if_pos (by omega), show y.o row + (p + (j - y.o row) - p) = j by omega]
          exact ⟨rfl, rfl⟩
      · simp only
        rw [v2, if_neg (by omega), c2, if_neg (by omega)]; exact ⟨rfl, rfl⟩
    · rw [if_neg hr']
      refine Res.ok_iff.2 ⟨sv, sc, by simp only; omega, ?_, fun j hj => ⟨rfl, rfl⟩⟩
      refine (empty vs.data cs.data _).skip (by omega) fun c _ h2 => ?_
      rw [allA (by omega) c h2, allB (by omega) c h2, f1]

/-- **C47 (addition).** The sum of two sparse matrices or row views of the same shape has the sums as cells; other shapes are
rejected. `f` is any operation for which the cell value without entry is neutral (for floating-point addition this holds up to the
sign of zero). -/
theorem C47_add [DecidableEq α] (zero : α) (f : α → α → α) (f1 : ∀ a, f a zero = a) (f2 : ∀ b, f zero b = b) (x y : CM α) (a b : Mat α)
    (hx : x.Is zero a) (hy : y.Is zero b) (jv : Nat → α) (jc jo : Nat → Nat) :
    (a.rows = b.rows → a.cols = b.cols → Res.Ok (ewAdd zero f x y jv jc jo) (fun z => z.Is zero (Mat.zip f a b))) ∧
    (a.rows ≠ b.rows ∨ a.cols ≠ b.cols → Res.Throws (ewAdd zero f x y jv jc jo)) := by
  have e1 := hx.rows; have e2 := hx.cols; have g1 := hy.rows; have g2 := hy.cols
  constructor
  · intro hr hc
    unfold ewAdd
    rw [if_neg (by omega), hx.wf.numNonZeros, hy.wf.numNonZeros]
    simp only [Res.ok_bind]
    have h := rowsLoop_ok (addRow_ok f1 f2 hx hy hr hc) (by
      show x.o a.rows - x.o 0 + (y.o a.rows - y.o 0) ≤ _
      rw [← e1, show y.o x.h.numRows = y.o y.h.numRows by rw [e1, g1, hr]]) jv jc jo
    rw [show (Mat.zip f a b).rows = x.h.numRows from e1.symm, show (Mat.zip f a b).cols = x.h.numCols from e2.symm] at h
    exact h.bind fun m hm => Res.ok_iff.2 hm
  · intro h
    unfold ewAdd
    rw [if_pos (by omega)]; exact ⟨_, rfl⟩

/-! ### Multiplication -/

theorem intersectRow_ok {zero : α} {f : α → α → α} (f1 : ∀ a, f a zero = zero) (f2 : ∀ b, f zero b = zero) {x y : CMem α} {lb le rb re C : Nat}
    {A B : Nat → α} (hA : RowOk zero x.cols.data x.vals.data lb le C A) (hB : RowOk zero y.cols.data y.vals.data rb re C B)
    (tx : le ≤ x.vals.size ∧ le ≤ x.cols.size) (ty : re ≤ y.vals.size ∧ re ≤ y.cols.size) {cap p0 : Nat} :
    ∀ (fuel l r p : Nat) (vs : Buf α) (cs : Buf Nat) (K : Nat), (le - l) + (re - r) ≤ fuel → min (p + (le - l)) (p + (re - r)) ≤ cap → vs.size = cap → cs.size = cap →
      K ≤ C → Split x.cols.data lb le l K → Split y.cols.data rb re r K → RowOk zero cs.data vs.data p0 p K (fun c => f (A c) (B c)) →
      Res.Ok (intersectRow f x y le re fuel l r p vs cs) (fun o => o.2.1.size = cap ∧ o.2.2.size = cap ∧ o.1 ≤ p + (le - l) ∧ o.1 ≤ p + (re - r) ∧
        RowOk zero o.2.2.data o.2.1.data p0 o.1 C (fun c => f (A c) (B c)) ∧
        ∀ q, q < p0 → o.2.1.data q = vs.data q ∧ o.2.2.data q = cs.data q) := by
  intro fuel
  have fin : ∀ (l r p : Nat) (vs : Buf α) (cs : Buf Nat) (K : Nat), ¬ (l < le ∧ r < re) → vs.size = cap → cs.size = cap →
      K ≤ C → Split x.cols.data lb le l K → Split y.cols.data rb re r K → RowOk zero cs.data vs.data p0 p K (fun c => f (A c) (B c)) →
      RowOk zero cs.data vs.data p0 p C (fun c => f (A c) (B c)) := by
    intro l r p vs cs K hf sv sc hK s t h
    refine h.skip hK fun c c1 c2 => ?_
    by_cases hl : l < le
    · rw [t.gap hB c1 c2 (by omega), f1]
    · rw [s.gap hA c1 c2 (by omega), f2]
  induction fuel with
  | zero =>
    intro l r p vs cs K hf hcap sv sc hK s t h
    unfold intersectRow
    exact Res.ok_iff.2 ⟨sv, sc, by simp only; omega, by simp only; omega, fin l r p vs cs K (by omega) sv sc hK s t h, fun _ _ => ⟨rfl, rfl⟩⟩
  | succ fuel ih =>
    intro l r p vs cs K hf hcap sv sc hK s t h
    unfold intersectRow
    by_cases hlr : l < le ∧ r < re
    · obtain ⟨hl, hr⟩ := hlr
      rw [if_pos ⟨hl, hr⟩, Buf.read_eq (by omega)]
      simp only [Res.ok_bind]
      rw [Buf.read_eq (by omega)]
      simp only [Res.ok_bind]
      have kl := s.2.2.2 l (Nat.le_refl _) hl
      have kr := t.2.2.2 r (Nat.le_refl _) hr
      have bl := hA.bound l s.1 hl
      have br := hB.bound r t.1 hr
      have hle := h.le
      by_cases hc : x.cols.data l = y.cols.data r
      · rw [if_pos hc, Buf.read_eq (by omega)]
        simp only [Res.ok_bind]
        rw [Buf.read_eq (by omega)]
        simp only [Res.ok_bind]
        have s' := s.next hl hA.sorted
        have t' := t.next hr hB.sorted
        rw [← hc] at t'
        have ha := hA.entry l s.1 hl
        have hb := hB.entry r t.1 hr
        rw [← hc] at hb
        rw [Buf.write_eq (by omega)]
        simp only [Res.ok_bind]
        rw [Buf.write_eq (by omega)]
        simp only [Res.ok_bind]
        refine (ih (l + 1) (r + 1) (p + 1) _ _ (x.cols.data l + 1) (by omega) (by omega) (by simpa using sv) (by simpa using sc) bl s' t' ?_).mono ?_
        · refine (h.skip kl fun c c1 c2 => ?_).push (fun q _ hq => Buf.put_data_ne _ _ _ _ (by omega)) (fun q _ hq => Buf.put_data_ne _ _ _ _ (by omega)) (by simp)
              (by simp [ha, hb])
          rw [s.gap hA c1 (by omega) (by omega), f2]
        · rintro ⟨p', vs', cs'⟩ ⟨g1, g2, g3, g4, g5, g6⟩
          simp only at g3 g4
          refine ⟨g1, g2, by simp only; omega, by simp only; omega, g5, fun q hq => ?_⟩
          rw [(g6 q hq).1, (g6 q hq).2, Buf.put_data_ne _ _ _ _ (by omega), Buf.put_data_ne _ _ _ _ (by omega)]
          exact ⟨rfl, rfl⟩
      · rw [if_neg hc]
        by_cases hlt : x.cols.data l < y.cols.data r
        · rw [if_pos hlt]
          refine (ih (l + 1) r p vs cs (x.cols.data l + 1) (by omega) (by omega) sv sc bl
            (s.next hl hA.sorted) (t.stay (by omega) hB.sorted (by omega)) ?_).mono ?_
          · refine h.skip (by omega) fun c c1 c2 => ?_
            rw [t.gap hB c1 (by omega) (by omega), f1]
          · rintro ⟨p', vs', cs'⟩ ⟨g1, g2, g3, g4, g5, g6⟩
            simp only at g3 g4
            exact ⟨g1, g2, by simp only; omega, by simp only; omega, g5, g6⟩
        · rw [if_neg hlt]
          refine (ih l (r + 1) p vs cs (y.cols.data r + 1) (by omega) (by omega) sv sc br
            (s.stay (by omega) hA.sorted (by omega)) (t.next hr hB.sorted) ?_).mono ?_
          · refine h.skip (by omega) fun c c1 c2 => ?_
            rw [s.gap hA c1 (by omega) (by omega), f2]
          · rintro ⟨p', vs', cs'⟩ ⟨g1, g2, g3, g4, g5, g6⟩
            simp only at g3 g4
            exact ⟨g1, g2, by simp only; omega, by simp only; omega, g5, g6⟩
    · rw [if_neg hlr]
      exact Res.ok_iff.2 ⟨sv, sc, by simp only; omega, by simp only; omega, fin l r p vs cs K hlr sv sc hK s t h, fun _ _ => ⟨rfl, rfl⟩⟩

theorem mulRow_ok {zero : α} {f : α → α → α} (f1 : ∀ a, f a zero = zero) (f2 : ∀ b, f zero b = zero) {x y : CM α} {a b : Mat α}
    (hx : x.Is zero a) (hy : y.Is zero b) (hr : a.rows = b.rows) (hc : a.cols = b.cols) :
    RowFnOk zero (Mat.zip f a b) (min (x.o x.h.numRows - x.o 0) (y.o y.h.numRows - y.o 0)) (fun r => min (x.o r - x.o 0) (y.o r - y.o 0))
      (mulRow f x y) := by
  intro row p vs cs hrow hp sv sc
  have e1 := hx.rows; have e2 := hx.cols; have g1 := hy.rows; have g2 := hy.cols
  have hrow' : row < a.rows := hrow
  have hA := hx.row hrow'
  have hB := hy.row (r := row) (by omega)
  rw [← hc] at hB
  have tx := hx.wf.rowTop (r := row) (by omega)
  have ty := hy.wf.rowTop (r := row) (by omega)
  have mx := hx.wf.mono' (r := 0) (r' := row) (by omega) (by omega)
  have my := hy.wf.mono' (r := 0) (r' := row) (by omega) (by omega)
  have mx1 := hx.wf.mono row (by omega)
  have my1 := hy.wf.mono row (by omega)
  have mx2 := hx.wf.mono' (r := row + 1) (r' := x.h.numRows) (by omega) (by omega)
  have my2 := hy.wf.mono' (r := row + 1) (r' := y.h.numRows) (by omega) (by omega)
  generalize hcap : min (x.o x.h.numRows - x.o 0) (y.o y.h.numRows - y.o 0) = cap at *
  simp only at hp ⊢
  have sA : Split x.mem.cols.data (x.o row) (x.o (row + 1)) (x.o row) 0 := ⟨Nat.le_refl _, mx1, by omega, by omega⟩
  have sB : Split y.mem.cols.data (y.o row) (y.o (row + 1)) (y.o row) 0 := ⟨Nat.le_refl _, my1, by omega, by omega⟩
  have hcell : (Mat.zip f a b).cell row = fun c => f (a.cell row c) (b.cell row c) := rfl
  have hcols : (Mat.zip f a b).cols = a.cols := rfl
  rw [hcell, hcols]
  have empty : ∀ (v : Nat → α) (c : Nat → Nat) (cell : Nat → α), RowOk zero c v p p 0 cell := fun v c cell =>
    ⟨Nat.le_refl _, by omega, by omega, by omega, by omega⟩
  unfold mulRow
  rw [hx.wf.rowNum (by omega), hy.wf.rowNum (by omega)]
  simp only [Res.ok_bind]
  by_cases hl : x.o (row + 1) - x.o row ≠ 0 ∧ y.o (row + 1) - y.o row ≠ 0
  · rw [if_pos hl, hx.wf.rowPtr (by omega), hy.wf.rowPtr (by omega)]
    simp only [Res.ok_bind]
    rw [show x.o row + (x.o (row + 1) - x.o row) = x.o (row + 1) by omega, show y.o row + (y.o (row + 1) - y.o row) = y.o (row + 1) by omega]
    refine (intersectRow_ok f1 f2 hA hB tx ty (cap := cap) (p0 := p) _ _ _ p vs cs 0 (by omega) (by omega) sv sc (by omega) sA sB (empty _ _ _)).mono ?_
    rintro o ⟨i1, i2, i3, i4, i5, i6⟩
    exact ⟨i1, i2, by omega, i5, i6⟩
  · rw [if_neg hl]
    refine Res.ok_iff.2 ⟨sv, sc, by simp only; omega, ?_, fun j hj => ⟨rfl, rfl⟩⟩
    refine (empty vs.data cs.data _).skip (by omega) fun c _ h2 => ?_
    by_cases h : x.o (row + 1) - x.o row = 0
    · rw [hA.rest c h2 (fun p h1 h2 => by omega), f2]
    · rw [hB.rest c h2 (fun p h1 h2 => by omega), f1]

/-- **C47 (multiplication).** The elementwise product of two sparse matrices or row views of the same shape; other shapes are
rejected. `f` is any operation that the cell value without entry annihilates (floating-point multiplication: if no operand is
infinite or NaN). -/
theorem C47_mul (zero : α) (f : α → α → α) (f1 : ∀ a, f a zero = zero) (f2 : ∀ b, f zero b = zero) (x y : CM α) (a b : Mat α)
    (hx : x.Is zero a) (hy : y.Is zero b) (jv : Nat → α) (jc jo : Nat → Nat) :
    (a.rows = b.rows → a.cols = b.cols → Res.Ok (ewMul f x y jv jc jo) (fun z => z.Is zero (Mat.zip f a b))) ∧
    (a.rows ≠ b.rows ∨ a.cols ≠ b.cols → Res.Throws (ewMul f x y jv jc jo)) := by
  have e1 := hx.rows; have e2 := hx.cols; have g1 := hy.rows; have g2 := hy.cols
  constructor
  · intro hr hc
    unfold ewMul
    rw [if_neg (by omega), hx.wf.numNonZeros, hy.wf.numNonZeros]
    simp only [Res.ok_bind]
    have h := rowsLoop_ok (mulRow_ok f1 f2 hx hy hr hc) (by
      show min (x.o a.rows - x.o 0) (y.o a.rows - y.o 0) ≤ _
      rw [← e1, show y.o x.h.numRows = y.o y.h.numRows by rw [e1, g1, hr]]) jv jc jo
    rw [show (Mat.zip f a b).rows = x.h.numRows from e1.symm, show (Mat.zip f a b).cols = x.h.numCols from e2.symm] at h
    exact h.bind fun m hm => Res.ok_iff.2 hm
  · intro h
    unfold ewMul
    rw [if_pos (by omega)]; exact ⟨_, rfl⟩

/-! ### Sparse times dense -/

theorem mulDenseRow_ok [DecidableEq α] {zero : α} {f : α → α → α} (f1 : ∀ a, f a zero = zero) (f2 : ∀ b, f zero b = zero) {x : CM α} {y : Dense.DM α}
    {a b : Mat α} (hx : x.Is zero a) (hy : y.Is b) (hr : b.rows = a.rows ∨ b.rows = 1) (hc : b.cols = a.cols ∨ b.cols = 1) :
    RowFnOk zero (Mat.zip f a (b.stretch a.rows a.cols)) (x.o x.h.numRows - x.o 0) (fun r => x.o r - x.o 0) (mulDenseRow zero f x y) := by
  intro row p vs cs hrow hp sv sc
  have e1 := hx.rows; have e2 := hx.cols; have g1 := hy.rows; have g2 := hy.cols
  have hrow' : row < a.rows := hrow
  have hA := hx.row hrow'
  have tx := hx.wf.rowTop (r := row) (by omega)
  have mx := hx.wf.mono' (r := 0) (r' := row) (by omega) (by omega)
  have mx1 := hx.wf.mono row (by omega)
  have mx2 := hx.wf.mono' (r := row + 1) (r' := x.h.numRows) (by omega) (by omega)
  generalize hcap : x.o x.h.numRows - x.o 0 = cap at *
  simp only at hp ⊢
  have sA : Split x.mem.cols.data (x.o row) (x.o (row + 1)) (x.o row) 0 := ⟨Nat.le_refl _, mx1, by omega, by omega⟩
  have hcols : (Mat.zip f a (b.stretch a.rows a.cols)).cols = a.cols := rfl
  rw [hcols]
  have hcell : (Mat.zip f a (b.stretch a.rows a.cols)).cell row = fun c => f (a.cell row c) ((b.stretch a.rows a.cols).cell row c) := rfl
  rw [hcell]
  have empty : ∀ (v : Nat → α) (c : Nat → Nat) (cell : Nat → α), RowOk zero c v p p 0 cell := fun v c cell =>
    ⟨Nat.le_refl _, by omega, by omega, by omega, by omega⟩
  have hget : ∀ c, c < a.cols → y.h.get y.mem (if y.h.numRows = 1 then 0 else row) (if y.h.numCols = 1 then 0 else c) =
      .ok ((b.stretch a.rows a.cols).cell row c) := by
    intro c hc'
    rw [g1, g2]
    have := hy.2.2.2 (if b.rows = 1 then 0 else row) (if b.cols = 1 then 0 else c) (by split <;> omega) (by split <;> omega)
    exact this
  unfold mulDenseRow
  rw [hx.wf.rowNum (by omega)]
  simp only [Res.ok_bind]
  by_cases hl : x.o (row + 1) - x.o row ≠ 0
  · rw [if_pos hl, hx.wf.rowPtr (by omega)]
    simp only [Res.ok_bind]
    rw [show x.o row + (x.o (row + 1) - x.o row) = x.o (row + 1) by omega]
    refine (forLoop_ok (fun q (o : Nat × Buf α × Buf Nat) => ∃ K, o.2.1.size = cap ∧ o.2.2.size = cap ∧ o.1 ≤ p + (q - x.o row) ∧ K ≤ a.cols ∧
      Split x.mem.cols.data (x.o row) (x.o (row + 1)) q K ∧
      RowOk zero o.2.2.data o.2.1.data p o.1 K (fun c => f (a.cell row c) ((b.stretch a.rows a.cols).cell row c)) ∧
      ∀ j, j < p → o.2.1.data j = vs.data j ∧ o.2.2.data j = cs.data j) (x.o row) (x.o (row + 1)) (p, vs, cs) mx1 ?_ ?_).mono ?_
    · exact ⟨0, sv, sc, by simp only; omega, by omega, sA, empty _ _ _, fun _ _ => ⟨rfl, rfl⟩⟩
    · rintro q ⟨p', vs', cs'⟩ h1 h2 ⟨K, i1, i2, i3, i4, i5, i6, i7⟩
      simp only at i1 i2 i3 i4 i5 i6 i7 ⊢
      have kq := i5.2.2.2 q (Nat.le_refl _) h2
      have bq := hA.bound q h1 h2
      have hle := i6.le
      rw [Buf.read_eq (by omega)]
      simp only [Res.ok_bind]
      rw [hget _ bq]
      simp only [Res.ok_bind]
      have hskip := i6.skip kq fun c c1 c2 => by
        rw [i5.gap hA c1 (by omega) (fun _ => c2), f2]
      by_cases hne : (b.stretch a.rows a.cols).cell row (x.mem.cols.data q) ≠ zero
      · rw [if_pos hne, Buf.read_eq (by omega)]
        simp only [Res.ok_bind]
        rw [Buf.write_eq (by omega)]
        simp only [Res.ok_bind]
        rw [Buf.write_eq (by omega)]
        simp only [Res.ok_bind]
        refine Res.ok_iff.2 ⟨x.mem.cols.data q + 1, by simpa using i1, by simpa using i2, by simp only; omega, by omega, i5.next h2 hA.sorted, ?_, fun j hj => ?_⟩
        · exact hskip.push (fun j _ hj => Buf.put_data_ne _ _ _ _ (by omega)) (fun j _ hj => Buf.put_data_ne _ _ _ _ (by omega)) (by simp)
            (by simp [hA.entry q h1 h2])
        · simp only
          rw [Buf.put_data_ne _ _ _ _ (by omega), Buf.put_data_ne _ _ _ _ (by omega)]; exact i7 j hj
      · rw [if_neg hne]
        refine Res.ok_iff.2 ⟨x.mem.cols.data q + 1, i1, i2, by simp only; omega, by omega, i5.next h2 hA.sorted, ?_, i7⟩
        refine hskip.skip (by omega) fun c c1 c2 => ?_
        rw [show c = x.mem.cols.data q by omega, not_not.1 hne, f1]
    · rintro ⟨p', vs', cs'⟩ ⟨K, i1, i2, i3, i4, i5, i6, i7⟩
      simp only at i1 i2 i3 i4 i5 i6 i7 ⊢
      refine ⟨i1, i2, by omega, i6.skip i4 fun c c1 c2 => ?_, i7⟩
      rw [i5.gap hA c1 c2 (by omega), f2]
  · rw [if_neg hl]
    refine Res.ok_iff.2 ⟨sv, sc, by simp only; omega, ?_, fun j hj => ⟨rfl, rfl⟩⟩
    refine (empty vs.data cs.data _).skip (by omega) fun c _ h2 => ?_
    rw [hA.rest c h2 (fun p h1 h2 => by omega), f2]

/-- **C47 (multiplication by a dense matrix or vector).** -/
theorem C47_mulDense [DecidableEq α] (zero : α) (f : α → α → α) (f1 : ∀ a, f a zero = zero) (f2 : ∀ b, f zero b = zero) (x : CM α) (y : Dense.DM α)
    (a b : Mat α) (hx : x.Is zero a) (hy : y.Is b) (jv : Nat → α) (jc jo : Nat → Nat) :
    ((b.rows = a.rows ∨ b.rows = 1) → (b.cols = a.cols ∨ b.cols = 1) →
      Res.Ok (ewMulDense zero f x y jv jc jo) (fun z => z.Is zero (Mat.zip f a (b.stretch a.rows a.cols)))) ∧
    ((b.rows ≠ a.rows ∧ b.rows ≠ 1) ∨ (b.cols ≠ a.cols ∧ b.cols ≠ 1) → Res.Throws (ewMulDense zero f x y jv jc jo)) := by
  have e1 := hx.rows; have e2 := hx.cols; have g1 := hy.rows; have g2 := hy.cols
  constructor
  · intro hr hc
    unfold ewMulDense
    rw [if_neg (by omega), hx.wf.numNonZeros]
    simp only [Res.ok_bind]
    have h := rowsLoop_ok (mulDenseRow_ok f1 f2 hx hy hr hc) (by
      show x.o a.rows - x.o 0 ≤ _
      rw [← e1]) jv jc jo
    rw [show (Mat.zip f a (b.stretch a.rows a.cols)).rows = x.h.numRows from e1.symm,
      show (Mat.zip f a (b.stretch a.rows a.cols)).cols = x.h.numCols from e2.symm] at h
    exact h.bind fun m hm => Res.ok_iff.2 hm
  · intro h
    unfold ewMulDense
    rw [if_pos (by omega)]; exact ⟨_, rfl⟩

/-! ### Dense result -/

/-- **C48 (part).** An operation on a sparse and a dense matrix with a dense result yields the operation's result in each cell,
provided that `f zero one = zero` (the test the code makes) implies `f zero b = zero` for all `b`. This holds for addition,
subtraction, multiplication, but not for all operations the kernel is compiled for: see `C48_minimum_wrong`. -/
theorem C48_dense_result_partial [DecidableEq α] (zero one : α) (f : α → α → α) (hf : f zero one = zero → ∀ b, f zero b = zero) (x : CM α)
    (y : Dense.DM α) (a b : Mat α) (hx : x.Is zero a) (hy : y.Is b) (junk : Nat → α) :
    (a.rows = b.rows → a.cols = b.cols → Res.Ok (ewDenseOut zero one f x y junk) (fun z => z.Is (Mat.zip f a b))) ∧
    (a.rows ≠ b.rows ∨ a.cols ≠ b.cols → Res.Throws (ewDenseOut zero one f x y junk)) := by
  have e1 := hx.rows; have e2 := hx.cols; have g1 := hy.rows; have g2 := hy.cols
  constructor
  · intro hr hc
    unfold ewDenseOut
    rw [if_neg (by rw [g1, g2]; omega), e1, e2]
    simp only
    have haddr : ∀ r c, (Dense.DM.create a.rows a.cols junk).addr r c = r * a.cols + c := by
      intro r c; simp [Dense.DM.create, Dense.DM.addr, Dense.Hdr.new, Dense.Hdr.start, Dense.Hdr.isPartial]
    generalize hpres : decide (f zero one = zero) = pres
    have hinit : Res.Ok (denseOutInit zero one f (a.rows * a.cols) (Dense.DM.create a.rows a.cols junk).mem)
        (fun m => m.size = a.rows * a.cols ∧ (pres = true → ∀ i, i < a.rows * a.cols → m.data i = zero)) := by
      unfold denseOutInit
      by_cases h : f zero one = zero
      · rw [if_pos h]
        refine (Buf.fill_ok (.inr (by simp [Dense.DM.create]))).mono ?_
        rintro m ⟨s1, s2⟩
        exact ⟨s1, fun _ i hi => by rw [s2, if_pos (by omega)]⟩
      · rw [if_neg h]
        exact Res.ok_iff.2 ⟨rfl, fun hp => by subst hp; exact absurd (of_decide_eq_true hpres) h⟩
    refine hinit.bind ?_
    rintro m0 ⟨s0, z0⟩
    have hpos : ∀ {r c}, r < a.rows → c < a.cols → r * a.cols + c < a.rows * a.cols := fun h1 h2 => rm_lt h1 h2 (Nat.le_refl _)
    refine (forLoop_ok (fun k (m : Buf α) => m.size = a.rows * a.cols ∧
      ∀ r c, r < a.rows → c < a.cols → m.data (r * a.cols + c) = if r < k then f (a.cell r c) (b.cell r c) else m0.data (r * a.cols + c))
      0 a.rows m0 (Nat.zero_le _) ⟨s0, fun r c _ _ => by simp⟩ ?_).bind ?_
    · rintro k m - hk ⟨i1, i2⟩
      unfold denseOutRow
      rw [e2]
      have hA := hx.row hk
      have tx := hx.wf.rowTop (r := k) (by omega)
      have mx1 := hx.wf.mono k (by omega)
      have hrow0 : Res.Ok (forLoop 0 (if pres = true then 0 else a.cols) m fun c m => do
          let v ← y.mem.read (y.addr k c)
          m.write ((Dense.DM.create a.rows a.cols junk).addr k c) (f zero v))
          (fun m' => m'.size = a.rows * a.cols ∧ ∀ r c, r < a.rows → c < a.cols → m'.data (r * a.cols + c) =
            if r < k then f (a.cell r c) (b.cell r c) else if r = k then f zero (b.cell r c) else m0.data (r * a.cols + c)) := by
        by_cases hp : pres = true
        · rw [if_pos hp]
          refine Res.ok_iff.2 ⟨i1, fun r c hr' hc' => ?_⟩
          rw [i2 r c hr' hc']
          by_cases h1 : r < k
          · rw [if_pos h1, if_pos h1]
          · rw [if_neg h1, if_neg h1]
            by_cases h2 : r = k
            · rw [if_pos h2, z0 hp _ (hpos hr' hc'), hf (of_decide_eq_true (hpres.trans hp))]
            · rw [if_neg h2]
        · rw [if_neg hp]
          refine (forLoop_ok (fun j (m' : Buf α) => m'.size = a.rows * a.cols ∧ ∀ r c, r < a.rows → c < a.cols → m'.data (r * a.cols + c) =
            if r < k then f (a.cell r c) (b.cell r c) else if r = k ∧ c < j then f zero (b.cell r c) else m0.data (r * a.cols + c))
            0 a.cols m (Nat.zero_le _) ⟨i1, fun r c hr' hc' => by rw [i2 r c hr' hc']; simp⟩ ?_).mono ?_
          · rintro j m' - hj ⟨j1, j2⟩
            rw [hy.read (by omega) (by omega)]
            simp only [Res.ok_bind]
            rw [haddr, Buf.write_eq (by rw [j1]; exact hpos hk hj)]
            refine Res.ok_iff.2 ⟨by simpa using j1, fun r c hr' hc' => ?_⟩
            rw [Buf.put_data]
            by_cases e : r * a.cols + c = k * a.cols + j
            · obtain ⟨rfl, rfl⟩ := rm_inj hc' hj e
              rw [if_pos rfl, if_neg (by omega), if_pos (by omega)]
            · have hne : ¬ (r = k ∧ c = j) := by rintro ⟨rfl, rfl⟩; exact e rfl
              rw [if_neg e, j2 r c hr' hc']
              by_cases h1 : r < k
              · rw [if_pos h1, if_pos h1]
              · rw [if_neg h1, if_neg h1]
                by_cases h2 : r = k ∧ c < j
                · rw [if_pos h2, if_pos (by omega)]
                · rw [if_neg h2, if_neg (by omega)]
          · rintro m' ⟨j1, j2⟩
            refine ⟨j1, fun r c hr' hc' => ?_⟩
            rw [j2 r c hr' hc']
            by_cases h1 : r < k
            · rw [if_pos h1, if_pos h1]
            · rw [if_neg h1, if_neg h1]
              by_cases h2 : r = k
              · rw [if_pos ⟨h2, hc'⟩, if_pos h2]
              · rw [if_neg (by omega), if_neg h2]
      refine hrow0.bind ?_
      rintro m1 ⟨j1, j2⟩
      rw [hx.wf.rowNum (by omega), hx.wf.rowPtr (by omega)]
      simp only [Res.ok_bind]
      rw [show x.o k + (x.o (k + 1) - x.o k) = x.o (k + 1) by omega]
      refine (forLoop_ok (fun i (m' : Buf α) => m'.size = a.rows * a.cols ∧ ∀ r c, r < a.rows → c < a.cols →
        (r < k → m'.data (r * a.cols + c) = f (a.cell r c) (b.cell r c)) ∧ (k < r → m'.data (r * a.cols + c) = m0.data (r * a.cols + c)) ∧
        (r = k → ((∃ q, x.o k ≤ q ∧ q < i ∧ x.mem.cols.data q = c) → m'.data (r * a.cols + c) = f (a.cell r c) (b.cell r c)) ∧
          ((∀ q, x.o k ≤ q → q < i → x.mem.cols.data q ≠ c) → m'.data (r * a.cols + c) = f zero (b.cell r c))))
        (x.o k) (x.o (k + 1)) m1 mx1 ⟨j1, fun r c hr' hc' => ⟨fun h => ?_, fun h => ?_, fun h => ⟨?_, fun _ => ?_⟩⟩⟩ ?_).mono ?_
      · rw [j2 r c hr' hc', if_pos h]
      · rw [j2 r c hr' hc', if_neg (by omega), if_neg (by omega)]
      · rintro ⟨q, q1, q2, _⟩; omega
      · rw [j2 r c hr' hc', if_neg (by omega), if_pos h]
      · rintro i m' h1 h2 ⟨k1, k2⟩
        have bi := hA.bound i h1 h2
        rw [Buf.read_eq (by omega)]
        simp only [Res.ok_bind]
        rw [Buf.read_eq (by omega)]
        simp only [Res.ok_bind]
        rw [hy.read (by omega) (by omega)]
        simp only [Res.ok_bind]
        rw [haddr, Buf.write_eq (by rw [k1]; exact hpos hk bi)]
        refine Res.ok_iff.2 ⟨by simpa using k1, fun r c hr' hc' => ?_⟩
        rw [Buf.put_data]
        obtain ⟨l1, l2, l3⟩ := k2 r c hr' hc'
        by_cases e : r * a.cols + c = k * a.cols + x.mem.cols.data i
        · obtain ⟨rfl, rfl⟩ := rm_inj hc' bi e
          rw [if_pos rfl]
          refine ⟨by omega, by omega, fun _ => ⟨fun _ => by rw [hA.entry i h1 h2], fun h => absurd rfl (h i h1 (by omega))⟩⟩
        · rw [if_neg e]
          refine ⟨l1, l2, fun hrk => ⟨?_, fun h => (l3 hrk).2 fun q q1 q2 => h q q1 (by omega)⟩⟩
          rintro ⟨q, q1, q2, q3⟩
          refine (l3 hrk).1 ⟨q, q1, ?_, q3⟩
          by_contra hh
          have : q = i := by omega
          subst this
          exact e (by rw [hrk, q3])
      · rintro m' ⟨k1, k2⟩
        refine ⟨k1, fun r c hr' hc' => ?_⟩
        obtain ⟨l1, l2, l3⟩ := k2 r c hr' hc'
        by_cases h1 : r < k
        · rw [if_pos (by omega), l1 h1]
        · by_cases h2 : r = k
          · rw [if_pos (by omega)]
            by_cases hex : ∃ q, x.o k ≤ q ∧ q < x.o (k + 1) ∧ x.mem.cols.data q = c
            · exact (l3 h2).1 hex
            · have hno : ∀ q, x.o k ≤ q → q < x.o (k + 1) → x.mem.cols.data q ≠ c := fun q q1 q2 q3 => hex ⟨q, q1, q2, q3⟩
              rw [(l3 h2).2 hno, h2, hA.rest c hc' hno]
          · rw [if_neg (by omega), l2 (by omega)]
    · rintro m ⟨k1, k2⟩
      refine Res.ok_iff.2 ?_
      exact Dense.is_new k1 fun r c hr' hc' => by rw [k2 r c hr' hc', if_pos hr']
  · intro h
    unfold ewDenseOut
    rw [if_pos (by rw [g1, g2]; omega)]; exact ⟨_, rfl⟩

/-- **C48 (refuted in general).** The test `f zero one = zero` does not imply that zeros of the sparse operand yield zeros: for the
minimum of the sparse matrix `[0]` and the dense matrix `[-5]` the kernel returns `[0]`. -/
theorem C48_minimum_wrong :
    ∃ (x : CM Int) (y : Dense.DM Int) (z : Dense.DM Int), x.h.get 0 x.mem 0 0 = .ok 0 ∧ y.get 0 0 = .ok (-5) ∧
      ewDenseOut 0 1 min x y (fun _ => 0) = .ok z ∧ z.get 0 0 = .ok 0 ∧ min (0 : Int) (-5) = -5 :=
  ⟨CM.createZero 1 1 0 0, Dense.DM.create 1 1 fun _ => -5, _, rfl, rfl, rfl, rfl, rfl⟩

/-- The same for the comparison `0 == 0`: the kernel returns 0 (false). -/
theorem C48_equality_wrong :
    ∃ (x : CM Int) (y : Dense.DM Int) (z : Dense.DM Int), x.h.get 0 x.mem 0 0 = .ok 0 ∧ y.get 0 0 = .ok 0 ∧
      ewDenseOut 0 1 (fun a b => if a = b then 1 else 0) x y (fun _ => 0) = .ok z ∧ z.get 0 0 = .ok 0 :=
  ⟨CM.createZero 1 1 0 0, Dense.DM.create 1 1 fun _ => 0, _, rfl, rfl, rfl, rfl⟩

/-! ### Examples -/

/-- Sum, product with itself and product with a dense row vector of the row view `exView` (`[[0,5,0],[7,0,9]]`, see `exMat`). -/
example : Res.Ok (ewAdd 0 (· + ·) exView exView (fun _ => 0) (fun _ => 0) (fun _ => 0)) (fun z => z.h.get 0 z.mem 1 2 = .ok 18) :=
  ((C47_add 0 (· + ·) Nat.add_zero Nat.zero_add exView exView exMat exMat exView_is exView_is _ _ _).1 rfl rfl).mono fun _ h => h.get (by decide) (by decide)

example : Res.Ok (ewMul (· * ·) exView exView (fun _ => 0) (fun _ => 0) (fun _ => 0)) (fun z => z.h.get 0 z.mem 1 2 = .ok 81) :=
  ((C47_mul 0 (· * ·) Nat.mul_zero Nat.zero_mul exView exView exMat exMat exView_is exView_is _ _ _).1 rfl rfl).mono fun _ h => h.get (by decide) (by decide)

example : Res.Ok (ewMulDense 0 (· * ·) exView (Dense.DM.create 1 3 fun i => i) (fun _ => 0) (fun _ => 0) (fun _ => 0)) (fun z => z.h.get 0 z.mem 1 2 = .ok 18) :=
  ((C47_mulDense 0 (· * ·) Nat.mul_zero Nat.zero_mul exView _ exMat ⟨1, 3, fun r c => r * 3 + c⟩ exView_is
    (Dense.is_new rfl fun _ _ _ _ => rfl) _ _ _).1 (.inr rfl) (.inl rfl)).mono fun _ h => h.get (by decide) (by decide)

example : Res.Ok (ewDenseOut 0 1 (· + ·) exView (Dense.DM.create 2 3 fun i => i) (fun _ => 0)) (fun z => z.get 1 1 = .ok 4 ∧ z.get 1 2 = .ok 14) :=
  ((C48_dense_result_partial 0 1 (· + ·) (by intro h; exact absurd h (by decide)) exView _ exMat ⟨2, 3, fun r c => r * 3 + c⟩ exView_is
    (Dense.is_new rfl fun _ _ _ _ => rfl) _).1 rfl rfl).mono fun z h => ⟨h.2.2.2 1 1 (by decide) (by decide), h.2.2.2 1 2 (by decide) (by decide)⟩

end Verif.Csr
