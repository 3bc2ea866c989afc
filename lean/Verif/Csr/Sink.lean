/-
  C10, C11: collecting the sparse partial results of a vectorized pipeline.
-/
import Verif.Csr.SinkModel

namespace Verif.Csr
open Verif Verif.Vect
variable {α : Type}

/-! ### The queue and the counters of a sink -/

theorem enqueue_perm (e : Nat × CM α) : ∀ l, (enqueue e l).Perm (e :: l)
  | [] => List.Perm.refl _
  | x :: xs => by
    unfold enqueue
    split
    · exact List.Perm.refl _
    · exact ((enqueue_perm e xs).cons x).trans (List.Perm.swap e x xs)

theorem enqueue_sorted (e : Nat × CM α) : ∀ l : List (Nat × CM α), l.Pairwise (fun p q => p.1 ≤ q.1) →
    (enqueue e l).Pairwise (fun p q => p.1 ≤ q.1)
  | [], _ => by simp [enqueue]
  | x :: xs, h => by
    obtain ⟨h1, h2⟩ := List.pairwise_cons.1 h
    unfold enqueue
    split
    · refine List.pairwise_cons.2 ⟨fun q hq => ?_, h⟩
      rcases List.mem_cons.1 hq with rfl | hq
      · omega
      · have := h1 q hq; omega
    · refine List.pairwise_cons.2 ⟨fun q hq => ?_, enqueue_sorted e xs h2⟩
      rcases List.mem_cons.1 ((enqueue_perm e xs).mem_iff.1 hq) with rfl | hq
      · omega
      · exact h1 q hq

/-- Entries of a matrix in one row. -/
def CM.rowLen (m : CM α) (row : Nat) : Nat := m.o (row + 1) - m.o row

/-- Entries of a matrix. -/
def CM.len (m : CM α) : Nat := m.o m.h.numRows - m.o 0

/-- Entries of all matrices in one row. -/
def rowSum (L : List (Nat × CM α)) (row : Nat) : Nat := (L.map fun p => p.2.rowLen row).sum

/-- Entries of all matrices. -/
def nnzSum (L : List (Nat × CM α)) : Nat := (L.map fun p => p.2.len).sum

theorem CM.WF.len_psum {m : CM α} (w : m.WF) : ∀ n, n ≤ m.h.numRows → psum m.rowLen n = m.o n - m.o 0
  | 0, _ => by simp [psum]
  | n + 1, h => by
    have h1 := w.len_psum n (by omega)
    have h2 := w.mono' (r := 0) (r' := n) (by omega) (by omega)
    have h3 := w.mono n (by omega)
    simp only [psum, h1, CM.rowLen]; omega

theorem psum_rowSum : ∀ (L : List (Nat × CM α)) (R : Nat), (∀ p ∈ L, p.2.WF ∧ p.2.h.numRows = R) → psum (rowSum L) R = nnzSum L
  | [], R, _ => psum_zero R
  | p :: L, R, h => by
    have e : rowSum (p :: L) = fun i => p.2.rowLen i + rowSum L i := by funext i; simp [rowSum]
    obtain ⟨h1, h2⟩ := h p (by simp)
    rw [e, psum_add, psum_rowSum L R fun q hq => h q (by simp [hq]), h1.len_psum R (by omega)]
    simp [nnzSum, CM.len, h2]

/-- What a sink holds after the partial results `L` have been added. -/
structure SInv (combine : Combine) (R C : Nat) (L : List (Nat × CM α)) (s : Sink α) : Prop where
  comb : s.combine = combine
  rows : s.numRows = R
  cols : s.numCols = C
  perm : s.results.Perm L
  sorted : s.results.Pairwise (fun p q => p.1 ≤ q.1)
  nnz : s.nnz = nnzSum L
  size : s.rowNnz.size = R
  rowNnz : combine = .cols → ∀ row, row < R → s.rowNnz.data row = rowSum L row

theorem SInv.new (combine : Combine) (R C : Nat) : SInv combine R C ([] : List (Nat × CM α)) (Sink.new combine R C) :=
  ⟨rfl, rfl, rfl, List.Perm.refl _, List.Pairwise.nil, rfl, rfl, fun _ _ _ => rfl⟩

theorem SInv.of_perm {combine : Combine} {R C : Nat} {L L' : List (Nat × CM α)} {s : Sink α} (h : SInv combine R C L s) (hp : L.Perm L') :
    SInv combine R C L' s :=
  ⟨h.comb, h.rows, h.cols, h.perm.trans hp, h.sorted, by rw [h.nnz]; exact (hp.map _).sum_nat,
    h.size, fun hc row hr => by rw [h.rowNnz hc row hr]; exact (hp.map _).sum_nat⟩

theorem addRowNnz_ok {m : CM α} (w : m.WF) {rn : Buf Nat} (hs : m.h.numRows ≤ rn.size) :
    Res.Ok (addRowNnz m rn) (fun r => r.size = rn.size ∧ ∀ i, i < m.h.numRows → r.data i = rn.data i + m.rowLen i) := by
  unfold addRowNnz
  refine (forLoop_ok (fun k (r : Buf Nat) => r.size = rn.size ∧ ∀ i, r.data i = if i < k then rn.data i + m.rowLen i else rn.data i) 0
    m.h.numRows rn (Nat.zero_le _) ⟨rfl, fun i => by simp⟩ ?_).mono ?_
  · rintro k r - hk ⟨i1, i2⟩
    rw [w.off (by omega), w.off (by omega)]
    simp only [Res.ok_bind]
    rw [Buf.read_eq (by omega)]
    simp only [Res.ok_bind]
    rw [Buf.write_eq (by omega)]
    refine Res.ok_iff.2 ⟨by simpa using i1, fun i => ?_⟩
    rw [Buf.put_data]
    by_cases e : i = k
    · subst e
      rw [if_pos rfl, if_pos (by omega), i2, if_neg (by omega)]; rfl
    · rw [if_neg e, i2]
      by_cases h : i < k
      · rw [if_pos h, if_pos (by omega)]
      · rw [if_neg h, if_neg (by omega)]
  · rintro r ⟨h1, h2⟩
    exact ⟨h1, fun i hi => by rw [h2, if_pos hi]⟩

theorem SInv.add {combine : Combine} {R C : Nat} {L : List (Nat × CM α)} {s : Sink α} (h : SInv combine R C L s)
    (hcomb : combine = .rows ∨ combine = .cols) {m : CM α} (w : m.WF) (hm : combine = .cols → m.h.numRows = R) (start : Nat) :
    Res.Ok (s.add m start) (SInv combine R C ((start, m) :: L)) := by
  have hc := h.comb
  have hq := enqueue_perm (start, m) s.results
  have hq' := enqueue_sorted (start, m) s.results h.sorted
  have hn : nnzSum ((start, m) :: L) = s.nnz + (m.o m.h.numRows - m.o 0) := by
    rw [h.nnz]; simp [nnzSum, CM.len]; omega
  unfold Sink.add
  rcases hcomb with rfl | rfl
  · rw [hc]
    simp only [Sink.addResult]
    rw [w.numNonZeros]
    simp only [Res.ok_bind]
    refine Res.ok_iff.2 ⟨hc, h.rows, h.cols, hq.trans (h.perm.cons _), hq', hn.symm, h.size, by simp⟩
  · rw [hc]
    simp only
    have hsz := h.size
    have hm' := hm rfl
    refine (addRowNnz_ok w (rn := s.rowNnz) (by omega)).bind ?_
    rintro rn ⟨g1, g2⟩
    simp only [Sink.addResult]
    rw [w.numNonZeros]
    simp only [Res.ok_bind]
    refine Res.ok_iff.2 ⟨rfl, h.rows, h.cols, hq.trans (h.perm.cons _), hq', hn.symm, by simp only; omega, fun _ row hr => ?_⟩
    simp only
    rw [g2 row (by omega), h.rowNnz rfl row hr]
    simp [rowSum]; omega

/-- The queue yields the partial results by ascending start. -/
theorem SInv.results_eq {combine : Combine} {R C : Nat} {L : List (Nat × CM α)} {s : Sink α} (h : SInv combine R C L s)
    (hL : L.Pairwise (fun p q => p.1 < q.1)) : s.results = L := by
  refine List.Perm.eq_of_pairwise (le := fun p q => p.1 ≤ q.1) ?_ h.sorted (hL.imp fun h => Nat.le_of_lt h) h.perm
  intro a b ha hb h1 h2
  have ha' := h.perm.mem_iff.1 ha
  by_contra hne
  rcases List.pairwise_iff_getElem.1 hL, List.getElem_of_mem ha', List.getElem_of_mem hb with ⟨hp, ⟨i, hi, rfl⟩, ⟨j, hj, rfl⟩⟩
  rcases Nat.lt_trichotomy i j with hij | hij | hij
  · have := hp i j hi hj hij; omega
  · subst hij; exact hne rfl
  · have := hp j i hj hi hij; omega

/-- Partial results `L` belong to the consecutive ranges `tiles`. -/
def PartsOf (good : Nat × Nat → CM α → Prop) (tiles : List (Nat × Nat)) (L : List (Nat × CM α)) : Prop :=
  List.Forall₂ (fun t p => p.1 = t.1 ∧ good t p.2) tiles L

theorem PartsOf.sorted {good : Nat × Nat → CM α → Prop} : ∀ {tiles : List (Nat × Nat)} {L : List (Nat × CM α)} {a b : Nat},
    PartsOf good tiles L → Spec.Tiles a b tiles → L.Pairwise (fun p q => p.1 < q.1) ∧ ∀ p ∈ L, a ≤ p.1
  | _, _, a, b, .nil, _ => ⟨List.Pairwise.nil, by simp⟩
  | _, _, a, b, .cons (a := t) (b := p) h1 h2, ht => by
    obtain ⟨e1, e2, e3⟩ := ht
    obtain ⟨i1, i2⟩ := PartsOf.sorted h2 e3
    refine ⟨List.pairwise_cons.2 ⟨fun q hq => ?_, i1⟩, ?_⟩
    · have := i2 q hq; have := h1.1; omega
    · intro q hq
      rcases List.mem_cons.1 hq with rfl | hq
      · have := h1.1; omega
      · have := i2 q hq; omega

theorem RowOk.congr {zero : α} {cols cols' : Nat → Nat} {vals vals' : Nat → α} {b e C : Nat} {cell cell' : Nat → α}
    (h : RowOk zero cols vals b e C cell) (hc : ∀ p, b ≤ p → p < e → cols' p = cols p) (hv : ∀ p, b ≤ p → p < e → vals' p = vals p)
    (hcell : ∀ c, c < C → cell' c = cell c) : RowOk zero cols' vals' b e C cell' := by
  refine ⟨h.le, fun p q h1 h2 h3 => ?_, fun p h1 h2 => ?_, fun p h1 h2 => ?_, fun c h1 h2 => ?_⟩
  · rw [hc p h1 (by omega), hc q (by omega) h3]; exact h.sorted p q h1 h2 h3
  · rw [hc p h1 h2]; exact h.bound p h1 h2
  · rw [hc p h1 h2, hv p h1 h2, hcell _ (h.bound p h1 h2)]; exact h.entry p h1 h2
  · rw [hcell c h1]; exact h.rest c h1 fun p p1 p2 p3 => h2 p p1 p2 (by rw [hc p p1 p2]; exact p3)

/-! ### Row-wise combination -/

/-- A partial result for the rows `[t.1, t.2)` of `W`, whose entries start at the beginning of its arrays. -/
def GoodRows (zero : α) (W : Mat α) (t : Nat × Nat) (m : CM α) : Prop := m.Is zero (W.window t.1 t.2 0 W.cols) ∧ m.o 0 = 0

/-- A partial result for the columns `[t.1, t.2)` of `W`. -/
def GoodCols (zero : α) (W : Mat α) (t : Nat × Nat) (m : CM α) : Prop := m.Is zero (W.window 0 W.rows t.1 t.2)

/-- State of the row-wise combination when the rows before `a` are done and `L` remains. -/
structure RInv (zero : α) (W : Mat α) (cap a rest : Nat) (m : CMem α) : Prop where
  so : m.offs.size = W.rows + 1
  sv : m.vals.size = cap
  sc : m.cols.size = cap
  o0 : m.offs.data 0 = 0
  room : m.offs.data a + rest ≤ cap
  rows : ∀ r, r < a → RowOk zero m.cols.data m.vals.data (m.offs.data r) (m.offs.data (r + 1)) W.cols (W.cell r)
  below : ∀ r, r < a → m.offs.data (r + 1) ≤ m.offs.data a

theorem placeRows_ok {zero : α} {W : Mat α} {cap a b rest : Nat} {p : Nat × CM α} {m : CMem α} (hab : a < b) (hb : b ≤ W.rows)
    (hp : p.1 = a) (hg : GoodRows zero W (a, b) p.2) (h : RInv zero W cap a (p.2.len + rest) m) :
    Res.Ok (placeRows m p) (RInv zero W cap b rest) := by
  obtain ⟨hI, h0⟩ := hg
  have e1 := hI.rows
  have e2 := hI.cols
  simp only [Mat.window] at e1 e2
  obtain ⟨so, sv, sc, o0, room, rows, below⟩ := h
  unfold placeRows
  rw [hp]
  have hlen : p.2.len = p.2.o (b - a) := by rw [CM.len, h0, e1]; simp
  have tv := hI.wf.topV; have tc := hI.wf.topC
  rw [e1] at tv tc
  refine (forLoop_ok (fun k (o : Buf Nat) => o.size = W.rows + 1 ∧
      ∀ i, o.data i = if a < i ∧ i ≤ a + k then m.offs.data a + p.2.o (i - a) else m.offs.data i) 0 p.2.h.numRows m.offs (Nat.zero_le _)
      ⟨so, fun i => by rw [if_neg (by omega)]⟩ ?_).bind ?_
  · rintro k o - hk ⟨i1, i2⟩
    rw [Buf.read_eq (by omega), i2, if_neg (by omega)]
    simp only [Res.ok_bind]
    rw [hI.wf.off (by omega)]
    simp only [Res.ok_bind]
    rw [Buf.write_eq (by omega)]
    refine Res.ok_iff.2 ⟨by simpa using i1, fun i => ?_⟩
    rw [Buf.put_data]
    by_cases e : i = a + k + 1
    · rw [if_pos e, if_pos (by omega), e, show a + k + 1 - a = k + 1 by omega]
    · rw [if_neg e, i2]
      by_cases hh : a < i ∧ i ≤ a + k
      · rw [if_pos hh, if_pos (by omega)]
      · rw [if_neg hh, if_neg (by omega)]
  · rintro o ⟨i1, i2⟩
    rw [e1] at i2
    rw [hI.wf.numNonZeros]
    simp only [Res.ok_bind]
    rw [Buf.read_eq (by omega), i2 a, if_neg (by omega)]
    simp only [Res.ok_bind]
    rw [h0, e1, Nat.sub_zero]
    refine (Buf.copy_ok (.inr (by omega)) (.inr (by omega))).bind ?_
    rintro cs ⟨c1, c2⟩
    refine (Buf.copy_ok (.inr (by omega)) (.inr (by omega))).bind ?_
    rintro vs ⟨v1, v2⟩
    have ob : o.data b = m.offs.data a + p.2.o (b - a) := by rw [i2, if_pos (by omega)]
    have oge : ∀ i, a ≤ i → i ≤ b → o.data i = m.offs.data a + p.2.o (i - a) := by
      intro i h1 h2
      rw [i2]
      by_cases e : i = a
      · subst e; rw [if_neg (by omega), Nat.sub_self, h0]; omega
      · rw [if_pos (by omega)]
    have olt : ∀ i, i ≤ a → o.data i = m.offs.data i := fun i hi => by rw [i2, if_neg (by omega)]
    refine Res.ok_iff.2 ⟨by omega, by simp only; omega, by simp only; omega, by rw [olt 0 (by omega)]; exact o0, ?_, ?_, ?_⟩
    · simp only; rw [ob]; omega
    · intro r hr
      simp only
      by_cases hra : r < a
      · rw [olt r (by omega), olt (r + 1) (by omega)]
        have hb' := below r hra
        refine (rows r hra).congr (fun q q1 q2 => ?_) (fun q q1 q2 => ?_) (fun _ _ => rfl)
        · rw [c2, if_neg (by omega)]
        · rw [v2, if_neg (by omega)]
      · rw [oge r (by omega) (by omega), oge (r + 1) (by omega) (by omega)]
        have hrow := hI.row (r := r - a) (by simp only [Mat.window]; omega)
        rw [show r - a + 1 = r + 1 - a by omega] at hrow
        have m1 := hI.wf.mono (r - a) (by omega)
        rw [show r - a + 1 = r + 1 - a by omega] at m1
        have m2 := hI.wf.mono' (r := r + 1 - a) (r' := b - a) (by omega) (by omega)
        refine ((hrow.shift (cols' := cs.data) (vals' := vs.data) (b' := m.offs.data a + p.2.o (r - a)) (e' := m.offs.data a + p.2.o (r + 1 - a))
          (by omega) ?_ ?_).congr (fun _ _ _ => rfl) (fun _ _ _ => rfl) ?_)
        · intro k hk
          rw [c2, if_pos (by omega)]; congr 1; omega
        · intro k hk
          rw [v2, if_pos (by omega)]; congr 1; omega
        · intro c hc
          simp only [Mat.window]
          rw [show a + (r - a) = r by omega, Nat.zero_add]
    · intro r hr
      simp only
      rw [ob]
      by_cases hra : r < a
      · rw [olt (r + 1) (by omega)]; have := below r hra; omega
      · rw [oge (r + 1) (by omega) (by omega)]
        have m2 := hI.wf.mono' (r := r + 1 - a) (r' := b - a) (by omega) (by omega)
        omega

theorem placeAllRows_ok {zero : α} {W : Mat α} {cap : Nat} : ∀ {tiles : List (Nat × Nat)} {L : List (Nat × CM α)} {a : Nat} {m : CMem α},
    PartsOf (GoodRows zero W) tiles L → Spec.Tiles a W.rows tiles → RInv zero W cap a (nnzSum L) m →
    Res.Ok (L.foldlM placeRows m) (RInv zero W cap W.rows 0)
  | _, _, a, m, .nil, ht, h => by
    have ht' : a = W.rows := ht
    subst ht'
    exact Res.pure_iff.2 h
  | _, _, a, m, .cons (a := t) (b := p) (l₂ := L) h1 h2, ht, h => by
    obtain ⟨t1, t2⟩ := t
    obtain ⟨e1, e2, e3⟩ := ht
    subst e1
    rw [List.foldlM_cons]
    have hn : nnzSum (p :: L) = p.2.len + nnzSum L := by simp [nnzSum]
    rw [hn] at h
    exact (placeRows_ok e2 e3.toE.le h1.1 h1.2 h).bind fun m' hm' => placeAllRows_ok h2 e3 hm'

theorem consume_rows {zero : α} {W : Mat α} {tiles : List (Nat × Nat)} {L : List (Nat × CM α)} {s : Sink α}
    (h : SInv .rows W.rows W.cols L s) (hp : PartsOf (GoodRows zero W) tiles L) (ht : Spec.Tiles 0 W.rows tiles) (hR : 0 < W.rows)
    (jv : Nat → α) (jc jo : Nat → Nat) :
    Res.Ok (s.consume jv jc jo) (fun z => z.Is zero W ∧ z.o 0 = 0) := by
  have hres := h.results_eq (hp.sorted ht).1
  have hne : s.results ≠ [] := by
    intro he
    rw [he] at hres
    subst hres
    cases hp
    have ht' : (0 : Nat) = W.rows := ht
    omega
  unfold Sink.consume
  rw [if_neg hne]
  simp only [CM.create]
  have hs := h.rows
  rw [Buf.write_eq (by simp only; omega)]
  simp only [Res.ok_bind]
  rw [h.comb]
  simp only
  rw [hres, h.nnz]
  refine (placeAllRows_ok (zero := zero) (cap := nnzSum L) hp ht ⟨?_, rfl, rfl, by simp, by simp, by omega, by omega⟩).bind ?_
  · simp [hs]
  rintro m ⟨so, sv, sc, o0, room, rows, below⟩
  have ho : ∀ r, CM.o ⟨CHdr.new s.numRows s.numCols, m⟩ r = m.offs.data r := by intro r; simp [CM.o, CHdr.new]
  refine Res.ok_iff.2 ⟨CM.Is.ofRows hs h.cols ?_ ?_ ?_ ?_, by rw [ho]; exact o0⟩
  · simp only [CHdr.new]; omega
  · rw [ho, show (CHdr.new s.numRows s.numCols).numRows = s.numRows from rfl, hs]; simp only; omega
  · rw [ho, show (CHdr.new s.numRows s.numCols).numRows = s.numRows from rfl, hs]; simp only; omega
  · intro r hr
    rw [ho, ho]
    exact rows r hr

/-! ### Column-wise combination -/

theorem rowPositions_ok {R : Nat} {offs rn : Buf Nat} {N : Nat → Nat} (ho : offs.size = R + 1) (hr : rn.size = R) (h0 : offs.data 0 = 0)
    (hn : ∀ i, i < R → rn.data i = N i) :
    Res.Ok (rowPositions R offs rn) (fun p => p.1.size = R + 1 ∧ p.2.size = R ∧ (∀ i, i ≤ R → p.1.data i = psum N i) ∧
      ∀ i, i < R → p.2.data i = psum N i) := by
  unfold rowPositions
  refine (forLoop_ok (fun k (p : Buf Nat × Buf Nat) => p.1.size = R + 1 ∧ p.2.size = R ∧ (∀ i, i ≤ k → p.1.data i = psum N i) ∧
    (∀ i, i < k → p.2.data i = psum N i) ∧ ∀ i, k ≤ i → p.2.data i = rn.data i) 0 R (offs, rn) (Nat.zero_le _) ?_ ?_).mono ?_
  · refine ⟨ho, hr, fun i hi => ?_, by omega, fun _ _ => rfl⟩
    rw [show i = 0 by omega]; exact h0
  · rintro k ⟨o, q⟩ - hk ⟨i1, i2, i3, i4, i5⟩
    simp only at i1 i2 i3 i4 i5 ⊢
    rw [Buf.read_eq (by omega)]
    simp only [Res.ok_bind]
    rw [Buf.read_eq (by omega)]
    simp only [Res.ok_bind]
    rw [Buf.write_eq (by omega)]
    simp only [Res.ok_bind]
    rw [Buf.read_eq (by simp only [Buf.put_size]; omega)]
    simp only [Res.ok_bind]
    rw [Buf.write_eq (by omega)]
    simp only [Res.ok_bind]
    refine Res.ok_iff.2 ⟨by simpa using i1, by simpa using i2, fun i hi => ?_, fun i hi => ?_, fun i hi => ?_⟩
    · simp only [Buf.put_data]
      by_cases e : i = k + 1
      · rw [if_pos e, e, i3 k (by omega), i5 k (by omega), hn k hk]; rfl
      · rw [if_neg e]; exact i3 i (by omega)
    · simp only [Buf.put_data]
      by_cases e : i = k
      · rw [if_pos e, if_neg (by omega), e, i3 k (by omega)]
      · rw [if_neg e]; exact i4 i (by omega)
    · simp only [Buf.put_data]
      rw [if_neg (by omega)]; exact i5 i (by omega)
  · rintro p ⟨g1, g2, g3, g4, _⟩
    exact ⟨g1, g2, g3, g4⟩

/-- State of the column-wise combination: row `row` is done up to column `a row`, `rest row` entries of it remain. -/
structure ColInv (zero : α) (W : Mat α) (cap : Nat) (P : Nat → Nat) (a rest : Nat → Nat) (st : Buf α × Buf Nat × Buf Nat) : Prop where
  sv : st.1.size = cap
  sc : st.2.1.size = cap
  sr : st.2.2.size = W.rows
  pos : ∀ row, row < W.rows → st.2.2.data row + rest row = P (row + 1)
  rows : ∀ row, row < W.rows → RowOk zero st.2.1.data st.1.data (P row) (st.2.2.data row) (a row) (W.cell row)

theorem placeCols_ok {zero : α} {W : Mat α} {cap a b : Nat} {P : Nat → Nat} {rest : Nat → Nat} {p : Nat × CM α} {st : Buf α × Buf Nat × Buf Nat}
    (hP : ∀ row, row ≤ W.rows → P row ≤ cap) (hmono : ∀ r r', r ≤ r' → P r ≤ P r') (hab : a < b) (hp : p.1 = a)
    (hI : GoodCols zero W (a, b) p.2) (h : ColInv zero W cap P (fun _ => a) (fun row => p.2.rowLen row + rest row) st) :
    Res.Ok (placeCols st p) (ColInv zero W cap P (fun _ => b) rest) := by
  have e1 := hI.rows
  have e2 := hI.cols
  simp only [Mat.window] at e1 e2
  unfold placeCols
  rw [hp, e1, Nat.sub_zero]
  refine (forLoop_ok (fun k (st : Buf α × Buf Nat × Buf Nat) => ColInv zero W cap P (fun row => if row < k then b else a)
    (fun row => if row < k then rest row else p.2.rowLen row + rest row) st) 0 W.rows st (Nat.zero_le _) ?_ ?_).mono ?_
  · simpa using h
  · rintro k ⟨vs, cs, rn⟩ - hk ⟨sv, sc, sr, pos, rows⟩
    simp only at sv sc sr pos rows ⊢
    have wo := hI.wf.mono k (by omega)
    have wt := hI.wf.rowTop (r := k) (by omega)
    rw [hI.wf.off (by omega), hI.wf.off (by omega)]
    simp only [Res.ok_bind]
    rw [Buf.read_eq (by omega)]
    simp only [Res.ok_bind]
    have pk := pos k hk
    rw [if_neg (by omega)] at pk
    have rk := rows k hk
    rw [if_neg (by omega)] at rk
    have pk1 := hP (k + 1) (by omega)
    have rle := rk.le
    have hl : p.2.rowLen k = p.2.o (k + 1) - p.2.o k := rfl
    refine (Buf.copy_ok (.inr (by omega)) (.inr (by omega))).bind ?_
    rintro vs' ⟨v1, v2⟩
    refine (forLoop_ok (fun i (c : Buf Nat) => c.size = cap ∧ ∀ j, c.data j = if rn.data k ≤ j ∧ j < rn.data k + i then a + p.2.mem.cols.data (p.2.o k + (j - rn.data k)) else cs.data j)
      0 (p.2.o (k + 1) - p.2.o k) cs (Nat.zero_le _) ⟨sc, fun j => by rw [if_neg (by omega)]⟩ ?_).bind ?_
    · rintro i c - hi ⟨i1, i2⟩
      rw [Buf.read_eq (by omega)]
      simp only [Res.ok_bind]
      rw [Buf.write_eq (by omega)]
      refine Res.ok_iff.2 ⟨by simpa using i1, fun j => ?_⟩
      rw [Buf.put_data]
      by_cases e : j = rn.data k + i
      · rw [if_pos e, if_pos (by omega), e, Nat.add_sub_cancel_left]
      · rw [if_neg e, i2]
        by_cases hh : rn.data k ≤ j ∧ j < rn.data k + i
        · rw [if_pos hh, if_pos (by omega)]
        · rw [if_neg hh, if_neg (by omega)]
    · rintro cs' ⟨c1, c2⟩
      rw [Buf.write_eq (by omega)]
      simp only [Res.ok_bind]
      refine Res.ok_iff.2 ⟨by simp only; omega, by simpa using c1, by simpa using sr, fun row hr => ?_, fun row hr => ?_⟩
      · simp only [Buf.put_data]
        have := pos row hr
        by_cases e : row = k
        · subst e
          rw [if_pos rfl, if_pos (by omega)]; omega
        · rw [if_neg e]
          by_cases hh : row < k
          · rw [if_pos hh] at this; rw [if_pos (by omega)]; exact this
          · rw [if_neg hh] at this; rw [if_neg (by omega)]; exact this
      · simp only [Buf.put_data]
        by_cases e : row = k
        · subst e
          rw [if_pos rfl, if_pos (by omega)]
          have hrow := hI.row (r := row) (by simp only [Mat.window]; omega)
          have := RowOk.concat (cols' := cs'.data) (vals' := vs'.data) (b' := P row) (e' := rn.data row + (p.2.o (row + 1) - p.2.o row)) rk hrow (by omega)
            (fun q hq => by rw [c2, if_neg (by omega)]) (fun q hq => by rw [v2, if_neg (by omega)])
            (fun q hq => by
              rw [show P row + (rn.data row - P row) + q = rn.data row + q by omega, c2, if_pos (by omega), Nat.add_sub_cancel_left]; omega)
            (fun q hq => by
              rw [show P row + (rn.data row - P row) + q = rn.data row + q by omega, v2, if_pos (by omega), Nat.add_sub_cancel_left])
          rw [show a + (W.window 0 W.rows a b).cols = b by simp only [Mat.window]; omega] at this
          refine this.congr (fun _ _ _ => rfl) (fun _ _ _ => rfl) fun c hc => ?_
          by_cases hca : c < a
          · rw [if_pos hca]
          · rw [if_neg hca]; simp only [Mat.window]; rw [Nat.zero_add, show a + (c - a) = c by omega]
        · rw [if_neg e]
          have hrow := rows row hr
          have hpos := pos row hr
          have hext : ∀ q, P row ≤ q → q < rn.data row → ¬ (rn.data k ≤ q ∧ q < rn.data k + (p.2.o (k + 1) - p.2.o k)) := by
            intro q q1 q2
            rcases Nat.lt_or_ge row k with hh | hh
            · have := hmono (row + 1) k (by omega); omega
            · have := hmono (k + 1) row (by omega); omega
          have hrow' := hrow.congr (cols' := cs'.data) (vals' := vs'.data) (cell' := W.cell row) (fun q q1 q2 => by rw [c2, if_neg (hext q q1 q2)])
            (fun q q1 q2 => by rw [v2, if_neg (hext q q1 q2)]) (fun _ _ => rfl)
          by_cases hh : row < k
          · rw [if_pos hh] at hrow'; rw [if_pos (by omega)]; exact hrow'
          · rw [if_neg hh] at hrow'; rw [if_neg (by omega)]; exact hrow'
  · rintro st' ⟨sv, sc, sr, pos, rows⟩
    refine ⟨sv, sc, sr, fun row hr => ?_, fun row hr => ?_⟩
    · have := pos row hr
      rw [if_pos hr] at this; exact this
    · have := rows row hr
      simp only [hr, if_true] at this; exact this

theorem placeAllCols_ok {zero : α} {W : Mat α} {cap : Nat} {P : Nat → Nat} (hP : ∀ row, row ≤ W.rows → P row ≤ cap)
    (hmono : ∀ r r', r ≤ r' → P r ≤ P r') :
    ∀ {tiles : List (Nat × Nat)} {L : List (Nat × CM α)} {a : Nat} {st : Buf α × Buf Nat × Buf Nat},
    PartsOf (GoodCols zero W) tiles L → Spec.Tiles a W.cols tiles → ColInv zero W cap P (fun _ => a) (rowSum L) st →
    Res.Ok (L.foldlM placeCols st) (ColInv zero W cap P (fun _ => W.cols) (fun _ => 0))
  | _, _, a, m, .nil, ht, h => by
    have ht' : a = W.cols := ht
    subst ht'
    exact Res.pure_iff.2 h
  | _, _, a, m, .cons (a := t) (b := p) (l₂ := L) h1 h2, ht, h => by
    obtain ⟨t1, t2⟩ := t
    obtain ⟨e1, e2, e3⟩ := ht
    subst e1
    rw [List.foldlM_cons]
    have hn : rowSum (p :: L) = fun row => p.2.rowLen row + rowSum L row := by funext row; simp [rowSum]
    rw [hn] at h
    exact (placeCols_ok hP hmono e2 h1.1 h1.2 h).bind fun m' hm' => placeAllCols_ok hP hmono h2 e3 hm'

theorem PartsOf.forall {good : Nat × Nat → CM α → Prop} {Q : CM α → Prop} (hq : ∀ t m, good t m → Q m) :
    ∀ {tiles : List (Nat × Nat)} {L : List (Nat × CM α)}, PartsOf good tiles L → ∀ p ∈ L, Q p.2
  | _, _, .nil => by simp
  | _, _, .cons h1 h2 => by
    intro p hp
    rcases List.mem_cons.1 hp with rfl | hp
    · exact hq _ _ h1.2
    · exact PartsOf.forall hq h2 p hp

theorem RowOk.empty {zero : α} {cols : Nat → Nat} {vals : Nat → α} {b : Nat} {cell : Nat → α} : RowOk zero cols vals b b 0 cell :=
  ⟨Nat.le_refl _, by omega, by omega, by omega, by omega⟩

theorem consume_cols {zero : α} {W : Mat α} {tiles : List (Nat × Nat)} {L : List (Nat × CM α)} {s : Sink α}
    (h : SInv .cols W.rows W.cols L s) (hp : PartsOf (GoodCols zero W) tiles L) (ht : Spec.Tiles 0 W.cols tiles) (hC : 0 < W.cols)
    (jv : Nat → α) (jc jo : Nat → Nat) :
    Res.Ok (s.consume jv jc jo) (fun z => z.Is zero W ∧ z.o 0 = 0) := by
  have hres := h.results_eq (hp.sorted ht).1
  have hne : s.results ≠ [] := by
    intro he
    rw [he] at hres
    subst hres
    cases hp
    have ht' : (0 : Nat) = W.cols := ht
    omega
  have hall : psum (rowSum L) W.rows = nnzSum L := psum_rowSum L W.rows
    (PartsOf.forall (Q := fun m => m.WF ∧ m.h.numRows = W.rows) (fun t m hm => ⟨hm.wf, by rw [hm.rows]; simp [Mat.window]⟩) hp)
  unfold Sink.consume
  rw [if_neg hne]
  simp only [CM.create]
  have hs := h.rows
  rw [Buf.write_eq (by simp only; omega)]
  simp only [Res.ok_bind]
  rw [h.comb]
  simp only
  rw [hres, h.nnz, hs]
  refine (rowPositions_ok (N := rowSum L) (by rfl) h.size (by simp) (h.rowNnz rfl)).bind ?_
  rintro ⟨o, rn⟩ ⟨g1, g2, g3, g4⟩
  simp only at g1 g2 g3 g4 ⊢
  refine (placeAllCols_ok (zero := zero) (cap := nnzSum L) (P := psum (rowSum L)) ?_ (fun _ _ h => psum_mono h) hp ht
    ⟨rfl, rfl, g2, ?_, ?_⟩).bind ?_
  · intro row hr; rw [← hall]; exact psum_mono hr
  · intro row hr; simp only; rw [g4 row hr]; rfl
  · intro row hr; simp only; rw [g4 row hr]; exact RowOk.empty
  rintro ⟨vs, cs, q⟩ ⟨sv, sc, sr, pos, rows⟩
  simp only at sv sc sr pos rows ⊢
  have ho : ∀ r, r ≤ W.rows → CM.o ⟨CHdr.new W.rows s.numCols, ⟨vs, cs, o⟩⟩ r = psum (rowSum L) r := by
    intro r hr; simp only [CM.o, CHdr.new, Nat.zero_add]; exact g3 r hr
  refine Res.ok_iff.2 ⟨CM.Is.ofRows rfl h.cols ?_ ?_ ?_ ?_, by rw [ho 0 (by omega)]; rfl⟩
  · simp only [CHdr.new]; omega
  · rw [show (CHdr.new W.rows s.numCols).numRows = W.rows from rfl, ho _ (Nat.le_refl _), hall]; simp only; omega
  · rw [show (CHdr.new W.rows s.numCols).numRows = W.rows from rfl, ho _ (Nat.le_refl _), hall]; simp only; omega
  · intro r hr
    rw [ho r (by omega), ho (r + 1) (by omega)]
    have := rows r hr
    rw [show q.data r = psum (rowSum L) (r + 1) by have := pos r hr; omega] at this
    exact this

/-! ### Adding in any order -/

theorem addAll_ok {combine : Combine} (hcomb : combine = .rows ∨ combine = .cols) {R C : Nat} {f : Nat × Nat → CM α} :
    ∀ (order : List (Nat × Nat)) (s : Sink α) (L : List (Nat × CM α)), SInv combine R C L s →
      (∀ t ∈ order, (f t).WF ∧ (combine = .cols → (f t).h.numRows = R)) →
      Res.Ok (order.foldlM (fun s t => s.add (f t) t.1) s) (SInv combine R C (order.map (fun t => (t.1, f t)) ++ L))
  | [], s, L, h, _ => Res.pure_iff.2 h
  | t :: ts, s, L, h, hf => by
    rw [List.foldlM_cons]
    obtain ⟨f1, f2⟩ := hf t (by simp)
    refine (h.add hcomb f1 f2 t.1).bind fun s' hs' => ?_
    refine (addAll_ok hcomb ts s' _ hs' fun t' ht' => hf t' (by simp [ht'])).mono fun s'' h'' => h''.of_perm ?_
    simp only [List.map_cons, List.cons_append]
    exact List.perm_middle

theorem PartsOf.map {good : Nat × Nat → CM α → Prop} {f : Nat × Nat → CM α} : ∀ {tiles : List (Nat × Nat)}, (∀ t ∈ tiles, good t (f t)) →
    PartsOf good tiles (tiles.map fun t => (t.1, f t))
  | [], _ => .nil
  | t :: ts, h => .cons ⟨rfl, h t (by simp)⟩ (PartsOf.map fun t' ht' => h t' (by simp [ht']))

/-- **C10.** Partial results for consecutive row ranges, added in any order, are combined into the whole matrix. (The entries
of each partial result have to start at the beginning of its arrays, see `C46_row_view_result_wrong`.) -/
theorem C10_sink_rows (zero : α) (W : Mat α) (tiles order : List (Nat × Nat)) (f : Nat × Nat → CM α)
    (ht : Spec.Tiles 0 W.rows tiles) (hR : 0 < W.rows) (hf : ∀ t ∈ tiles, (f t).Is zero (W.window t.1 t.2 0 W.cols) ∧ (f t).o 0 = 0)
    (hperm : order.Perm tiles) (jv : Nat → α) (jc jo : Nat → Nat) :
    Res.Ok (do let s ← order.foldlM (fun s t => s.add (f t) t.1) (Sink.new .rows W.rows W.cols); s.consume jv jc jo)
      (fun z => z.Is zero W) := by
  refine (addAll_ok (.inl rfl) order _ [] (SInv.new .rows W.rows W.cols)
    (fun t h => ⟨(hf t (hperm.mem_iff.1 h)).1.wf, by simp⟩)).bind fun s hs => ?_
  rw [List.append_nil] at hs
  exact (consume_rows (hs.of_perm (hperm.map _)) (PartsOf.map hf) ht hR jv jc jo).mono fun z hz => hz.1

/-- **C11.** Partial results for consecutive column ranges, added in any order, are combined into the whole matrix. -/
theorem C11_sink_cols (zero : α) (W : Mat α) (tiles order : List (Nat × Nat)) (f : Nat × Nat → CM α)
    (ht : Spec.Tiles 0 W.cols tiles) (hC : 0 < W.cols) (hf : ∀ t ∈ tiles, (f t).Is zero (W.window 0 W.rows t.1 t.2))
    (hperm : order.Perm tiles) (jv : Nat → α) (jc jo : Nat → Nat) :
    Res.Ok (do let s ← order.foldlM (fun s t => s.add (f t) t.1) (Sink.new .cols W.rows W.cols); s.consume jv jc jo)
      (fun z => z.Is zero W) := by
  refine (addAll_ok (.inr rfl) order _ [] (SInv.new .cols W.rows W.cols)
    (fun t h => ⟨(hf t (hperm.mem_iff.1 h)).wf, fun _ => by rw [(hf t (hperm.mem_iff.1 h)).rows]; simp [Mat.window]⟩)).bind fun s hs => ?_
  rw [List.append_nil] at hs
  exact (consume_cols (hs.of_perm (hperm.map _)) (PartsOf.map hf) ht hC jv jc jo).mono fun z hz => hz.1

/-- A sink without partial results, or for an unsupported combination, is rejected. -/
theorem C10_C11_rejected (combine : Combine) (R C : Nat) (jv : Nat → α) (jc jo : Nat → Nat) :
    Res.Throws ((Sink.new combine R C : Sink α).consume jv jc jo) ∧
    (combine ≠ .rows → combine ≠ .cols → ∀ (m : CM α) start, Res.Throws ((Sink.new combine R C).add m start)) := by
  constructor
  · unfold Sink.consume
    rw [if_pos (show (Sink.new combine R C : Sink α).results = [] from rfl)]
    exact ⟨_, rfl⟩
  · intro h1 h2 m start
    cases combine <;> first | exact absurd rfl h1 | exact absurd rfl h2 | exact ⟨_, rfl⟩

/-! ### Whole tasks -/

theorem batchLoop_ok {combine : Combine} (hcomb : combine = .rows ∨ combine = .cols) {R C rl ru bs : Nat} {f : Nat → Nat → Res (CM α)}
    {good : Nat × Nat → CM α → Prop} (hbs : 0 < bs)
    (hf : ∀ r r2, rl ≤ r → r < r2 → r2 ≤ ru → Res.Ok (f r r2) (good (r - rl, r2 - rl)))
    (hg : ∀ t m, good t m → m.WF ∧ (combine = .cols → m.h.numRows = R)) :
    ∀ (fuel r : Nat) (s : Sink α) (L : List (Nat × CM α)), rl ≤ r → ru ≤ r + fuel → SInv combine R C L s →
      Res.Ok (batchLoop f rl ru bs fuel r s) (fun s' => ∃ tiles L', Spec.Tiles (min r ru - rl) (ru - rl) tiles ∧ PartsOf good tiles L' ∧
        SInv combine R C (L' ++ L) s')
  | 0, r, s, L, h1, h2, hs => Res.ok_iff.2 ⟨[], [], by simp only [Spec.Tiles]; omega, .nil, hs⟩
  | fuel + 1, r, s, L, h1, h2, hs => by
    unfold batchLoop
    by_cases hr : r < ru
    · rw [if_pos hr]
      refine (hf r (min (r + bs) ru) h1 (by omega) (by omega)).bind fun m hm => ?_
      obtain ⟨w, hrows⟩ := hg _ m hm
      refine (hs.add hcomb w hrows (r - rl)).bind fun s' hs' => ?_
      refine (batchLoop_ok hcomb hbs hf hg fuel (r + bs) s' _ (by omega) (by omega) hs').mono ?_
      rintro s'' ⟨tiles, L', t1, t2, t3⟩
      refine ⟨(r - rl, min (r + bs) ru - rl) :: tiles, (r - rl, m) :: L', ⟨by omega, by omega, t1⟩, .cons ⟨rfl, hm⟩ t2, t3.of_perm ?_⟩
      exact List.perm_middle
    · rw [if_neg hr]
      exact Res.ok_iff.2 ⟨[], [], by simp only [Spec.Tiles]; omega, .nil, hs⟩

/-- One task combines the results of its batches. -/
theorem sparseTask_rows {zero : α} {W : Mat α} {rl ru bs : Nat} {f : Nat → Nat → Res (CM α)} (hbs : 0 < bs) (hlt : rl < ru)
    (hf : ∀ r r2, rl ≤ r → r < r2 → r2 ≤ ru → Res.Ok (f r r2) (GoodRows zero W (r, r2))) (rows : Option Nat) (jv : Nat → α) (jc jo : Nat → Nat) :
    Res.Ok (sparseTask .rows rows (some W.cols) f rl ru bs jv jc jo) (GoodRows zero W (rl, ru)) := by
  have key : ∀ {r r2 : Nat} {m : CM α}, rl ≤ r → GoodRows zero W (r, r2) m → GoodRows zero (W.window rl ru 0 W.cols) (r - rl, r2 - rl) m := by
    rintro r r2 m h1 ⟨g1, g2⟩
    refine ⟨g1.congr ⟨?_, ?_, ?_⟩, g2⟩
    · simp only [Mat.window]; omega
    · simp [Mat.window]
    · intro i c hi hc
      simp only [Mat.window, Nat.zero_add] at hi hc ⊢
      rw [show rl + (r - rl + i) = r + i by omega]
  have hrun := batchLoop_ok (.inl rfl) (R := ru - rl) (C := W.cols) (good := GoodRows zero (W.window rl ru 0 W.cols)) hbs
    (fun r r2 h1 h2 h3 => (hf r r2 h1 h2 h3).mono fun m hm => key h1 hm) (fun t m h => ⟨h.1.wf, by simp⟩) (ru - rl) rl
    (Sink.new .rows (ru - rl) W.cols) [] (Nat.le_refl _) (by omega) (SInv.new _ _ _)
  simp only [sparseTask]
  refine hrun.bind ?_
  rintro s ⟨tiles, L, t1, t2, t3⟩
  rw [List.append_nil] at t3
  have w1 : (W.window rl ru 0 W.cols).rows = ru - rl := rfl
  have w2 : (W.window rl ru 0 W.cols).cols = W.cols := by simp [Mat.window]
  refine consume_rows (zero := zero) (W := W.window rl ru 0 W.cols) (tiles := tiles) (L := L) (by rw [w1, w2]; exact t3) t2 ?_ (by rw [w1]; omega) jv jc jo
  rw [w1]
  rw [show min rl ru - rl = 0 by omega] at t1
  exact t1

theorem sparseTask_cols {zero : α} {W : Mat α} {rl ru bs : Nat} {f : Nat → Nat → Res (CM α)} (hbs : 0 < bs) (hlt : rl < ru)
    (hf : ∀ r r2, rl ≤ r → r < r2 → r2 ≤ ru → Res.Ok (f r r2) (GoodCols zero W (r, r2))) (cols : Option Nat) (jv : Nat → α) (jc jo : Nat → Nat) :
    Res.Ok (sparseTask .cols (some W.rows) cols f rl ru bs jv jc jo) (GoodCols zero W (rl, ru)) := by
  have key : ∀ {r r2 : Nat} {m : CM α}, rl ≤ r → GoodCols zero W (r, r2) m → GoodCols zero (W.window 0 W.rows rl ru) (r - rl, r2 - rl) m := by
    rintro r r2 m h1 g1
    refine g1.congr ⟨?_, ?_, ?_⟩
    · simp [Mat.window]
    · simp only [Mat.window]; omega
    · intro i c hi hc
      simp only [Mat.window, Nat.zero_add] at hi hc ⊢
      rw [show rl + (r - rl + c) = r + c by omega]
  have hrun := batchLoop_ok (.inr rfl) (R := W.rows) (C := ru - rl) (good := GoodCols zero (W.window 0 W.rows rl ru)) hbs
    (fun r r2 h1 h2 h3 => (hf r r2 h1 h2 h3).mono fun m hm => key h1 hm)
    (fun t m h => ⟨h.wf, fun _ => by rw [h.rows]; simp [Mat.window]⟩) (ru - rl) rl
    (Sink.new .cols W.rows (ru - rl)) [] (Nat.le_refl _) (by omega) (SInv.new _ _ _)
  simp only [sparseTask]
  refine hrun.bind ?_
  rintro s ⟨tiles, L, t1, t2, t3⟩
  rw [List.append_nil] at t3
  have w1 : (W.window 0 W.rows rl ru).rows = W.rows := by simp [Mat.window]
  have w2 : (W.window 0 W.rows rl ru).cols = ru - rl := rfl
  refine (consume_cols (zero := zero) (W := W.window 0 W.rows rl ru) (tiles := tiles) (L := L) (by rw [w1, w2]; exact t3) t2 ?_ (by rw [w2]; omega) jv jc jo).mono
    fun z hz => hz.1
  rw [w2]
  rw [show min rl ru - rl = 0 by omega] at t1
  exact t1

theorem runTasks_ok {combine : Combine} (hcomb : combine = .rows ∨ combine = .cols) {rows cols : Option Nat} {R C : Nat} {f : Nat → Nat → Res (CM α)}
    {bs : Nat × Nat → Nat} {jv : Nat → α} {jc jo : Nat → Nat} {good : Nat × Nat → CM α → Prop}
    (hg : ∀ t m, good t m → m.WF ∧ (combine = .cols → m.h.numRows = R)) :
    ∀ (order : List (Nat × Nat)) (s : Sink α) (L : List (Nat × CM α)), SInv combine R C L s →
      (∀ t ∈ order, Res.Ok (sparseTask combine rows cols f t.1 t.2 (bs t) jv jc jo) (good t)) →
      Res.Ok (runTasks combine rows cols f bs jv jc jo order s) (fun s' => ∃ L', PartsOf good order L' ∧ SInv combine R C (L' ++ L) s')
  | [], s, L, hs, _ => Res.ok_iff.2 ⟨[], .nil, hs⟩
  | t :: ts, s, L, hs, ht => by
    unfold runTasks
    refine (ht t (by simp)).bind fun m hm => ?_
    obtain ⟨w, hrows⟩ := hg _ m hm
    refine (hs.add hcomb w hrows t.1).bind fun s' hs' => ?_
    refine (runTasks_ok hcomb hg ts s' _ hs' fun t' ht' => ht t' (by simp [ht'])).mono ?_
    rintro s'' ⟨L', h1, h2⟩
    exact ⟨(t.1, m) :: L', .cons ⟨rfl, hm⟩ h1, h2.of_perm List.perm_middle⟩

/-- Reordering the ranges reorders the partial results. -/
theorem PartsOf.of_perm {good : Nat × Nat → CM α → Prop} {order tiles : List (Nat × Nat)} (hp : order.Perm tiles) :
    ∀ {L : List (Nat × CM α)}, PartsOf good order L → ∃ L', L.Perm L' ∧ PartsOf good tiles L' := by
  induction hp with
  | nil => intro L h; exact ⟨L, List.Perm.refl _, h⟩
  | cons x _ ih =>
    intro L h
    cases h with
    | cons h1 h2 =>
      obtain ⟨L', g1, g2⟩ := ih h2
      exact ⟨_, g1.cons _, .cons h1 g2⟩
  | swap x y l =>
    intro L h
    cases h with
    | cons h1 h2 =>
      cases h2 with
      | cons h3 h4 => exact ⟨_, List.Perm.swap _ _ _, .cons h3 (.cons h1 h4)⟩
  | trans _ _ ih1 ih2 =>
    intro L h
    obtain ⟨L', g1, g2⟩ := ih1 h
    obtain ⟨L'', g3, g4⟩ := ih2 g2
    exact ⟨L'', g1.trans g3, g4⟩

/-- **C10, for whole pipelines.** Let the compiled function yield, for any range of rows, the corresponding rows of `W`. Then for
every division of the rows into tasks (C01), every order in which the workers finish them and every batch size, the result of the
vectorized execution is `W`. -/
theorem C10_pipeline_rows (zero : α) (W : Mat α) (tasks order : List (Nat × Nat)) (bs : Nat × Nat → Nat) (f : Nat → Nat → Res (CM α))
    (ht : Spec.Tiles 0 W.rows tasks) (hR : 0 < W.rows) (hbs : ∀ t ∈ tasks, 0 < bs t)
    (hf : ∀ r r2, r < r2 → r2 ≤ W.rows → Res.Ok (f r r2) (fun m => m.Is zero (W.window r r2 0 W.cols) ∧ m.o 0 = 0))
    (hperm : order.Perm tasks) (jv jv' : Nat → α) (jc jo jc' jo' : Nat → Nat) :
    Res.Ok (do
        let s ← runTasks .rows (some W.rows) (some W.cols) f bs jv jc jo order (Sink.new .rows W.rows W.cols)
        s.consume jv' jc' jo')
      (fun z => z.Is zero W) := by
  have hin : ∀ {a b : Nat} {l : List (Nat × Nat)}, Spec.Tiles a b l → ∀ t ∈ l, t.1 < t.2 ∧ t.2 ≤ b := by
    intro a b l
    induction l generalizing a with
    | nil => simp
    | cons x xs ih =>
      rintro ⟨h1, h2, h3⟩ t htm
      rcases List.mem_cons.1 htm with rfl | htm
      · exact ⟨h2, h3.toE.le⟩
      · exact ih h3 t htm
  have hall : ∀ t ∈ order, Res.Ok (sparseTask .rows (some W.rows) (some W.cols) f t.1 t.2 (bs t) jv jc jo) (GoodRows zero W t) := by
    intro t htm
    have htm' := hperm.mem_iff.1 htm
    obtain ⟨h1, h2⟩ := hin ht t htm'
    exact sparseTask_rows (hbs t htm') h1 (fun r r2 a1 a2 a3 => hf r r2 a2 (by omega)) _ jv jc jo
  refine (runTasks_ok (.inl rfl) (R := W.rows) (C := W.cols) (fun t m h => ⟨h.1.wf, by simp⟩) order _ [] (SInv.new _ _ _) hall).bind ?_
  rintro s ⟨L, h1, h2⟩
  rw [List.append_nil] at h2
  obtain ⟨L', g1, g2⟩ := h1.of_perm hperm
  exact (consume_rows (h2.of_perm g1) g2 ht hR jv' jc' jo').mono fun z hz => hz.1

/-- **C11, for whole pipelines.** Same for outputs that are combined by columns. -/
theorem C11_pipeline_cols (zero : α) (W : Mat α) (tasks order : List (Nat × Nat)) (bs : Nat × Nat → Nat) (f : Nat → Nat → Res (CM α))
    (ht : Spec.Tiles 0 W.cols tasks) (hC : 0 < W.cols) (hbs : ∀ t ∈ tasks, 0 < bs t)
    (hf : ∀ r r2, r < r2 → r2 ≤ W.cols → Res.Ok (f r r2) (fun m => m.Is zero (W.window 0 W.rows r r2)))
    (hperm : order.Perm tasks) (jv jv' : Nat → α) (jc jo jc' jo' : Nat → Nat) :
    Res.Ok (do
        let s ← runTasks .cols (some W.rows) (some W.cols) f bs jv jc jo order (Sink.new .cols W.rows W.cols)
        s.consume jv' jc' jo')
      (fun z => z.Is zero W) := by
  have hin : ∀ {a b : Nat} {l : List (Nat × Nat)}, Spec.Tiles a b l → ∀ t ∈ l, t.1 < t.2 ∧ t.2 ≤ b := by
    intro a b l
    induction l generalizing a with
    | nil => simp
    | cons x xs ih =>
      rintro ⟨h1, h2, h3⟩ t htm
      rcases List.mem_cons.1 htm with rfl | htm
      · exact ⟨h2, h3.toE.le⟩
      · exact ih h3 t htm
  have hall : ∀ t ∈ order, Res.Ok (sparseTask .cols (some W.rows) (some W.cols) f t.1 t.2 (bs t) jv jc jo) (GoodCols zero W t) := by
    intro t htm
    have htm' := hperm.mem_iff.1 htm
    obtain ⟨h1, h2⟩ := hin ht t htm'
    exact sparseTask_cols (hbs t htm') h1 (fun r r2 a1 a2 a3 => hf r r2 a2 (by omega)) _ jv jc jo
  refine (runTasks_ok (.inr rfl) (R := W.rows) (C := W.cols) (fun t m h => ⟨CM.Is.wf h, fun _ => by rw [CM.Is.rows h]; simp [Mat.window]⟩)
    order _ [] (SInv.new _ _ _) hall).bind ?_
  rintro s ⟨L, h1, h2⟩
  rw [List.append_nil] at h2
  obtain ⟨L', g1, g2⟩ := h1.of_perm hperm
  exact (consume_cols (h2.of_perm g1) g2 ht hC jv' jc' jo').mono fun z hz => hz.1

/-! ### Examples and a refutation -/

/-- Rows `[r, r2)` of the column `[1; 2; ...]`, one entry per row. -/
def exRows (r r2 : Nat) : CM Nat := ⟨CHdr.new (r2 - r) 1, ⟨⟨r2 - r, fun i => r + i + 1⟩, ⟨r2 - r, fun _ => 0⟩, ⟨r2 - r + 1, fun i => i⟩⟩⟩

/-- Columns `[r, r2)` of the row `[1, 2, ...]`. -/
def exCols (r r2 : Nat) : CM Nat := ⟨CHdr.new 1 (r2 - r), ⟨⟨r2 - r, fun i => r + i + 1⟩, ⟨r2 - r, fun i => i⟩, ⟨2, fun i => if i = 0 then 0 else r2 - r⟩⟩⟩

/-- An instance of `C10_pipeline_rows`: four rows, three tasks finished in another order, different batch sizes. -/
example : Res.Ok (do
    let s ← runTasks .rows (some 4) (some 1) (fun r r2 => .ok (exRows r r2)) (fun t => if t.1 = 1 then 1 else 5) (fun _ => 0) (fun _ => 0) (fun _ => 0)
      [(3, 4), (0, 1), (1, 3)] (Sink.new .rows 4 1)
    s.consume (fun _ => 0) (fun _ => 0) (fun _ => 0)) (fun z => z.h.get 0 z.mem 2 0 = .ok 3) := by
  refine (C10_pipeline_rows 0 ⟨4, 1, fun r _ => r + 1⟩ [(0, 1), (1, 3), (3, 4)] [(3, 4), (0, 1), (1, 3)] _ _ (by simp [Spec.Tiles]) (by decide)
    (by intro t _; split <;> omega) ?_ ?_ _ _ _ _ _ _).mono fun z hz => hz.get (by decide) (by decide)
  · intro r r2 h1 h2
    refine Res.ok_iff.2 ⟨CM.Is.ofRows rfl rfl (by simp [exRows, CHdr.new]) (by simp [exRows, CHdr.new, CM.o]) (by simp [exRows, CHdr.new, CM.o]) ?_, rfl⟩
    intro i hi
    simp only [exRows, CHdr.new, CM.o, Mat.window, Nat.zero_add]
    refine ⟨by omega, by omega, by omega, fun p _ _ => ?_, fun c hc hno => ?_⟩
    · omega
    · have := hno i (by omega) (by omega); omega
  · decide

/-- An instance of `C11_pipeline_cols`. -/
example : Res.Ok (do
    let s ← runTasks .cols (some 1) (some 4) (fun r r2 => .ok (exCols r r2)) (fun t => if t.1 = 1 then 1 else 5) (fun _ => 0) (fun _ => 0) (fun _ => 0)
      [(3, 4), (0, 1), (1, 3)] (Sink.new .cols 1 4)
    s.consume (fun _ => 0) (fun _ => 0) (fun _ => 0)) (fun z => z.h.get 0 z.mem 0 2 = .ok 3) := by
  refine (C11_pipeline_cols 0 ⟨1, 4, fun _ c => c + 1⟩ [(0, 1), (1, 3), (3, 4)] [(3, 4), (0, 1), (1, 3)] _ _ (by simp [Spec.Tiles]) (by decide)
    (by intro t _; split <;> omega) ?_ ?_ _ _ _ _ _ _).mono fun z hz => hz.get (by decide) (by decide)
  · intro r r2 h1 h2
    refine Res.ok_iff.2 (CM.Is.ofRows rfl rfl (by simp [exCols, CHdr.new]) (by simp [exCols, CHdr.new, CM.o]) (by simp [exCols, CHdr.new, CM.o]) ?_)
    intro i hi
    have hi' : i < 1 := hi
    have : i = 0 := by omega
    subst this
    simp only [exCols, CHdr.new, CM.o, Mat.window, Nat.zero_add]
    rw [if_pos trivial, if_neg (by omega)]
    refine ⟨by omega, fun p q _ h _ => h, fun p _ h => h, fun p _ _ => by omega, fun c hc hno => ?_⟩
    exact absurd rfl (hno c (by omega) (by omega))
  · decide

/-- **C46 (refuted).** If the partial results are row views of one matrix (here the rows `[0, 1)` and `[1, 3)` of `[1; 2; 3]`),
the row-wise combination reads them from the start of the shared arrays: cell `(1, 0)` is 1 instead of 2. -/
theorem C46_row_view_result_wrong :
    ∃ (m : CMem Nat) (u v : CHdr), (CHdr.new 3 1).sliceRow 0 1 = .ok u ∧ (CHdr.new 3 1).sliceRow 1 3 = .ok v ∧
      v.get 0 m 0 0 = .ok 2 ∧
      (do
        let s ← (Sink.new .rows 3 1 : Sink Nat).add ⟨u, m⟩ 0
        let s ← s.add ⟨v, m⟩ 1
        let z ← s.consume (fun _ => 0) (fun _ => 0) (fun _ => 0)
        z.h.get 0 z.mem 1 0) = .ok 1 :=
  ⟨⟨⟨3, fun i => i + 1⟩, ⟨3, fun _ => 0⟩, ⟨4, fun i => i⟩⟩, _, _, rfl, rfl, rfl, by decide⟩

end Verif.Csr
