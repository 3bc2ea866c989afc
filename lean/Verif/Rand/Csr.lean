/-
  C193, C195: random sparse matrices.
-/
import Verif.Rand.Dense
import Verif.Csr.Lemmas
import Mathlib.Algebra.BigOperators.Intervals
import Mathlib.Algebra.Order.BigOperators.Group.Finset
import Mathlib.Order.Interval.Finset.Nat

namespace Verif.Rand
open Verif Verif.Csr

variable {V : Type}

/-- A sequence of draws below `n` in which every number below `n` keeps occurring. -/
structure Fair (n : Nat) (g : Nat → Nat) : Prop where
  bound : ∀ i, g i < n
  recurs : ∀ pos r, r < n → ∃ k, g (pos + k) = r

/-- Sum of the entries `1 .. n` of an array. -/
def total (offs : Buf Nat) (n : Nat) : Nat := ∑ r ∈ Finset.range n, offs.data (1 + r)

theorem total_put {offs : Buf Nat} {n r v : Nat} (hr : r < n) : total (offs.put (1 + r) v) n + offs.data (1 + r) = total offs n + v := by
  unfold total
  have e : ∀ q, (offs.put (1 + r) v).data (1 + q) = if q = r then v else offs.data (1 + q) := by
    intro q
    rw [Buf.put_data]
    by_cases h : q = r
    · rw [if_pos h, if_pos (by omega)]
    · rw [if_neg h, if_neg (by omega)]
  simp only [e]
  have hm : r ∈ Finset.range n := Finset.mem_range.2 hr
  rw [← Finset.add_sum_erase _ _ hm, ← Finset.add_sum_erase (Finset.range n) (fun q => offs.data (1 + q)) hm, if_pos rfl]
  have : ∑ x ∈ (Finset.range n).erase r, (if x = r then v else offs.data (1 + x)) = ∑ x ∈ (Finset.range n).erase r, offs.data (1 + x) :=
    Finset.sum_congr rfl fun x hx => by rw [if_neg (Finset.ne_of_mem_erase hx)]
  rw [this]
  omega

/-- What the first phase establishes: `nnzPerRow` sums up to `nnz` and no row gets more entries than it has cells. -/
structure Counts (rows cols nnz : Nat) (offs : Buf Nat) : Prop where
  size : offs.size = rows + 1
  sum : total offs rows = nnz
  le : ∀ r, r < rows → offs.data (1 + r) ≤ cols

theorem rowsUp_ok {rows cols nnz : Nat} (hn : nnz ≤ rows * cols) {drawRow : Nat → Nat} (hf : Fair rows drawRow) {offs : Buf Nat} (ho : offs.size = rows + 1) :
    Res.Ok (rowsUp rows cols nnz drawRow offs) (fun st => Counts rows cols nnz st.1) := by
  unfold rowsUp
  refine (Buf.fill_ok (dst := offs) (lo := 1) (hi := 1 + rows) (v := 0) (by omega)).bind ?_
  rintro o1 ⟨s1, d1⟩
  refine forLoop_ok (fun i (st : Buf Nat × Nat) => Counts rows cols i st.1) 0 nnz _ (Nat.zero_le _) ⟨by simp only; omega, ?_, ?_⟩ ?_
  · unfold total
    refine Finset.sum_eq_zero fun r hr => ?_
    have := Finset.mem_range.1 hr
    simp only
    rw [d1, if_pos (by omega)]
  · intro r hr
    simp only
    rw [d1, if_pos (by omega)]
    exact Nat.zero_le _
  · rintro i ⟨o, pos⟩ _ hi ⟨h1, h2, h3⟩
    simp only at h1 h2 h3 ⊢
    have hex : ∃ r, r < rows ∧ o.data (1 + r) < cols := by
      by_contra hc
      have : rows * cols ≤ total o rows := by
        unfold total
        have := Finset.card_nsmul_le_sum (Finset.range rows) (fun r => o.data (1 + r)) cols (fun r hr => by
          by_contra hlt
          exact hc ⟨r, Finset.mem_range.1 hr, by omega⟩)
        simpa using this
      omega
    obtain ⟨r0, hr0, hlt0⟩ := hex
    obtain ⟨k0, hk0⟩ := hf.recurs pos r0 hr0
    refine (reject_ok (bad := fun r => ¬ o.data (1 + r) < cols) ⟨k0, by rw [hk0]; exact not_not.2 hlt0⟩).bind ?_
    rintro ⟨r, pos'⟩ ⟨hok, j, hj⟩
    simp only [not_not] at hok hj ⊢
    have hrb : r < rows := by rw [hj]; exact hf.bound j
    rw [Buf.read_eq (by omega)]
    simp only [Res.ok_bind]
    rw [Buf.write_eq (by omega)]
    refine Res.ok_iff.2 ⟨h1, ?_, fun q hq => ?_⟩
    · have := total_put (offs := o) (n := rows) (v := o.data (1 + r) + 1) hrb
      simp only
      omega
    · simp only [Buf.put_data]
      split
      · omega
      · exact h3 q hq

theorem rowsDown_ok {rows cols nnz : Nat} (hn : nnz ≤ rows * cols) {drawRow : Nat → Nat} (hf : Fair rows drawRow) {offs : Buf Nat} (ho : offs.size = rows + 1) :
    Res.Ok (rowsDown rows cols nnz drawRow offs) (fun st => Counts rows cols nnz st.1) := by
  unfold rowsDown
  refine (Buf.fill_ok (dst := offs) (lo := 1) (hi := 1 + rows) (v := cols) (by omega)).bind ?_
  rintro o1 ⟨s1, d1⟩
  refine forLoop_post (fun i (st : Buf Nat × Nat) => Counts rows cols (rows * cols - i) st.1) 0 (rows * cols - nnz) _ (Nat.zero_le _) ⟨by simp only; omega, ?_, ?_⟩ ?_ ?_
  · unfold total
    have : ∑ r ∈ Finset.range rows, o1.data (1 + r) = ∑ r ∈ Finset.range rows, cols := by
      refine Finset.sum_congr rfl fun r hr => ?_
      have := Finset.mem_range.1 hr
      rw [d1, if_pos (by omega)]
    simp only
    rw [this]
    simp
  · intro r hr
    simp only
    rw [d1, if_pos (by omega)]
  · rintro i ⟨o, pos⟩ _ hi ⟨h1, h2, h3⟩
    simp only at h1 h2 h3 ⊢
    have hex : ∃ r, r < rows ∧ 0 < o.data (1 + r) := by
      by_contra hc
      have : total o rows = 0 := by
        unfold total
        refine Finset.sum_eq_zero fun r hr => ?_
        by_contra hne
        exact hc ⟨r, Finset.mem_range.1 hr, by omega⟩
      omega
    obtain ⟨r0, hr0, hlt0⟩ := hex
    obtain ⟨k0, hk0⟩ := hf.recurs pos r0 hr0
    refine (reject_ok (bad := fun r => ¬ 0 < o.data (1 + r)) ⟨k0, by rw [hk0]; exact not_not.2 hlt0⟩).bind ?_
    rintro ⟨r, pos'⟩ ⟨hok, j, hj⟩
    simp only [not_not] at hok hj ⊢
    have hrb : r < rows := by rw [hj]; exact hf.bound j
    rw [Buf.read_eq (by omega)]
    simp only [Res.ok_bind]
    rw [Buf.write_eq (by omega)]
    refine Res.ok_iff.2 ⟨h1, ?_, fun q hq => ?_⟩
    · have := total_put (offs := o) (n := rows) (v := o.data (1 + r) - 1) hrb
      simp only
      omega
    · simp only [Buf.put_data]
      have := h3 q hq
      split
      · have := h3 r hrb; omega
      · exact h3 q hq
  · rintro st h
    rwa [show rows * cols - (rows * cols - nnz) = nnz from by omega] at h

/-- An ascending list of `k` columns. -/
structure ColList (cols k : Nat) (l : List Nat) : Prop where
  sorted : l.Pairwise (· < ·)
  len : l.length = k
  bound : ∀ c ∈ l, c < cols

theorem mem_insertSet {c x : Nat} : ∀ {l : List Nat}, x ∈ insertSet c l ↔ x = c ∨ x ∈ l
  | [] => by simp [insertSet]
  | y :: l => by
    unfold insertSet
    split
    · simp
    · split
      · next h => subst h; simp
      · simp only [List.mem_cons, mem_insertSet]
        constructor
        · rintro (h | h | h) <;> simp [h]
        · rintro (h | h | h) <;> simp [h]

theorem insertSet_spec {c : Nat} : ∀ {l : List Nat}, l.Pairwise (· < ·) → c ∉ l → (insertSet c l).Pairwise (· < ·) ∧ (insertSet c l).length = l.length + 1
  | [], _, _ => by simp [insertSet]
  | y :: l, hs, hn => by
    have ⟨h1, h2⟩ := List.pairwise_cons.1 hs
    simp only [List.mem_cons, not_or] at hn
    unfold insertSet
    by_cases hcy : c < y
    · rw [if_pos hcy]
      refine ⟨List.pairwise_cons.2 ⟨fun z hz => ?_, hs⟩, rfl⟩
      rcases List.mem_cons.1 hz with e | hz
      · omega
      · have := h1 z hz; omega
    · rw [if_neg hcy, if_neg hn.1]
      obtain ⟨g1, g2⟩ := insertSet_spec h2 hn.2
      refine ⟨List.pairwise_cons.2 ⟨fun z hz => ?_, g1⟩, by simp [g2]⟩
      rcases mem_insertSet.1 hz with e | hz
      · omega
      · exact h1 z hz

theorem ColList.nodup {cols k : Nat} {l : List Nat} (h : ColList cols k l) : l.Nodup := h.sorted.imp fun h => Nat.ne_of_lt h

theorem drawSet_ok {cols k : Nat} (hk : k ≤ cols) {drawCol : Nat → Nat} (hf : Fair cols drawCol) (pos : Nat) :
    Res.Ok (drawSet k drawCol pos) (fun st => ColList cols k st.1) := by
  unfold drawSet
  refine forLoop_ok (fun i (st : List Nat × Nat) => ColList cols i st.1) 0 k _ (Nat.zero_le _) ⟨List.Pairwise.nil, rfl, by simp⟩ ?_
  rintro i ⟨l, pos⟩ _ hi h
  simp only at h ⊢
  have hex : ∃ c, c < cols ∧ c ∉ l := by
    by_contra hc
    have hsub : List.range cols ⊆ l := fun c hcm => by
      by_contra hcl
      exact hc ⟨c, List.mem_range.1 hcm, hcl⟩
    have := (List.subperm_of_subset List.nodup_range hsub).length_le
    rw [List.length_range, h.len] at this
    omega
  obtain ⟨c0, hc0, hn0⟩ := hex
  obtain ⟨k0, hk0⟩ := hf.recurs pos c0 hc0
  refine (reject_ok (bad := fun c => c ∈ l) ⟨k0, by rw [hk0]; exact hn0⟩).bind ?_
  rintro ⟨c, pos'⟩ ⟨hok, j, hj⟩
  simp only at hok hj ⊢
  obtain ⟨g1, g2⟩ := insertSet_spec h.sorted hok
  refine Res.ok_iff.2 ⟨g1, by rw [g2, h.len], fun x hx => ?_⟩
  rcases mem_insertSet.1 hx with e | hx
  · rw [e, hj]; exact hf.bound j
  · exact h.bound x hx

theorem rowCols_ok (up : Bool) {cols k : Nat} (hk : k ≤ cols) {drawCol : Nat → Nat} (hf : Fair cols drawCol) (pos : Nat) :
    Res.Ok (rowCols up cols k drawCol pos) (fun st => ColList cols k st.1) := by
  unfold rowCols
  cases up with
  | true => exact drawSet_ok hk hf pos
  | false =>
    simp only [Bool.false_eq_true, if_false]
    refine (drawSet_ok (k := cols - k) (by omega) hf pos).bind ?_
    rintro ⟨l, pos'⟩ h
    simp only at h ⊢
    refine Res.ok_iff.2 ⟨List.Pairwise.filter _ List.pairwise_lt_range, ?_, fun c hc => List.mem_range.1 (List.mem_filter.1 hc).1⟩
    have e1 := List.length_eq_length_filter_add (l := List.range cols) (fun c => decide (c ∉ l))
    have e2 : ((List.range cols).filter (fun c => !decide (c ∉ l))).length = l.length := by
      refine List.Perm.length_eq ((List.perm_ext_iff_of_nodup (List.nodup_range.filter _) h.nodup).2 fun c => ?_)
      simp only [List.mem_filter, List.mem_range, decide_not, Bool.not_not, decide_eq_true_eq]
      exact ⟨fun x => x.2, fun x => ⟨h.bound c x, x⟩⟩
    rw [e2, h.len, List.length_range] at e1
    simp only
    omega

theorem writeCols_ok : ∀ (l : List Nat) (cs : Buf Nat) (p : Nat), p + l.length ≤ cs.size →
    Res.Ok (writeCols l cs p) (fun st => st.1.size = cs.size ∧ st.2 = p + l.length ∧
      (∀ k (hk : k < l.length), st.1.data (p + k) = l[k]) ∧ ∀ q, q < p → st.1.data q = cs.data q)
  | [], cs, p, _ => Res.ok_iff.2 ⟨rfl, rfl, fun k hk => absurd hk (Nat.not_lt_zero _), fun q _ => rfl⟩
  | c :: l, cs, p, h => by
    simp only [List.length_cons] at h
    unfold writeCols
    rw [Buf.write_eq (by omega)]
    simp only [Res.ok_bind]
    refine (writeCols_ok l (cs.put p c) (p + 1) (by simp only [Buf.put_size]; omega)).mono ?_
    rintro ⟨cs', p'⟩ ⟨h1, h2, h3, h4⟩
    simp only at h1 h2 h3 h4 ⊢
    refine ⟨h1, by rw [h2, List.length_cons]; omega, fun k hk => ?_, fun q hq => ?_⟩
    · cases k with
      | zero => rw [Nat.add_zero, h4 p (by omega), Buf.put_data_same]; rfl
      | succ k =>
        have := h3 k (by simpa using hk)
        rw [show p + (k + 1) = p + 1 + k from by omega, this]; rfl
    · rw [h4 q (by omega), Buf.put_data_ne _ _ _ _ (by omega)]

theorem total_succ (offs : Buf Nat) (r : Nat) : total offs (r + 1) = total offs r + offs.data (1 + r) := Finset.sum_range_succ _ _

theorem total_mono (offs : Buf Nat) {r r' : Nat} (h : r ≤ r') : total offs r ≤ total offs r' :=
  Finset.sum_le_sum_of_subset (Finset.range_mono h)

/-- The column indexes of the rows below `r` are in place. -/
structure ColsOk (cols r : Nat) (offs cs : Buf Nat) : Prop where
  sorted : ∀ q a b, q < r → total offs q ≤ a → a < b → b < total offs (q + 1) → cs.data a < cs.data b
  bound : ∀ q a, q < r → total offs q ≤ a → a < total offs (q + 1) → cs.data a < cols

theorem allCols_ok (up : Bool) {rows cols nnz : Nat} {drawCol : Nat → Nat} (hf : Fair cols drawCol) {offs : Buf Nat} (ho : Counts rows cols nnz offs)
    {cs : Buf Nat} (hcs : cs.size = nnz) :
    Res.Ok (allCols up rows cols drawCol offs cs) (fun st => st.1.size = nnz ∧ ColsOk cols rows offs st.1) := by
  unfold allCols
  refine forLoop_post (fun r (st : Buf Nat × Nat × Nat) => st.1.size = nnz ∧ st.2.1 = total offs r ∧ ColsOk cols r offs st.1) 0 rows _ (Nat.zero_le _)
    ⟨hcs, rfl, ⟨fun q _ _ h => absurd h (Nat.not_lt_zero _), fun q _ h => absurd h (Nat.not_lt_zero _)⟩⟩ ?_ ?_
  · rintro r ⟨cs, p, pos⟩ _ hr ⟨h1, h2, h3⟩
    simp only at h1 h2 h3 ⊢
    rw [Buf.read_eq (by rw [ho.size]; omega)]
    simp only [Res.ok_bind]
    refine (rowCols_ok up (ho.le r hr) hf pos).bind ?_
    rintro ⟨l, pos'⟩ hl
    simp only at hl ⊢
    have es := total_succ offs r
    have hm := total_mono offs (r := r + 1) (r' := rows) hr
    rw [ho.sum] at hm
    refine (writeCols_ok l cs p (by rw [hl.len]; omega)).bind ?_
    rintro ⟨cs', p'⟩ ⟨g1, g2, g3, g4⟩
    simp only at g1 g2 g3 g4 ⊢
    have hlen := hl.len
    refine Res.ok_iff.2 ⟨by simp only; omega, by simp only; omega, ?_, ?_⟩
    · intro q a b hq ha hab hb
      simp only
      by_cases e : q = r
      · subst e
        have ga := g3 (a - p) (by omega)
        have gb := g3 (b - p) (by omega)
        rw [show p + (a - p) = a from by omega] at ga
        rw [show p + (b - p) = b from by omega] at gb
        rw [ga, gb]
        exact List.pairwise_iff_getElem.1 hl.sorted _ _ _ _ (by omega)
      · have := total_mono offs (r := q + 1) (r' := r) (by omega)
        rw [g4 a (by omega), g4 b (by omega)]
        exact h3.sorted q a b (by omega) ha hab hb
    · intro q a hq ha hb
      simp only
      by_cases e : q = r
      · subst e
        have ga := g3 (a - p) (by omega)
        rw [show p + (a - p) = a from by omega] at ga
        rw [ga]
        exact hl.bound _ (List.getElem_mem _)
      · have := total_mono offs (r := q + 1) (r' := r) (by omega)
        rw [g4 a (by omega)]
        exact h3.bound q a (by omega) ha hb
  · rintro ⟨cs, p, pos⟩ ⟨h1, h2, h3⟩
    exact ⟨h1, h3⟩

theorem offsSum_ok {rows : Nat} {offs : Buf Nat} (ho : offs.size = rows + 1) :
    Res.Ok (offsSum rows offs) (fun o => o.size = rows + 1 ∧ ∀ r, r ≤ rows → o.data r = total offs r) := by
  unfold offsSum
  rw [Buf.write_eq (by omega)]
  simp only [Res.ok_bind]
  refine forLoop_post (fun i (o : Buf Nat) => o.size = rows + 1 ∧ (∀ r, r < i → o.data r = total offs r) ∧ ∀ r, i ≤ r → o.data r = offs.data r) 1 (rows + 1) _ (by omega)
    ⟨ho, fun r hr => ?_, fun r hr => Buf.put_data_ne _ _ _ _ (by omega)⟩ ?_ ?_
  · have : r = 0 := by omega
    subst this
    rw [Buf.put_data_same]; rfl
  · rintro i o h1 hi ⟨g1, g2, g3⟩
    rw [Buf.read_eq (by omega)]
    simp only [Res.ok_bind]
    rw [Buf.read_eq (by omega)]
    simp only [Res.ok_bind]
    rw [Buf.write_eq (by omega)]
    refine Res.ok_iff.2 ⟨g1, fun r hr => ?_, fun r hr => ?_⟩
    · rw [Buf.put_data]
      split
      · next e =>
        rw [g3 i (Nat.le_refl _), g2 (i - 1) (by omega), e]
        have := total_succ offs (i - 1)
        rw [show i - 1 + 1 = i from by omega, show 1 + (i - 1) = i from by omega] at this
        omega
      · exact g2 r (by omega)
    · rw [Buf.put_data_ne _ _ _ _ (by omega)]
      exact g3 r (by omega)
  · rintro o ⟨g1, g2, g3⟩
    exact ⟨g1, fun r hr => g2 r (by omega)⟩

open Classical in
/-- Every well-formed sparse matrix object shows a matrix. -/
theorem exists_is (zero : V) {x : CM V} (w : x.WF) : ∃ a, x.Is zero a ∧
    ∀ r c, r < a.rows → c < a.cols → a.cell r c = zero ∨ ∃ p, x.o r ≤ p ∧ p < x.o (r + 1) ∧ a.cell r c = x.mem.vals.data p := by
  refine ⟨⟨x.h.numRows, x.h.numCols, fun r c => if h : ∃ p, x.o r ≤ p ∧ p < x.o (r + 1) ∧ x.mem.cols.data p = c then x.mem.vals.data h.choose else zero⟩,
    ⟨w, rfl, rfl, ?_, ?_⟩, ?_⟩
  · intro r p hr h1 h2
    have hex : ∃ q, x.o r ≤ q ∧ q < x.o (r + 1) ∧ x.mem.cols.data q = x.mem.cols.data p := ⟨p, h1, h2, rfl⟩
    simp only
    rw [dif_pos hex]
    obtain ⟨a, b, c⟩ := hex.choose_spec
    congr 1
    rcases Nat.lt_trichotomy hex.choose p with h | h | h
    · have := w.sorted r _ _ hr a h h2; omega
    · exact h
    · have := w.sorted r _ _ hr h1 h b; omega
  · intro r c hr hc hno
    simp only
    rw [dif_neg (by rintro ⟨p, a, b, e⟩; exact hno p a b e)]
  · intro r c hr hc
    simp only
    by_cases hex : ∃ q, x.o r ≤ q ∧ q < x.o (r + 1) ∧ x.mem.cols.data q = c
    · right
      rw [dif_pos hex]
      exact ⟨_, hex.choose_spec.1, hex.choose_spec.2.1, rfl⟩
    · left; rw [dif_neg hex]

/-- Without stored zeros, the number of non-zero cells is the number of stored entries. -/
theorem nonZeros_eq [Zero V] [DecidableEq V] {x : CM V} {a : Mat V} (h : x.Is 0 a) (hz : ∀ r p, r < a.rows → x.o r ≤ p → p < x.o (r + 1) → x.mem.vals.data p ≠ 0) :
    nonZeros a + x.o 0 = x.o a.rows := by
  have key : ∀ r, r < a.rows → ((Finset.range a.cols).filter fun c => a.cell r c ≠ 0).card = x.o (r + 1) - x.o r := by
    intro r hr
    have hr' : r < x.h.numRows := by rw [h.rows]; exact hr
    rw [← Nat.card_Ico]
    symm
    refine Finset.card_bij (fun p _ => x.mem.cols.data p) ?_ ?_ ?_
    · intro p hp
      obtain ⟨h1, h2⟩ := Finset.mem_Ico.1 hp
      simp only [Finset.mem_filter, Finset.mem_range]
      have := h.wf.bound r p hr' h1 h2
      rw [h.cols] at this
      exact ⟨this, by rw [h.entry r p hr h1 h2]; exact hz r p hr h1 h2⟩
    · intro p hp q hq e
      obtain ⟨h1, h2⟩ := Finset.mem_Ico.1 hp
      obtain ⟨h3, h4⟩ := Finset.mem_Ico.1 hq
      rcases Nat.lt_trichotomy p q with g | g | g
      · have := h.wf.sorted r p q hr' h1 g h4; omega
      · exact g
      · have := h.wf.sorted r q p hr' h3 g h2; omega
    · intro c hc
      simp only [Finset.mem_filter, Finset.mem_range] at hc
      by_contra hno
      refine hc.2 (h.rest r c hr hc.1 fun p h1 h2 e => hno ⟨p, Finset.mem_Ico.2 ⟨h1, h2⟩, e⟩)
  unfold nonZeros
  rw [Finset.card_filter, Finset.sum_product]
  have e : ∀ n, n ≤ a.rows → ∑ r ∈ Finset.range n, ∑ c ∈ Finset.range a.cols, (if a.cell r c ≠ 0 then 1 else 0) + x.o 0 = x.o n := by
    intro n
    induction n with
    | zero => intro _; simp
    | succ n ih =>
      intro hn
      rw [Finset.sum_range_succ, ← Finset.card_filter, key n (by omega)]
      have := ih (by omega)
      have := h.wf.mono n (by rw [h.rows]; omega)
      omega
  exact e _ (Nat.le_refl _)

section
variable [LinearOrder V] [Zero V] {min max : V}

/-- What `randCsr` returns. -/
theorem randCsr_ok (rows cols : Nat) (s : Rat) (draw : Nat → V) (drawRow drawCol : Nat → Nat) (jv : Nat → V) (jc jo : Nat → Nat)
    (hr : 0 < rows) (hc : 0 < cols) (hmm : min ≤ max) (hnz : ¬ (min = 0 ∧ max = 0)) (hs0 : 0 ≤ s) (hs1 : s ≤ 1)
    (hf1 : Fair rows drawRow) (hf2 : Fair cols drawCol) :
    Res.Ok (randCsr rows cols min max s draw drawRow drawCol jv jc jo) (fun x => x.WF ∧ x.h.numRows = rows ∧ x.h.numCols = cols ∧
      x.o 0 = 0 ∧ x.o rows = roundNat (rows * cols * s) ∧ ∀ p, p < x.o rows → x.mem.vals.data p = draw p) := by
  unfold randCsr
  rw [validate_ok hr hc hmm hnz hs0 hs1]
  simp only [Res.ok_bind]
  have hn : roundNat (rows * cols * s) ≤ rows * cols := by
    have h0 : (0 : Rat) ≤ (rows : Rat) * cols := by positivity
    refine roundNat_le (mul_nonneg h0 hs0) ?_
    push_cast
    nlinarith
  generalize roundNat (rows * cols * s) = nnz at hn
  refine Res.Ok.bind (P := fun (vs : Buf V) => vs.size = nnz ∧ ∀ j, j < nnz → vs.data j = draw j) ?_ ?_
  · refine forLoop_ok (fun i (vs : Buf V) => vs.size = nnz ∧ ∀ j, j < i → vs.data j = draw j) 0 nnz _ (Nat.zero_le _) ⟨rfl, fun j h => absurd h (Nat.not_lt_zero _)⟩ ?_
    rintro i vs _ hi ⟨h1, h2⟩
    rw [Buf.write_eq (by omega)]
    refine Res.ok_iff.2 ⟨h1, fun j hj => ?_⟩
    rw [Buf.put_data]
    split
    · next e => rw [e]
    · exact h2 j (by omega)
  · rintro vs ⟨v1, v2⟩
    have hcounts : Res.Ok (rowCounts (decide (s ≤ 1 / 2)) rows cols nnz drawRow (CM.create rows cols nnz jv jc jo).mem.offs) (fun st => Counts rows cols nnz st.1) := by
      unfold rowCounts
      split
      · exact rowsUp_ok hn hf1 rfl
      · exact rowsDown_ok hn hf1 rfl
    refine hcounts.bind ?_
    rintro ⟨offs, pos⟩ ho
    simp only at ho ⊢
    refine (allCols_ok (decide (s ≤ 1 / 2)) hf2 ho (cs := (CM.create rows cols nnz jv jc jo).mem.cols) rfl).bind ?_
    rintro ⟨cs, p, pos'⟩ ⟨c1, c2⟩
    simp only at c1 c2 ⊢
    refine (offsSum_ok ho.size).bind ?_
    rintro o ⟨o1, o2⟩
    have hsum := ho.sum
    have eo : ∀ r, r ≤ rows → (⟨(CM.create rows cols nnz jv jc jo).h, ⟨vs, cs, o⟩⟩ : CM V).o r = total offs r := by
      intro r h
      rw [← o2 r h]
      unfold CM.o CM.create CHdr.new
      simp only [Nat.zero_add]
    have er : (⟨(CM.create rows cols nnz jv jc jo).h, ⟨vs, cs, o⟩⟩ : CM V).h.numRows = rows := rfl
    refine Res.ok_iff.2 ⟨⟨?_, ?_, ?_, ?_, ?_, ?_⟩, rfl, rfl, ?_, ?_, ?_⟩
    · simp only [CM.create, CHdr.new]; omega
    · intro r h
      rw [eo r (by omega), eo (r + 1) (by omega)]
      exact total_mono _ (by omega)
    · rw [er, eo rows (Nat.le_refl _)]; simp only; omega
    · rw [er, eo rows (Nat.le_refl _)]; simp only; omega
    · intro r a b h h1 h2 h3
      rw [er] at h
      rw [eo r (by omega)] at h1
      rw [eo (r + 1) (by omega)] at h3
      exact c2.sorted r a b h h1 h2 h3
    · intro r a h h1 h3
      rw [er] at h
      rw [eo r (by omega)] at h1
      rw [eo (r + 1) (by omega)] at h3
      exact c2.bound r a h h1 h3
    · rw [eo 0 (by omega)]; rfl
    · rw [eo rows (Nat.le_refl _), hsum]
    · intro p hp
      rw [eo rows (Nat.le_refl _), hsum] at hp
      exact v2 p hp

/-- C193: a random sparse matrix is a well-formed sparse matrix of the requested shape and number of stored entries; if the bounds exclude
zero, that is its number of non-zero cells. -/
theorem C193_rand_sparse (rows cols : Nat) (s : Rat) (draw : Nat → V) (drawRow drawCol : Nat → Nat) (jv : Nat → V) (jc jo : Nat → Nat)
    (hr : 0 < rows) (hc : 0 < cols) (hmm : min ≤ max) (hs0 : 0 ≤ s) (hs1 : s ≤ 1) (hnz : ¬ (min ≤ 0 ∧ 0 ≤ max))
    (hd : ∀ i, min ≤ draw i ∧ draw i ≤ max) (hf1 : Fair rows drawRow) (hf2 : Fair cols drawCol) :
    Res.Ok (randCsr rows cols min max s draw drawRow drawCol jv jc jo) (fun x => ∃ a, x.Is 0 a ∧ a.rows = rows ∧ a.cols = cols ∧ HasSparsity a s ∧
      x.h.numNonZeros x.mem = .ok (nonZeros a) ∧
      ∀ r c, r < rows → c < cols → a.cell r c = 0 ∨ (min ≤ a.cell r c ∧ a.cell r c ≤ max)) := by
  refine (randCsr_ok rows cols s draw drawRow drawCol jv jc jo hr hc hmm (fun h => hnz ⟨h.1.le, h.2.ge⟩) hs0 hs1 hf1 hf2).mono ?_
  rintro x ⟨w, e1, e2, e3, e4, e5⟩
  obtain ⟨a, ha, hcell⟩ := exists_is (0 : V) w
  have ar : a.rows = rows := by rw [← ha.rows, e1]
  have ac : a.cols = cols := by rw [← ha.cols, e2]
  have hpos : ∀ r p, r < a.rows → p < x.o (r + 1) → x.mem.vals.data p = draw p := by
    intro r p h h2
    have := w.mono' (r := r + 1) (r' := rows) (by omega) (by omega)
    exact e5 p (by omega)
  have hne : ∀ i, draw i ≠ 0 := fun i e => hnz (by have := hd i; rwa [e] at this)
  have hcount := nonZeros_eq ha (fun r p h h1 h2 => by rw [hpos r p h h2]; exact hne p)
  rw [e3, Nat.add_zero, ar, e4] at hcount
  refine ⟨a, ha, ar, ac, ?_, ?_, ?_⟩
  · unfold HasSparsity
    rw [hcount, ar, ac]
    have := roundNat_near (q := rows * cols * s) (mul_nonneg (by positivity) hs0)
    rwa [show s * ((rows : Rat) * cols) = rows * cols * s from by ring]
  · unfold CHdr.numNonZeros
    rw [w.off (Nat.le_refl _), w.off (Nat.zero_le _), e1, e3, e4, hcount]
    rfl
  · intro r c h1 h2
    rcases hcell r c (by omega) (by omega) with h | ⟨p, g1, g2, g3⟩
    · exact Or.inl h
    · right; rw [g3, hpos r p (by omega) g2]; exact hd p

/-- C195: also if the bounds include zero, the sparse matrix has the requested shape and number of stored entries, and values between the bounds. -/
theorem C195_rand_sparse_stored (rows cols : Nat) (s : Rat) (draw : Nat → V) (drawRow drawCol : Nat → Nat) (jv : Nat → V) (jc jo : Nat → Nat)
    (hr : 0 < rows) (hc : 0 < cols) (hmm : min ≤ max) (hs0 : 0 ≤ s) (hs1 : s ≤ 1) (hnz : ¬ (min = 0 ∧ max = 0))
    (hd : ∀ i, min ≤ draw i ∧ draw i ≤ max) (hf1 : Fair rows drawRow) (hf2 : Fair cols drawCol) :
    Res.Ok (randCsr rows cols min max s draw drawRow drawCol jv jc jo) (fun x => ∃ a n, x.Is 0 a ∧ a.rows = rows ∧ a.cols = cols ∧
      x.h.numNonZeros x.mem = .ok n ∧ |(n : Rat) - s * (rows * cols)| ≤ 1 / 2 ∧
      ∀ r c, r < rows → c < cols → a.cell r c = 0 ∨ (min ≤ a.cell r c ∧ a.cell r c ≤ max)) := by
  refine (randCsr_ok rows cols s draw drawRow drawCol jv jc jo hr hc hmm hnz hs0 hs1 hf1 hf2).mono ?_
  rintro x ⟨w, e1, e2, e3, e4, e5⟩
  obtain ⟨a, ha, hcell⟩ := exists_is (0 : V) w
  have ar : a.rows = rows := by rw [← ha.rows, e1]
  have ac : a.cols = cols := by rw [← ha.cols, e2]
  refine ⟨a, _, ha, ar, ac, ?_, roundNat_near (q := s * (rows * cols)) (mul_nonneg hs0 (by positivity)), ?_⟩
  · unfold CHdr.numNonZeros
    rw [w.off (Nat.le_refl _), w.off (Nat.zero_le _), e1, e3, e4, show s * ((rows : Rat) * cols) = rows * cols * s from by ring]
    rfl
  · intro r c h1 h2
    rcases hcell r c (by omega) (by omega) with h | ⟨p, g1, g2, g3⟩
    · exact Or.inl h
    · right
      have := w.mono' (r := r + 1) (r' := rows) (by omega) (by omega)
      rw [g3, e5 p (by omega)]; exact hd p

/-- C195, refuted part: zeros that are drawn are stored as entries; if only zeros are drawn, the matrix has no non-zero cell at all, whatever
sparsity was requested. -/
theorem C195_rand_sparse_zeros_partial (rows cols : Nat) (s : Rat) (drawRow drawCol : Nat → Nat) (jv : Nat → V) (jc jo : Nat → Nat)
    (hr : 0 < rows) (hc : 0 < cols) (hmm : min ≤ max) (hs0 : 0 ≤ s) (hs1 : s ≤ 1) (hnz : ¬ (min = 0 ∧ max = 0))
    (hf1 : Fair rows drawRow) (hf2 : Fair cols drawCol) :
    Res.Ok (randCsr rows cols min max s (fun _ => 0) drawRow drawCol jv jc jo) (fun x => ∃ a n, x.Is 0 a ∧ a.rows = rows ∧ a.cols = cols ∧
      x.h.numNonZeros x.mem = .ok n ∧ |(n : Rat) - s * (rows * cols)| ≤ 1 / 2 ∧ nonZeros a = 0) := by
  refine (randCsr_ok rows cols s (fun _ => (0 : V)) drawRow drawCol jv jc jo hr hc hmm hnz hs0 hs1 hf1 hf2).mono ?_
  rintro x ⟨w, e1, e2, e3, e4, e5⟩
  obtain ⟨a, ha, hcell⟩ := exists_is (0 : V) w
  have ar : a.rows = rows := by rw [← ha.rows, e1]
  have ac : a.cols = cols := by rw [← ha.cols, e2]
  refine ⟨a, _, ha, ar, ac, ?_, roundNat_near (q := s * (rows * cols)) (mul_nonneg hs0 (by positivity)), ?_⟩
  · unfold CHdr.numNonZeros
    rw [w.off (Nat.le_refl _), w.off (Nat.zero_le _), e1, e3, e4, show s * ((rows : Rat) * cols) = rows * cols * s from by ring]
    rfl
  · unfold nonZeros
    rw [Finset.card_eq_zero, Finset.filter_eq_empty_iff]
    rintro ⟨r, c⟩ h
    obtain ⟨h1, h2⟩ := Finset.mem_product.1 h
    have h1 := Finset.mem_range.1 h1
    have h2 := Finset.mem_range.1 h2
    simp only at h1 h2 ⊢
    rw [not_not]
    rcases hcell r c h1 h2 with h | ⟨p, g1, g2, g3⟩
    · exact h
    · have := w.mono' (r := r + 1) (r' := rows) (by omega) (by omega)
      rw [g3, e5 p (by omega)]

end

end Verif.Rand
