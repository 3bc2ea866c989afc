/-
  C57, C58: sparse matrices from files of coordinates. Model of ReadCsvFile.h:183-279.
  `values` are all 1 and of any value type; the priority queue is modelled by sorting (it yields its elements in ascending order).
-/
import Verif.Io.CsvProps

namespace Verif.Io
open Verif

/-- The arrays of the sparse matrix. -/
structure Coo where
  offs : Buf Nat
  cols : Buf Nat
  vals : Buf Nat

/-- `rowOffsets[i] += 1`. -/
def incr (b : Buf Nat) (i : Nat) : Res (Buf Nat) := do
  let v ← b.read i
  b.write i (v + 1)

/-- ReadCsvFile.h:208-231: `readCOOSorted`. `junk` are the contents of the fresh arrays. -/
def readCOOSorted (f : File) (numRows nnz : Nat) (delim : Char) (junk : Nat → Nat) : Res Coo := do
  let (_, m) ← forLoop 0 nnz (f, (⟨⟨numRows + 1, fun _ => 0⟩, ⟨nnz, junk⟩, ⟨nnz, junk⟩⟩ : Coo)) fun i (f, m) => do
    let f ← nextLine f
    let row ← convertAt .ui64 f 0
    let pos ← skipDelim f delim 0
    let col ← convertAt .ui64 f pos
    let offs ← incr m.offs (row.toNat + 1)
    let vals ← m.vals.write i 1
    let cols ← m.cols.write i col.toNat
    .ok (f, ⟨offs, cols, vals⟩)
  let offs ← forLoop 1 (numRows + 1) m.offs fun r b => do
    let x ← b.read r
    let y ← b.read (r - 1)
    b.write r (x + y)
  .ok ⟨offs, m.cols, m.vals⟩

/-- Order of `std::pair`. -/
def pairLe (a b : Nat × Nat) : Bool := decide (a.1 < b.1) || (decide (a.1 = b.1) && decide (a.2 ≤ b.2))

/-- ReadCsvFile.h:257-260, 267-270: `while (rowIdx < upto) rowOffsets[rowIdx++ + 1] = currValIdx`. -/
def fillRows (offs : Buf Nat) (rowIdx upto cur : Nat) : Res (Buf Nat) :=
  forLoop rowIdx upto offs fun r b => b.write (r + 1) cur

/-- ReadCsvFile.h:249-266: the loop over the positions in ascending order; state: arrays, `currValIdx`, `rowIdx`. -/
def placeAll (numRows numCols : Nat) : List (Nat × Nat) → Coo → Nat → Nat → Res (Coo × Nat × Nat)
  | [], m, cur, rowIdx => .ok (m, cur, rowIdx)
  | p :: ps, m, cur, rowIdx =>
    if p.1 ≥ numRows ∨ p.2 ≥ numCols then .error (.throw "Position is not part of matrix")
    else do
      let offs ← fillRows m.offs rowIdx p.1 cur
      let vals ← m.vals.write cur 1
      let cols ← m.cols.write cur p.2
      placeAll numRows numCols ps ⟨offs, cols, vals⟩ (cur + 1) (max rowIdx p.1)

/-- ReadCsvFile.h:199-203, 233-278: `readCOOUnsorted` on the pairs read as a dense matrix. -/
def readCOOUnsorted (f : File) (numRows numCols nnz : Nat) (delim : Char) (junkI : Nat → Int) (junk : Nat → Nat) : Res Coo := do
  let pairs ← readInts .ui64 f nnz 2 delim junkI
  let positions := ((List.range pairs.numRows).map fun r => ((pairs.get r 0).toNat, (pairs.get r 1).toNat)).mergeSort pairLe
  let offs ← (⟨numRows + 1, junk⟩ : Buf Nat).write 0 0
  let (m, cur, rowIdx) ← placeAll numRows numCols positions ⟨offs, ⟨nnz, junk⟩, ⟨nnz, junk⟩⟩ 0 0
  let offs ← fillRows m.offs rowIdx numRows cur
  .ok ⟨offs, m.cols, m.vals⟩

/-! ### Specification -/

/-- The lines of a file of coordinates. -/
def cooText (L : List (Nat × Nat)) : List Char := L.flatMap fun p => digits p.1 ++ [','] ++ digits p.2 ++ ['\n']

/-- Row `r` of the matrix: columns and values of its entries. -/
def Coo.row (m : Coo) (r : Nat) : List (Nat × Nat) :=
  (List.range (m.offs.data (r + 1) - m.offs.data r)).map fun k => (m.cols.data (m.offs.data r + k), m.vals.data (m.offs.data r + k))

/-- The matrix has exactly the given entries (with value 1), in this order within each row, and its row offsets are well-formed. -/
def Holds (m : Coo) (numRows : Nat) (L : List (Nat × Nat)) : Prop :=
  m.offs.data 0 = 0 ∧ m.offs.data numRows = L.length ∧ (∀ r, r < numRows → m.offs.data r ≤ m.offs.data (r + 1)) ∧
    ∀ r, r < numRows → m.row r = (L.filter fun p => p.1 = r).map fun p => (p.2, 1)

/-! ### Proofs -/

/-- Number of entries in the rows before `r`. -/
def below (L : List (Nat × Nat)) (r : Nat) : Nat := (L.filter fun p => decide (p.1 < r)).length

/-- Number of entries in row `r`. -/
def inRow (L : List (Nat × Nat)) (r : Nat) : Nat := (L.filter fun p => decide (p.1 = r)).length

theorem below_succ (L : List (Nat × Nat)) (r : Nat) : below L (r + 1) = below L r + inRow L r := by
  induction L with
  | nil => rfl
  | cons p L ih =>
    simp only [below, inRow, List.filter_cons] at ih ⊢
    by_cases h1 : p.1 < r
    · have : p.1 < r + 1 := by omega
      have : ¬ p.1 = r := by omega
      simp [*]; omega
    · by_cases h2 : p.1 = r
      · have : p.1 < r + 1 := by omega
        simp [*]; omega
      · have : ¬ p.1 < r + 1 := by omega
        simp [*]

theorem below_all {L : List (Nat × Nat)} {n : Nat} (h : ∀ p ∈ L, p.1 < n) : below L n = L.length := by
  unfold below
  rw [List.filter_eq_self.2 fun p hp => by simpa using h p hp]

theorem below_zero (L : List (Nat × Nat)) : below L 0 = 0 := by simp [below]

/-- Rows ascending. -/
def RowSorted (L : List (Nat × Nat)) : Prop := L.Pairwise fun a b => a.1 ≤ b.1

/-- In a list with ascending rows, the entries of row `r` are consecutive. -/
theorem rows_consecutive {L : List (Nat × Nat)} (h : RowSorted L) (r k : Nat) (hk : k < inRow L r) :
    L[below L r + k]? = (L.filter fun p => decide (p.1 = r))[k]? := by
  induction L generalizing k with
  | nil => simp [inRow] at hk
  | cons p L ih =>
    have hp := List.pairwise_cons.1 h
    by_cases h1 : p.1 < r
    · have e : ¬ p.1 = r := by omega
      have hb : below (p :: L) r = below L r + 1 := by simp [below, h1]
      have hf : (p :: L).filter (fun p => decide (p.1 = r)) = L.filter fun p => decide (p.1 = r) := by simp [e]
      rw [hb, hf, show below L r + 1 + k = (below L r + k) + 1 by omega, List.getElem?_cons_succ]
      refine ih hp.2 k ?_
      unfold inRow at hk ⊢
      rw [hf] at hk; exact hk
    · have hb0 : below L r = 0 := by
        unfold below
        rw [List.filter_eq_nil_iff.2]
        · rfl
        · intro q hq; have := hp.1 q hq; simp; omega
      have hb : below (p :: L) r = 0 := by simpa [below, h1] using hb0
      rw [hb, Nat.zero_add]
      by_cases h2 : p.1 = r
      · have hf : (p :: L).filter (fun p => decide (p.1 = r)) = p :: L.filter fun p => decide (p.1 = r) := by simp [h2]
        rw [hf]
        cases k with
        | zero => rfl
        | succ k =>
          rw [List.getElem?_cons_succ, List.getElem?_cons_succ]
          have := ih hp.2 k (by unfold inRow at hk ⊢; rw [hf] at hk; simpa using hk)
          rw [hb0, Nat.zero_add] at this
          exact this
      · exfalso
        have : inRow (p :: L) r = 0 := by
          unfold inRow
          rw [List.filter_eq_nil_iff.2]
          · rfl
          · intro q hq
            rcases List.mem_cons.1 hq with rfl | hq
            · simpa using h2
            · have := hp.1 q hq; simp; omega
        omega

/-- Assembling the specification from the arrays. -/
theorem holds_of {m : Coo} {n : Nat} {L : List (Nat × Nat)} (hs : RowSorted L) (hn : ∀ p ∈ L, p.1 < n)
    (ho : ∀ r, r ≤ n → m.offs.data r = below L r) (hc : ∀ k p, L[k]? = some p → m.cols.data k = p.2 ∧ m.vals.data k = 1) : Holds m n L := by
  refine ⟨by rw [ho 0 (by omega), below_zero], by rw [ho n (Nat.le_refl n), below_all hn], fun r hr => ?_, fun r hr => ?_⟩
  · rw [ho r (by omega), ho (r + 1) (by omega), below_succ]; omega
  · unfold Coo.row
    rw [ho r (by omega), ho (r + 1) (by omega), below_succ, Nat.add_sub_cancel_left]
    apply List.ext_getElem?
    intro k
    by_cases hk : k < inRow L r
    · have h1 := rows_consecutive hs r k hk
      obtain ⟨p, hp⟩ : ∃ p, (L.filter fun p => decide (p.1 = r))[k]? = some p := ⟨_, List.getElem?_eq_getElem (by unfold inRow at hk; exact hk)⟩
      rw [hp] at h1
      obtain ⟨c1, c2⟩ := hc _ _ h1
      rw [List.getElem?_map, List.getElem?_range hk, List.getElem?_map, hp]
      simp [c1, c2]
    · rw [List.getElem?_eq_none (by simpa using hk), List.getElem?_eq_none (by unfold inRow at hk; simpa using hk)]

theorem digits_eq_printInt (n : Nat) : digits n = printInt n := by
  unfold printInt; rw [if_neg (by omega)]; rfl

theorem digits_chars (n : Nat) : ∀ x ∈ digits n, x ≠ ',' ∧ x ≠ '\n' := by
  rw [digits_eq_printInt]; exact printInt_chars _

theorem convert_digits {n : Nat} (h : n < 2 ^ 31) {d : Char} (hd : isDigit d = false) (r : List Char) :
    IntTy.ui64.convert (digits n ++ d :: r) = n := by
  rw [digits_eq_printInt, convert_print _ (by omega) hd, cast_wrap _ (by unfold IntTy.InRange; omega) (fun _ => by omega)]

/-- Coordinates that the reader can handle: below `2^31`. -/
def Small (L : List (Nat × Nat)) : Prop := ∀ p ∈ L, p.1 < 2 ^ 31 ∧ p.2 < 2 ^ 31

theorem incr_ok {b : Buf Nat} {i : Nat} (h : i < b.size) :
    Res.Ok (incr b i) fun b' => b'.size = b.size ∧ ∀ j, b'.data j = if j = i then b.data j + 1 else b.data j := by
  unfold incr
  rw [Buf.read_eq h, Res.ok_bind, Buf.write_eq h]
  refine Res.ok_iff.2 ⟨rfl, fun j => ?_⟩
  rw [Buf.put_data]
  by_cases e : j = i
  · rw [if_pos e, if_pos e, e]
  · rw [if_neg e, if_neg e]

theorem inRow_take {L : List (Nat × Nat)} {i : Nat} {p : Nat × Nat} (h : L[i]? = some p) (r : Nat) :
    inRow (L.take (i + 1)) r = inRow (L.take i) r + if p.1 = r then 1 else 0 := by
  unfold inRow
  rw [List.take_add_one, h, List.filter_append, List.length_append]
  by_cases e : p.1 = r <;> simp [e]

/-- C57: a file whose rows ascend. -/
theorem C57_sorted {L : List (Nat × Nat)} {numRows : Nat} (hsm : Small L) (hs : RowSorted L) (hn : ∀ p ∈ L, p.1 < numRows) (junk : Nat → Nat) :
    Res.Ok (readCOOSorted (File.open (cooText L)) numRows L.length ',' junk) fun m => Holds m numRows L := by
  unfold readCOOSorted
  refine Res.Ok.bind (P := fun st => st.2.offs.size = numRows + 1 ∧ st.2.offs.data 0 = 0 ∧ (∀ r, r < numRows → st.2.offs.data (r + 1) = inRow L r) ∧
      ∀ k p, L[k]? = some p → st.2.cols.data k = p.2 ∧ st.2.vals.data k = 1) ?_ ?_
  · refine (forLoop_ok (fun i (st : File × Coo) => st.1.rest = cooText (L.drop i) ∧ st.2.offs.size = numRows + 1 ∧ st.2.cols.size = L.length ∧
      st.2.vals.size = L.length ∧ st.2.offs.data 0 = 0 ∧ (∀ r, r < numRows → st.2.offs.data (r + 1) = inRow (L.take i) r) ∧
      ∀ k p, k < i → L[k]? = some p → st.2.cols.data k = p.2 ∧ st.2.vals.data k = 1) 0 L.length _ (by omega)
      ⟨rfl, rfl, rfl, rfl, rfl, fun r _ => by simp [inRow], fun k p h => by omega⟩ ?_).mono ?_
    · rintro i ⟨f, m⟩ _ hi ⟨h1, h2, h3, h4, h5, h6, h7⟩
      simp only at h1 h2 h3 h4 h5 h6 h7 ⊢
      obtain ⟨p, hp⟩ : ∃ p, L[i]? = some p := ⟨_, List.getElem?_eq_getElem hi⟩
      have hmem := List.mem_of_getElem? hp
      have hd : L.drop i = p :: L.drop (i + 1) := by
        rw [List.drop_eq_getElem_cons hi]
        rw [List.getElem?_eq_getElem hi] at hp
        rw [Option.some.inj hp]
      have ht : cooText (L.drop i) = digits p.1 ++ ',' :: (digits p.2 ++ '\n' :: cooText (L.drop (i + 1))) := by
        rw [hd]; simp [cooText]
      rw [ht] at h1
      obtain ⟨f', e, ha⟩ := nextLine_ok h1 (by simp)
      rw [e, Res.ok_bind]
      rw [convertAt_ok ha (fun h => (digits_chars _ _ h).2 rfl) (fun r => convert_digits (hsm p hmem).1 (by decide) r), Res.ok_bind]
      obtain ⟨q, e2, hq⟩ := skipDelim_ok _ 0 ha (digits_chars _)
      rw [e2, Res.ok_bind]
      rw [convertAt_ok hq (fun h => (digits_chars _ _ h).2 rfl) (fun r => convert_digits (hsm p hmem).2 (by decide) r), Res.ok_bind]
      have hrow := hn p hmem
      refine (incr_ok (by rw [h2]; simp; omega)).bind fun offs ⟨o1, o2⟩ => ?_
      rw [Buf.write_eq (by omega), Res.ok_bind, Buf.write_eq (by omega), Res.ok_bind]
      refine Res.ok_iff.2 ⟨?_, by simp only; omega, h3, h4, ?_, fun r hr => ?_, fun k p' hk hp' => ?_⟩
      · have := At.skip (S := '\n' :: cooText (L.drop (i + 1))) _ hq (fun h => (digits_chars _ _ h).2 rfl) (by simp)
        exact this.rest.1
      · simp only; rw [o2 0, if_neg (by omega), h5]
      · simp only
        rw [o2 (r + 1), h6 r hr, inRow_take hp]
        by_cases e : p.1 = r
        · rw [if_pos (by simp [e]), if_pos e]
        · rw [if_neg (by simp; omega), if_neg e, Nat.add_zero]
      · simp only [Buf.put_data]
        by_cases e : k = i
        · subst e; rw [hp] at hp'; cases hp'; simp
        · rw [if_neg e, if_neg e]; exact h7 k p' (by omega) hp'
    · rintro ⟨f, m⟩ ⟨_, h2, _, _, h5, h6, h7⟩
      rw [List.take_length] at h6
      exact ⟨h2, h5, h6, fun k p hp => h7 k p ((List.getElem?_eq_some_iff.1 hp).1) hp⟩
  · rintro ⟨f, m⟩ ⟨h1, h2, h3, h4⟩
    simp only at h1 h2 h3 h4 ⊢
    refine Res.Ok.bind (forLoop_ok (fun r (b : Buf Nat) => b.size = numRows + 1 ∧ (∀ j, j < r → b.data j = below L j) ∧
      ∀ j, r ≤ j → j ≤ numRows → b.data j = m.offs.data j) 1 (numRows + 1) m.offs (by omega)
      ⟨h1, fun j hj => by rw [show j = 0 by omega, h2, below_zero], fun _ _ _ => rfl⟩ ?_) ?_
    · rintro r b hr1 hr2 ⟨g1, g2, g3⟩
      rw [Buf.read_eq (by omega), Res.ok_bind, Buf.read_eq (by omega), Res.ok_bind, Buf.write_eq (by omega)]
      refine Res.ok_iff.2 ⟨g1, fun j hj => ?_, fun j hj hj2 => ?_⟩
      · rw [Buf.put_data]
        by_cases e : j = r
        · subst e
          obtain ⟨s, rfl⟩ : ∃ s, j = s + 1 := ⟨j - 1, by omega⟩
          rw [if_pos rfl, g3 (s + 1) (Nat.le_refl _) (by omega), g2 (s + 1 - 1) (by omega), h3 s (by omega), Nat.add_sub_cancel, below_succ]
          omega
        · rw [if_neg e]; exact g2 j (by omega)
      · rw [Buf.put_data, if_neg (by omega)]; exact g3 j (by omega) hj2
    · intro b ⟨_, g2, _⟩
      exact Res.ok_iff.2 (holds_of hs hn (fun r hr => g2 r (by omega)) h4)

/-! #### Unsorted -/

theorem fillRows_ok {b : Buf Nat} {lo hi cur : Nat} (h : hi < b.size) :
    Res.Ok (fillRows b lo hi cur) fun b' => b'.size = b.size ∧ ∀ j, b'.data j = if lo < j ∧ j ≤ hi then cur else b.data j := by
  unfold fillRows
  by_cases hle : lo ≤ hi
  · refine forLoop_ok (fun r (b' : Buf Nat) => b'.size = b.size ∧ ∀ j, b'.data j = if lo < j ∧ j ≤ r then cur else b.data j) lo hi b hle
      ⟨rfl, fun j => by rw [if_neg (by omega)]⟩ ?_
    rintro r b' h1 h2 ⟨g1, g2⟩
    rw [Buf.write_eq (by omega)]
    refine Res.ok_iff.2 ⟨g1, fun j => ?_⟩
    rw [Buf.put_data, g2 j]
    by_cases e : j = r + 1
    · rw [if_pos e, if_pos (by omega)]
    · rw [if_neg e]
      by_cases e2 : lo < j ∧ j ≤ r
      · rw [if_pos e2, if_pos (by omega)]
      · rw [if_neg e2, if_neg (by omega)]
  · unfold forLoop
    rw [show hi - lo = 0 by omega]
    exact ⟨b, rfl, rfl, fun j => by rw [if_neg (by omega)]⟩

theorem below_append (A B : List (Nat × Nat)) (r : Nat) : below (A ++ B) r = below A r + below B r := by simp [below]

theorem placeAll_ok {numRows numCols nnz : Nat} (B : List (Nat × Nat)) : ∀ (A : List (Nat × Nat)) (m : Coo) (rowIdx : Nat), RowSorted (A ++ B) →
    (∀ p ∈ B, p.1 < numRows ∧ p.2 < numCols) → (A ++ B).length = nnz → m.offs.size = numRows + 1 → m.cols.size = nnz → m.vals.size = nnz →
    rowIdx ≤ numRows → (∀ p ∈ A, p.1 ≤ rowIdx) → (∀ p ∈ B, rowIdx ≤ p.1) → (∀ r, r ≤ rowIdx → m.offs.data r = below A r) →
    (∀ k p, A[k]? = some p → m.cols.data k = p.2 ∧ m.vals.data k = 1) →
    Res.Ok (placeAll numRows numCols B m A.length rowIdx) fun st => st.1.offs.size = numRows + 1 ∧ st.2.1 = nnz ∧ st.2.2 ≤ numRows ∧
      (∀ p ∈ A ++ B, p.1 ≤ st.2.2) ∧ (∀ r, r ≤ st.2.2 → st.1.offs.data r = below (A ++ B) r) ∧
      ∀ k p, (A ++ B)[k]? = some p → st.1.cols.data k = p.2 ∧ st.1.vals.data k = 1 := by
  induction B with
  | nil =>
    intro A m rowIdx _ _ hl h1 _ _ h2 h3 _ h4 h5
    rw [List.append_nil] at hl ⊢
    exact ⟨_, rfl, h1, hl, h2, h3, h4, h5⟩
  | cons p B ih =>
    intro A m rowIdx hs hb hl h1 h2 h3 h4 h5 h6 h7 h8
    have hp := hb p (by simp)
    have hp6 := h6 p (by simp)
    unfold placeAll
    rw [if_neg (by omega)]
    refine (fillRows_ok (by omega)).bind fun offs ⟨o1, o2⟩ => ?_
    have hlen : A.length < nnz := by rw [← hl]; simp
    rw [Buf.write_eq (by omega), Res.ok_bind, Buf.write_eq (by omega), Res.ok_bind]
    have e : A ++ p :: B = (A ++ [p]) ++ B := by simp
    rw [e] at hs hl ⊢
    have hsB : ∀ q ∈ B, p.1 ≤ q.1 := by
      have h := (List.pairwise_append.1 hs).2.2
      exact fun q hq => h p (by simp) q hq
    have hmax : max rowIdx p.1 = p.1 := by omega
    rw [hmax]
    have hres := ih (A ++ [p]) ⟨offs, m.cols.put A.length p.2, m.vals.put A.length 1⟩ p.1 hs (fun q hq => hb q (by simp [hq])) hl (by simp only; omega) h2 h3
      (by omega) (by
        intro q hq
        simp only [List.mem_append, List.mem_singleton] at hq
        rcases hq with hq | rfl
        · have := h5 q hq; omega
        · exact Nat.le_refl _) hsB (by
        intro r hr
        simp only
        have hp0 : below [p] r = 0 := by simp [below]; omega
        rw [o2 r, below_append, hp0, Nat.add_zero]
        by_cases hr2 : r ≤ rowIdx
        · rw [if_neg (by omega)]; exact h7 r hr2
        · rw [if_pos (by omega)]
          unfold below
          rw [List.filter_eq_self.2 fun q hq => by have := h5 q hq; simp; omega]) (by
        intro k q hk
        simp only [Buf.put_data]
        by_cases ek : k = A.length
        · subst ek
          rw [List.getElem?_append_right (Nat.le_refl _), Nat.sub_self] at hk
          simp at hk; subst hk
          simp
        · have hlt : k < A.length := by
            have := (List.getElem?_eq_some_iff.1 hk).1
            simp at this; omega
          rw [List.getElem?_append_left hlt] at hk
          rw [if_neg ek, if_neg ek]
          exact h8 k q hk)
    rw [List.length_append, List.length_singleton] at hres
    exact hres

theorem cooText_cons (p : Nat × Nat) (L : List (Nat × Nat)) : cooText (p :: L) = digits p.1 ++ ',' :: (digits p.2 ++ '\n' :: cooText L) := by
  simp [cooText]

theorem tableFrom_coo (L : List (Nat × Nat)) :
    cooText L = tableFrom (fun i j => if j = 0 then digits (L.getD i (0, 0)).1 else digits (L.getD i (0, 0)).2) L.length 2 0 := by
  have key : ∀ k i, i + k = L.length → cooText (L.drop i) =
      tableFrom (fun i j => if j = 0 then digits (L.getD i (0, 0)).1 else digits (L.getD i (0, 0)).2) L.length 2 i := by
    intro k
    induction k with
    | zero => intro i hi; rw [tableFrom_end (by omega), List.drop_eq_nil_of_le (by omega)]; rfl
    | succ k ih =>
      intro i hi
      rw [tableFrom_step (by omega), List.drop_eq_getElem_cons (by omega), cooText_cons, ← ih (i + 1) (by omega)]
      rw [rowFrom_step (by omega), rowFrom_step (by omega), rowFrom_end (by omega)]
      simp [List.getD_eq_getElem?_getD, List.getElem?_eq_getElem (show i < L.length by omega)]
  have := key L.length 0 (by omega)
  simpa using this

theorem pairLe_trans (a b c : Nat × Nat) : pairLe a b = true → pairLe b c = true → pairLe a c = true := by
  simp only [pairLe, Bool.or_eq_true, Bool.and_eq_true, decide_eq_true_eq]; omega

theorem pairLe_total (a b : Nat × Nat) : (pairLe a b || pairLe b a) = true := by
  simp only [pairLe, Bool.or_eq_true, Bool.and_eq_true, decide_eq_true_eq]; omega

/-- The pairs after reading the file as a matrix. -/
theorem pairs_ok {L : List (Nat × Nat)} (hsm : Small L) (hne : L ≠ []) (junkI : Nat → Int) :
    Res.Ok (readInts .ui64 (File.open (cooText L)) L.length 2 ',' junkI) fun o => o.numRows = L.length ∧
      (List.range o.numRows).map (fun r => ((o.get r 0).toNat, (o.get r 1).toNat)) = L := by
  rw [tableFrom_coo]
  have hpos : 0 < L.length := by cases L <;> simp_all
  refine (readInts_ok (want := fun r c => if c = 0 then ((L.getD r (0, 0)).1 : Int) else ((L.getD r (0, 0)).2 : Int)) hpos (by omega)
    (fun r c hr hc => ?_) junkI).mono fun o ⟨o1, o2, o3⟩ => ⟨o1, ?_⟩
  · have hm : L.getD r (0, 0) ∈ L := by
      rw [List.getD_eq_getElem?_getD, List.getElem?_eq_getElem hr]; simp
    by_cases h0 : c = 0
    · simp only [h0, if_true]
      exact ⟨digits_chars _, fun d s hd => convert_digits (hsm _ hm).1 hd s⟩
    · simp only [h0, if_false]
      exact ⟨digits_chars _, fun d s hd => convert_digits (hsm _ hm).2 hd s⟩
  · apply List.ext_getElem
    · simp [o1]
    · intro k h1 h2
      simp only [List.getElem_map, List.getElem_range]
      rw [o3 k 0 h2 (by omega), o3 k 1 h2 (by omega)]
      simp [List.getD_eq_getElem?_getD, List.getElem?_eq_getElem h2]

/-- C57: any order in the file; the result has the entries sorted. -/
theorem C57_unsorted {L : List (Nat × Nat)} {numRows numCols : Nat} (hsm : Small L) (hne : L ≠ []) (hn : ∀ p ∈ L, p.1 < numRows ∧ p.2 < numCols)
    (junkI : Nat → Int) (junk : Nat → Nat) :
    ∃ L' : List (Nat × Nat), L'.Perm L ∧ (L'.Pairwise fun a b => a.1 < b.1 ∨ a.1 = b.1 ∧ a.2 ≤ b.2) ∧
      Res.Ok (readCOOUnsorted (File.open (cooText L)) numRows numCols L.length ',' junkI junk) fun m => Holds m numRows L' := by
  have hperm : (L.mergeSort pairLe).Perm L := List.mergeSort_perm L pairLe
  have hsort : (L.mergeSort pairLe).Pairwise fun a b => a.1 < b.1 ∨ a.1 = b.1 ∧ a.2 ≤ b.2 := by
    refine (List.pairwise_mergeSort pairLe_trans pairLe_total L).imp fun {a b} h => ?_
    simpa [pairLe] using h
  refine ⟨L.mergeSort pairLe, hperm, hsort, ?_⟩
  have hrow : RowSorted (L.mergeSort pairLe) := hsort.imp fun {a b} h => by omega
  unfold readCOOUnsorted
  refine (pairs_ok hsm hne junkI).bind fun o ⟨o1, o2⟩ => ?_
  simp only
  rw [o2, Buf.write_eq (by simp), Res.ok_bind]
  refine (placeAll_ok (nnz := L.length) (L.mergeSort pairLe) [] _ 0 hrow (fun p hp => hn p (hperm.mem_iff.1 hp)) (by simp) rfl rfl rfl
    (by omega) (by simp) (by simp) (fun r hr => by rw [show r = 0 by omega]; simp [below]) (by simp)).bind ?_
  rintro ⟨m, cur, rowIdx⟩ ⟨g1, g2, g3, g4, g5, g6⟩
  simp only [List.nil_append] at g1 g2 g3 g4 g5 g6 ⊢
  refine (fillRows_ok (by omega)).bind fun offs ⟨f1, f2⟩ => Res.ok_iff.2 ?_
  refine holds_of hrow (fun p hp => (hn p (hperm.mem_iff.1 hp)).1) (fun r hr => ?_) g6
  simp only
  rw [f2 r]
  by_cases h : r ≤ rowIdx
  · rw [if_neg (by omega)]; exact g5 r h
  · rw [if_pos (by omega), g2]
    unfold below
    rw [List.filter_eq_self.2 fun p hp => by have := g4 p hp; simp; omega]
    exact hperm.length_eq.symm

theorem placeAll_throws {numRows numCols nnz : Nat} (B : List (Nat × Nat)) : ∀ (cur : Nat) (m : Coo) (rowIdx : Nat), cur + B.length = nnz →
    m.offs.size = numRows + 1 → m.cols.size = nnz → m.vals.size = nnz → (∃ p ∈ B, numRows ≤ p.1 ∨ numCols ≤ p.2) →
    (placeAll numRows numCols B m cur rowIdx) = .error (.throw "Position is not part of matrix") := by
  induction B with
  | nil => intro cur m rowIdx _ _ _ _ h; simp at h
  | cons p B ih =>
    intro cur m rowIdx hl h1 h2 h3 hbad
    unfold placeAll
    by_cases hp : p.1 ≥ numRows ∨ p.2 ≥ numCols
    · rw [if_pos hp]
    · rw [if_neg hp]
      obtain ⟨offs, e, o1, _⟩ := fillRows_ok (b := m.offs) (lo := rowIdx) (hi := p.1) (cur := cur) (by omega)
      simp only [List.length_cons] at hl
      rw [e, Res.ok_bind, Buf.write_eq (by omega), Res.ok_bind, Buf.write_eq (by omega), Res.ok_bind]
      obtain ⟨q, hq, hq2⟩ := hbad
      refine ih _ _ _ (by omega) (by simp only; omega) h2 h3 ⟨q, ?_, hq2⟩
      rcases List.mem_cons.1 hq with rfl | hq
      · omega
      · exact hq

/-- C57: a position outside of the matrix is rejected (unsorted files). -/
theorem C57_unsorted_rejects {L : List (Nat × Nat)} {numRows numCols : Nat} (hsm : Small L) (hbad : ∃ p ∈ L, numRows ≤ p.1 ∨ numCols ≤ p.2)
    (junkI : Nat → Int) (junk : Nat → Nat) :
    readCOOUnsorted (File.open (cooText L)) numRows numCols L.length ',' junkI junk = .error (.throw "Position is not part of matrix") := by
  have hne : L ≠ [] := by rintro rfl; simp at hbad
  obtain ⟨o, e, o1, o2⟩ := pairs_ok hsm hne junkI
  have hperm : (L.mergeSort pairLe).Perm L := List.mergeSort_perm L pairLe
  unfold readCOOUnsorted
  rw [e, Res.ok_bind]
  simp only
  rw [o2, Buf.write_eq (by simp), Res.ok_bind, placeAll_throws (nnz := L.length) (L.mergeSort pairLe) 0 _ 0 (by simp) rfl rfl rfl]
  · rfl
  · obtain ⟨p, hp, h⟩ := hbad
    exact ⟨p, hperm.mem_iff.2 hp, h⟩

/-- C58: in a sorted file a row outside of the matrix is not rejected: the array of row offsets is accessed out of bounds. -/
theorem C58_sorted_row_out_of_bounds_partial {p : Nat × Nat} {L : List (Nat × Nat)} {numRows : Nat} (hsm : Small (p :: L)) (hbad : numRows ≤ p.1)
    (junk : Nat → Nat) :
    readCOOSorted (File.open (cooText (p :: L))) numRows (p :: L).length ',' junk = .error (.ub "out-of-bounds read") := by
  have ht : (File.open (cooText (p :: L))).rest = digits p.1 ++ ',' :: (digits p.2 ++ '\n' :: cooText L) := by simp [cooText, File.open]
  obtain ⟨f', e, ha⟩ := nextLine_ok ht (by simp)
  obtain ⟨q, e2, hq⟩ := skipDelim_ok _ 0 ha (digits_chars _)
  unfold readCOOSorted forLoop
  rw [List.length_cons, Nat.sub_zero]
  unfold forFrom
  simp only
  rw [e, Res.ok_bind, convertAt_ok ha (fun h => (digits_chars _ _ h).2 rfl) (fun r => convert_digits (hsm p (by simp)).1 (by decide) r), Res.ok_bind,
    e2, Res.ok_bind, convertAt_ok hq (fun h => (digits_chars _ _ h).2 rfl) (fun r => convert_digits (hsm p (by simp)).2 (by decide) r), Res.ok_bind]
  unfold incr Buf.read
  rw [if_neg (by simp; omega)]
  rfl

/-! ### Non-vacuity -/

example : Small [(0, 3), (0, 1), (2, 0)] ∧ RowSorted [(0, 3), (0, 1), (2, 0)] ∧ ∀ p ∈ [((0 : Nat), (3 : Nat)), (0, 1), (2, 0)], p.1 < 4 := by
  refine ⟨by unfold Small; decide, by unfold RowSorted; decide, by decide⟩

end Verif.Io
