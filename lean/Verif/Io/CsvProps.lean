/- C35, C55, C56: reading back CSV files. -/
import Verif.Io.CsvScan

namespace Verif.Io
open Verif

/-- The text of the cells of a row from column `c` on, with separators. -/
def rowFrom (text : Nat → List Char) (n c : Nat) : List Char :=
  (List.range' c (n - c)).flatMap fun j => text j ++ [if j < n - 1 then ',' else '\n']

/-- The text of the rows from row `i` on. -/
def tableFrom (text : Nat → Nat → List Char) (m n i : Nat) : List Char := (List.range' i (m - i)).flatMap fun i => rowFrom (text i) n 0

theorem rowFrom_step {text : Nat → List Char} {n c : Nat} (h : c < n) :
    rowFrom text n c = text c ++ (if c < n - 1 then ',' else '\n') :: rowFrom text n (c + 1) := by
  unfold rowFrom
  rw [show n - c = (n - (c + 1)) + 1 by omega, List.range'_succ]
  simp

theorem rowFrom_end {text : Nat → List Char} {n c : Nat} (h : n ≤ c) : rowFrom text n c = [] := by
  unfold rowFrom
  rw [show n - c = 0 by omega]; rfl

theorem tableFrom_step {text : Nat → Nat → List Char} {m n i : Nat} (h : i < m) :
    tableFrom text m n i = rowFrom (text i) n 0 ++ tableFrom text m n (i + 1) := by
  unfold tableFrom
  rw [show m - i = (m - (i + 1)) + 1 by omega, List.range'_succ]
  simp

theorem tableFrom_end {text : Nat → Nat → List Char} {m n i : Nat} (h : m ≤ i) : tableFrom text m n i = [] := by
  unfold tableFrom
  rw [show m - i = 0 by omega]; rfl

theorem newline_mem_row {text : Nat → List Char} {n c : Nat} (h : c < n) : '\n' ∈ rowFrom text n c := by
  induction hk : n - c generalizing c with
  | zero => omega
  | succ k ih =>
    rw [rowFrom_step h]
    by_cases hc : c < n - 1
    · have := ih (c := c + 1) (by omega) (by omega)
      simp [this]
    · simp [hc]

theorem writeTable_ok {m n : Nat} {cell : Nat → Nat → Res (List Char)} {text : Nat → Nat → List Char}
    (h : ∀ i j, i < m → j < n → cell i j = .ok (text i j)) : writeTable m n cell = .ok (tableFrom text m n 0) := by
  suffices hh : Res.Ok (writeTable m n cell) fun out => out ++ tableFrom text m n m = tableFrom text m n 0 by
    obtain ⟨o, e, h1⟩ := hh
    rw [tableFrom_end (Nat.le_refl m), List.append_nil] at h1
    rw [e, h1]
  unfold writeTable
  refine forLoop_ok (fun i out => out ++ tableFrom text m n i = tableFrom text m n 0) 0 m [] (by omega) rfl fun i out _ hi ho => ?_
  refine (forLoop_ok (fun j o => o ++ rowFrom (text i) n j = out ++ rowFrom (text i) n 0) 0 n out (by omega) rfl fun j o _ hj hoj => ?_).mono
    fun o ho2 => ?_
  · rw [h i j hi hj, Res.ok_bind]
    refine Res.ok_iff.2 ?_
    rw [rowFrom_step hj] at hoj
    rw [← hoj]
    split <;> simp
  · rw [rowFrom_end (Nat.le_refl n), List.append_nil] at ho2
    rw [ho2, List.append_assoc, ← tableFrom_step hi, ho]

variable {f : File} {pos : Nat} {S : List Char} {c : Char}

theorem At.skip (s : List Char) : ∀ {pos}, At f pos (s ++ S) → '\n' ∉ s → S ≠ [] → At f (pos + s.length) S := by
  induction s with
  | nil => intro pos h _ _; simpa using h
  | cons a s ih =>
    intro pos h hn hS
    have h : At f pos (a :: (s ++ S)) := h
    simp only [List.mem_cons, not_or] at hn
    have := ih (h.next (Ne.symm hn.1)) hn.2 hS
    rw [show pos + (a :: s).length = pos + 1 + s.length by simp; omega]
    exact this

theorem printInt_chars (v : Int) : ∀ x ∈ printInt v, x ≠ ',' ∧ x ≠ '\n' := by
  have hd : ∀ x, isDigit x = true → x ≠ ',' ∧ x ≠ '\n' := by
    intro x h; refine ⟨?_, ?_⟩ <;> (rintro rfl; revert h; decide)
  intro x hx
  unfold printInt at hx
  split at hx
  · simp only [List.mem_cons] at hx
    rcases hx with rfl | hx
    · decide
    · exact hd x (digits_all _ x hx)
  · exact hd x (digits_all _ x hx)

theorem printDense_chars (t : IntTy) (v : Int) : ∀ x ∈ t.printDense v, x ≠ ',' ∧ x ≠ '\n' := by
  cases t <;> exact printInt_chars _

/-- Reading one row of integers. -/
theorem intsRow_ok {t : IntTy} {n r : Nat} {text : Nat → List Char} {want : Nat → Int} {T : List Char} {vals0 : Buf Int}
    (htext : ∀ c, c < n → (∀ x ∈ text c, x ≠ ',' ∧ x ≠ '\n') ∧ ∀ d r, isDigit d = false → t.convert (text c ++ d :: r) = want c)
    (hsize : r * n + n ≤ vals0.size) (hn : 0 < n) (h0 : At f 0 (rowFrom text n 0 ++ T)) :
    Res.Ok (forLoop 0 n (0, r * n, vals0) fun c (pos, cell, vals) => do
        let v ← convertAt t f pos
        let vals ← vals.write cell v
        let pos ← advance f ',' pos (decide (c < n - 1))
        .ok (pos, cell + 1, vals)) fun st =>
      f.rest = T ∧ st.2.1 = r * n + n ∧ st.2.2.size = vals0.size ∧ (∀ k, k < r * n → st.2.2.data k = vals0.data k) ∧
        ∀ c, c < n → st.2.2.data (r * n + c) = want c := by
  refine (forLoop_ok (fun c (st : Nat × Nat × Buf Int) => (c < n → At f st.1 (rowFrom text n c ++ T)) ∧ (c = n → f.rest = T) ∧ st.2.1 = r * n + c ∧
    st.2.2.size = vals0.size ∧ (∀ k, k < r * n → st.2.2.data k = vals0.data k) ∧ ∀ c', c' < c → st.2.2.data (r * n + c') = want c')
    0 n _ (by omega) ⟨fun _ => h0, fun h => by omega, rfl, rfl, fun _ _ => rfl, fun c h => by omega⟩ ?_).mono
    fun st h => ⟨h.2.1 rfl, h.2.2.1, h.2.2.2.1, h.2.2.2.2.1, h.2.2.2.2.2⟩
  rintro c ⟨pos, cell, vals⟩ _ hc ⟨ha, _, hcell, hsz, hold, hnew⟩
  simp only at ha hcell hsz hold hnew ⊢
  have hat := ha hc
  rw [rowFrom_step hc, List.append_assoc, List.cons_append] at hat
  obtain ⟨hch, hval⟩ := htext c hc
  have hsep : isDigit (if c < n - 1 then ',' else '\n') = false := by split <;> decide
  have hconv : convertAt t f pos = .ok (want c) := by
    unfold convertAt
    rw [if_pos (by have := hat.lt; omega)]
    have hd : ∃ r, f.line.drop pos = text c ++ (if c < n - 1 then ',' else '\n') :: r := by
      have hsk := At.skip (S := (if c < n - 1 then ',' else '\n') :: (rowFrom text n (c + 1) ++ T)) (text c) hat (fun h => (hch _ h).2 rfl) (by simp)
      have hl := hsk.lt
      refine ⟨f.line.drop (pos + (text c).length + 1), ?_⟩
      have h1 : (f.line.drop pos).take (text c).length = text c := by
        have := congrArg (List.take (text c).length) hat.text
        rw [List.take_append_of_le_length (by rw [List.length_drop]; omega), List.take_left'] at this
        · exact this
        · rfl
      have h2 : f.line.drop (pos + (text c).length) = (if c < n - 1 then ',' else '\n') :: f.line.drop (pos + (text c).length + 1) := by
        rw [List.drop_eq_getElem_cons hl]
        have := hsk.char
        rw [List.getElem?_eq_getElem hl] at this
        rw [Option.some.inj this]
      rw [← h2, ← List.drop_drop]
      conv => lhs; rw [← List.take_append_drop (text c).length (f.line.drop pos), h1]
    obtain ⟨r', hr'⟩ := hd
    rw [hr', hval _ _ hsep]
  rw [hconv, Res.ok_bind]
  refine (Buf.write_iff.2 ⟨by omega, rfl⟩ : Res.Ok _ fun b => b = vals.put cell (want c)).bind fun b hb => ?_
  subst hb
  have hput : ∀ c', c' < c + 1 → (vals.put cell (want c)).data (r * n + c') = want c' := by
    intro c' hc'
    rw [Buf.put_data]
    by_cases e : c' = c
    · subst e; rw [if_pos (by omega)]
    · rw [if_neg (by omega)]; exact hnew c' (by omega)
  have hold' : ∀ k, k < r * n → (vals.put cell (want c)).data k = vals0.data k := by
    intro k hk; rw [Buf.put_data, if_neg (by omega)]; exact hold k hk
  unfold advance
  by_cases hm : c < n - 1
  · rw [if_pos (by simpa using hm)]
    rw [if_pos hm] at hat
    obtain ⟨p', e, hp⟩ := skipDelim_ok (text c) pos hat hch
    rw [e, Res.ok_bind]
    exact Res.ok_iff.2 ⟨fun _ => hp, fun h => by omega, by simp only; omega, hsz, hold', hput⟩
  · rw [if_neg (by simpa using hm), Res.ok_bind]
    rw [if_neg hm, rowFrom_end (show n ≤ c + 1 by omega), List.nil_append] at hat
    have hsk := At.skip (S := '\n' :: T) (text c) hat (fun h => (hch _ h).2 rfl) (by simp)
    exact Res.ok_iff.2 ⟨fun h => by omega, fun _ => hsk.rest.1, by simp only; omega, hsz, hold', hput⟩

theorem nextLine_ok {f : File} {S : List Char} (h : f.rest = S) (hn : '\n' ∈ S) : ∃ f', nextLine f = .ok f' ∧ At f' 0 S := by
  subst h
  obtain ⟨f', e, ha⟩ := getLine_ok hn
  exact ⟨f', by unfold nextLine; rw [e], ha⟩

/-- Value in row `r`, column `c`. -/
def Mat.get {α : Type} (m : Mat α) (r c : Nat) : α := m.vals.data (r * m.rowSkip + c)

/-- All cells are allocated. -/
def Mat.Valid {α : Type} (m : Mat α) : Prop := ∀ r c, r < m.numRows → c < m.numCols → r * m.rowSkip + c < m.vals.size

theorem readInts_ok {t : IntTy} {m n : Nat} {text : Nat → Nat → List Char} {want : Nat → Nat → Int} (hm : 0 < m) (hn : 0 < n)
    (htext : ∀ r c, r < m → c < n → (∀ x ∈ text r c, x ≠ ',' ∧ x ≠ '\n') ∧ ∀ d s, isDigit d = false → t.convert (text r c ++ d :: s) = want r c)
    (junk : Nat → Int) :
    Res.Ok (readInts t (File.open (tableFrom text m n 0)) m n ',' junk) fun o => o.numRows = m ∧ o.numCols = n ∧
      ∀ r c, r < m → c < n → o.get r c = want r c := by
  unfold readInts
  rw [if_neg (by omega), if_neg (by omega)]
  refine Res.Ok.bind (forLoop_ok (fun r (st : File × Nat × Buf Int) => st.1.rest = tableFrom text m n r ∧ st.2.1 = r * n ∧ st.2.2.size = m * n ∧
    ∀ r' c, r' < r → c < n → st.2.2.data (r' * n + c) = want r' c) 0 m _ (by omega) ⟨rfl, by simp, rfl, fun r' c h => by omega⟩ ?_) ?_
  · rintro r ⟨f, cell, vals⟩ _ hr ⟨h1, h2, h3, h4⟩
    simp only at h1 h2 h3 h4 ⊢
    rw [tableFrom_step hr] at h1
    obtain ⟨f', e, ha⟩ := nextLine_ok h1 (by simp [newline_mem_row hn])
    rw [e, Res.ok_bind]
    subst h2
    have hsz : r * n + n ≤ vals.size := by
      rw [h3]
      have := Nat.mul_le_mul_right n (show r + 1 ≤ m by omega)
      rw [Nat.add_mul, Nat.one_mul] at this
      exact this
    refine (intsRow_ok (fun c hc => htext r c hr hc) hsz hn ha).bind ?_
    rintro ⟨p, cell', vals'⟩ ⟨g1, g2, g3, g4, g5⟩
    simp only at g1 g2 g3 g4 g5 ⊢
    refine Res.ok_iff.2 ⟨g1, by simp only [g2, Nat.add_mul, Nat.one_mul], by simp only [g3, h3], fun r' c hr' hc => ?_⟩
    simp only
    by_cases er : r' = r
    · subst er; exact g5 c hc
    · rw [g4 (r' * n + c) (rm_lt (by omega) hc (Nat.le_refl n))]
      exact h4 r' c (by omega) hc
  · rintro ⟨f, cell, vals⟩ ⟨_, _, _, h4⟩
    exact Res.ok_iff.2 ⟨rfl, rfl, fun r c hr hc => h4 r c hr hc⟩

/-- What is read back from an integer matrix, for all values of the type: the value modulo `2^32`, converted to the type. -/
theorem C55_ints_modulo (t : IntTy) (m : Mat Int) (hm : 0 < m.numRows) (hn : 0 < m.numCols) (hv : m.Valid)
    (hr : ∀ r c, r < m.numRows → c < m.numCols → t.InRange (m.get r c)) :
    ∃ text, writeInts t m = .ok text ∧ ∀ junk, ∃ o, readInts t (File.open text) m.numRows m.numCols ',' junk = .ok o ∧
      o.numRows = m.numRows ∧ o.numCols = m.numCols ∧ ∀ r c, r < m.numRows → c < m.numCols → o.get r c = t.cast (wrapS 32 (m.get r c)) := by
  refine ⟨tableFrom (fun r c => t.printDense (m.get r c)) m.numRows m.numCols 0, writeTable_ok fun i j hi hj => ?_, fun junk => ?_⟩
  · rw [Buf.read_eq (hv i j hi hj)]; rfl
  · exact readInts_ok hm hn (fun r c h1 h2 => ⟨printDense_chars t _, fun d s hd => convert_printDense t (hr r c h1 h2) hd s⟩) junk

/-- Integer matrices: all values of 8- and 32-bit types, and those values of 64-bit types that fit into an `int`. -/
theorem C35_ints (t : IntTy) (m : Mat Int) (hm : 0 < m.numRows) (hn : 0 < m.numCols) (hv : m.Valid)
    (hr : ∀ r c, r < m.numRows → c < m.numCols → t.InRange (m.get r c))
    (h64 : t = .si64 ∨ t = .ui64 → ∀ r c, r < m.numRows → c < m.numCols → -2 ^ 31 ≤ m.get r c ∧ m.get r c < 2 ^ 31) :
    ∃ text, writeInts t m = .ok text ∧ ∀ junk, ∃ o, readInts t (File.open text) m.numRows m.numCols ',' junk = .ok o ∧
      o.numRows = m.numRows ∧ o.numCols = m.numCols ∧ ∀ r c, r < m.numRows → c < m.numCols → o.get r c = m.get r c := by
  obtain ⟨text, e, h⟩ := C55_ints_modulo t m hm hn hv hr
  refine ⟨text, e, fun junk => ?_⟩
  obtain ⟨o, e1, e2, e3, e4⟩ := h junk
  exact ⟨o, e1, e2, e3, fun r c h1 h2 => by rw [e4 r c h1 h2, cast_wrap t (hr r c h1 h2) fun h => h64 h r c h1 h2]⟩

/-! ### Strings -/

theorem readStrs_ok {m n : Nat} {want : Nat → Nat → List Char} (hm : 0 < m) (hn : 0 < n)
    (hs : ∀ r c, r < m → c < n → Admissible (want r c)) :
    Res.Ok (readStrs (File.open (tableFrom (fun r c => quoteStrCsvIf (want r c)) m n 0)) m n ',') fun o => o.numRows = m ∧ o.numCols = n ∧
      ∀ r c, r < m → c < n → o.get r c = want r c := by
  unfold readStrs
  rw [if_neg (by omega), if_neg (by omega)]
  generalize htext : (fun r c => quoteStrCsvIf (want r c)) = text
  refine Res.Ok.bind (forLoop_ok (fun r (st : File × Nat × Buf (List Char)) => st.1.rest = tableFrom text m n r ∧ st.2.1 = r * n ∧ st.2.2.size = m * n ∧
    ∀ r' c, r' < r → c < n → st.2.2.data (r' * n + c) = want r' c) 0 m _ (by omega) ⟨rfl, by simp, rfl, fun r' c h => by omega⟩ ?_) ?_
  · rintro r ⟨f, cell, vals0⟩ _ hr ⟨h1, h2, h3, h4⟩
    simp only at h1 h2 h3 h4 ⊢
    rw [tableFrom_step hr] at h1
    obtain ⟨f', e, ha⟩ := nextLine_ok h1 (by simp [newline_mem_row hn])
    rw [e, Res.ok_bind]
    subst h2
    have hsz : r * n + n ≤ m * n := by
      have := Nat.mul_le_mul_right n (show r + 1 ≤ m by omega)
      rw [Nat.add_mul, Nat.one_mul] at this
      exact this
    refine Res.Ok.bind (forLoop_ok (fun c (st : File × Nat × Nat × Buf (List Char)) =>
      (c < n → At st.1 st.2.1 (rowFrom (text r) n c ++ tableFrom text m n (r + 1))) ∧ (c = n → st.1.rest = tableFrom text m n (r + 1)) ∧
      st.2.2.1 = r * n + c ∧ st.2.2.2.size = m * n ∧ (∀ k, k < r * n → st.2.2.2.data k = vals0.data k) ∧
      ∀ c', c' < c → st.2.2.2.data (r * n + c') = want r c') 0 n _ (by omega)
      ⟨fun _ => ha, fun h => by omega, rfl, h3, fun _ _ => rfl, fun c h => by omega⟩ ?_) ?_
    · rintro c ⟨f, pos, cell, vals⟩ _ hc ⟨ha, _, hcell, hz, hold, hnew⟩
      simp only at ha hcell hz hold hnew ⊢
      have hat := ha hc
      rw [rowFrom_step hc, List.append_assoc, List.cons_append, ← htext] at hat
      obtain ⟨f1, p1, e1, hp⟩ := setCString_ok (hs r c hr hc) hat (by split <;> simp) (by
        by_cases hcc : c < n - 1
        · rw [if_pos hcc]
          have := newline_mem_row (text := fun c => quoteStrCsvIf (want r c)) (n := n) (c := c + 1) (by omega)
          simp [this]
        · rw [if_neg hcc]; simp)
      rw [e1, Res.ok_bind]
      simp only
      refine (Buf.write_iff.2 ⟨by omega, rfl⟩ : Res.Ok _ fun b => b = vals.put cell (want r c)).bind fun b hb => ?_
      subst hb
      refine Res.ok_iff.2 ⟨fun h => ?_, fun h => ?_, by simp only; omega, hz, fun k hk => ?_, fun c' hc' => ?_⟩
      · simp only at h ⊢
        rw [if_pos (show c < n - 1 by omega)] at hp
        rw [← htext]
        exact hp.next (by decide)
      · simp only at h ⊢
        rw [if_neg (show ¬ c < n - 1 by omega), rowFrom_end (show n ≤ c + 1 by omega), List.nil_append] at hp
        rw [← htext]
        exact hp.rest.1
      · simp only; rw [Buf.put_data, if_neg (by omega)]; exact hold k hk
      · simp only
        rw [Buf.put_data]
        by_cases e : c' = c
        · subst e; rw [if_pos (by omega)]
        · rw [if_neg (by omega)]; exact hnew c' (by omega)
    · rintro ⟨f, p, cell, vals⟩ ⟨_, g1, g2, g3, g4, g5⟩
      simp only at g1 g2 g3 g4 g5 ⊢
      refine Res.ok_iff.2 ⟨g1 trivial, by simp only [g2, Nat.add_mul, Nat.one_mul], g3, fun r' c hr' hc => ?_⟩
      simp only
      by_cases er : r' = r
      · subst er; exact g5 c hc
      · rw [g4 (r' * n + c) (rm_lt (by omega) hc (Nat.le_refl n))]
        exact h4 r' c (by omega) hc
  · rintro ⟨f, cell, vals⟩ ⟨_, _, _, h4⟩
    exact Res.ok_iff.2 ⟨rfl, rfl, fun r c hr hc => h4 r c hr hc⟩

/-- String matrices with arbitrary admissible contents: separators, quotes and newlines included. -/
theorem C35_strings (m : Mat (List Char)) (hm : 0 < m.numRows) (hn : 0 < m.numCols) (hv : m.Valid)
    (hs : ∀ r c, r < m.numRows → c < m.numCols → Admissible (m.get r c)) :
    ∃ text, writeStrs m = .ok text ∧ ∃ o, readStrs (File.open text) m.numRows m.numCols ',' = .ok o ∧
      o.numRows = m.numRows ∧ o.numCols = m.numCols ∧ ∀ r c, r < m.numRows → c < m.numCols → o.get r c = m.get r c := by
  refine ⟨tableFrom (fun r c => quoteStrCsvIf (m.get r c)) m.numRows m.numCols 0, writeTable_ok fun i j hi hj => ?_, ?_⟩
  · rw [Buf.read_eq (hv i j hi hj), Res.ok_bind, show m.vals.data (i * m.rowSkip + j) = m.get i j from rfl, printStr_quote (hs i j hi hj)]
  · exact readStrs_ok hm hn hs

/-! ### Frames -/

/-- Values that survive in a frame column of the given type. -/
def CellOk : ColTy → Val → Prop
  | .int t, .int v => t.InRange v ∧ (t = .si64 ∨ t = .ui64 → -2 ^ 31 ≤ v ∧ v < 2 ^ 31)
  | .str, .str s => Admissible s
  | _, _ => False

theorem inRange64 {t : IntTy} {v : Int} (h : t.InRange v) (h64 : t = .si64 ∨ t = .ui64 → -2 ^ 31 ≤ v ∧ v < 2 ^ 31) : -2 ^ 63 ≤ v ∧ v < 2 ^ 63 := by
  cases t <;> simp only [IntTy.InRange] at h <;> simp at h64 <;> omega

/-- The digits at a position are converted, the line may go on. -/
theorem convertAt_ok {t : IntTy} {s : List Char} {T : List Char} {v : Int} (hat : At f pos (s ++ c :: T)) (hch : '\n' ∉ s)
    (hval : ∀ r, t.convert (s ++ c :: r) = v) : convertAt t f pos = .ok v := by
  unfold convertAt
  rw [if_pos (by have := hat.lt; omega)]
  have hsk := At.skip (S := c :: T) s hat hch (by simp)
  have hl := hsk.lt
  have h1 : (f.line.drop pos).take s.length = s := by
    have := congrArg (List.take s.length) hat.text
    rw [List.take_append_of_le_length (by rw [List.length_drop]; omega), List.take_left' rfl] at this
    exact this
  have h2 : f.line.drop (pos + s.length) = c :: f.line.drop (pos + s.length + 1) := by
    rw [List.drop_eq_getElem_cons hl]
    have := hsk.char
    rw [List.getElem?_eq_getElem hl] at this
    rw [Option.some.inj this]
  have h3 : f.line.drop pos = s ++ c :: f.line.drop (pos + s.length + 1) := by
    rw [← h2, ← List.drop_drop]
    conv => lhs; rw [← List.take_append_drop s.length (f.line.drop pos), h1]
  rw [h3, hval]

/-- One value is read back; the reader is then somewhere in the cell before the separator. -/
theorem readVal_ok {ty : ColTy} {v : Val} {T : List Char} (hok : CellOk ty v) (hc : c = ',' ∨ c = '\n') (hS : '\n' ∈ c :: T)
    (hat : At f pos (printVal v ++ c :: T)) :
    ∃ f' pos' s, readVal f ty ',' pos = .ok (f', pos', v) ∧ At f' pos' (s ++ c :: T) ∧ ∀ x ∈ s, x ≠ ',' ∧ x ≠ '\n' := by
  cases ty with
  | int t =>
    cases v with
    | str s => exact absurd hok (by simp [CellOk])
    | int v =>
      have hch := printInt_chars v
      refine ⟨f, pos, printInt v, ?_, hat, hch⟩
      simp only [readVal]
      have hd : isDigit c = false := by rcases hc with rfl | rfl <;> decide
      rw [convertAt_ok hat (fun h => (hch _ h).2 rfl) fun r => convert_print t (inRange64 hok.1 hok.2) hd r, Res.ok_bind,
        cast_wrap t hok.1 hok.2]
  | str =>
    cases v with
    | int v => exact absurd hok (by simp [CellOk])
    | str s =>
      have hok : Admissible s := hok
      have hat : At f pos (printStr (quoteStrCsvIf s) ++ c :: T) := hat
      rw [printStr_quote hok] at hat
      obtain ⟨f', p', e, hp⟩ := setCString_ok hok hat hc hS
      refine ⟨f', p', [], ?_, hp, by simp⟩
      unfold readVal
      rw [e, Res.ok_bind]

theorem readFrameRow_ok {types : Nat → ColTy} {n row rows : Nat} {want : Nat → Val} {T : List Char} (hrow : row < rows)
    (hok : ∀ c, c < n → CellOk (types c) (want c)) (k : Nat) : ∀ (col : Nat) (f : File) (pos : Nat) (cols : Nat → Buf Val), col + k = n → 0 < k →
    (∀ j, j < n → (cols j).size = rows) → At f pos (rowFrom (fun j => printVal (want j)) n col ++ T) →
    ∃ f' cols', readFrameRow types ',' row k col f pos cols = .ok (f', cols') ∧ f'.rest = T ∧ (∀ j, j < n → (cols' j).size = rows) ∧
      ∀ j i, (cols' j).data i = if i = row ∧ col ≤ j ∧ j < n then want j else (cols j).data i := by
  induction k with
  | zero => intro col f pos cols _ h; omega
  | succ k ih =>
    intro col f pos cols hk _ hsz hat
    have hcn : col < n := by omega
    rw [rowFrom_step hcn, List.append_assoc, List.cons_append] at hat
    obtain ⟨f1, p1, s, e1, hp, hsc⟩ := readVal_ok (hok col hcn) (by split <;> simp) (by
        by_cases hcc : col < n - 1
        · rw [if_pos hcc]
          have := newline_mem_row (text := fun j => printVal (want j)) (n := n) (c := col + 1) (by omega)
          simp [this]
        · rw [if_neg hcc]; simp) hat
    unfold readFrameRow
    rw [e1, Res.ok_bind]
    simp only
    rw [Buf.write_eq (by rw [hsz col hcn]; exact hrow), Res.ok_bind]
    have hsz' : ∀ j, j < n → ((fun j => if j = col then (cols col).put row (want col) else cols j : Nat → Buf Val) j).size = rows := by
      intro j hj
      simp only
      split
      · rw [Buf.put_size]; exact hsz col hcn
      · exact hsz j hj
    unfold advance
    cases k with
    | zero =>
      rw [if_neg (by simp), Res.ok_bind]
      rw [if_neg (show ¬ col < n - 1 by omega), rowFrom_end (show n ≤ col + 1 by omega), List.nil_append] at hp
      have hr := (At.skip (S := '\n' :: T) s hp (fun h => (hsc _ h).2 rfl) (by simp)).rest.1
      refine ⟨f1, _, rfl, hr, hsz', fun j i => ?_⟩
      by_cases hj : j = col
      · subst hj
        rw [if_pos rfl, Buf.put_data]
        by_cases hi : i = row
        · rw [if_pos hi, if_pos ⟨hi, by omega, hcn⟩]
        · rw [if_neg hi, if_neg (by omega)]
      · rw [if_neg hj, if_neg (by omega)]
    | succ k =>
      rw [if_pos (by simp)]
      rw [if_pos (show col < n - 1 by omega)] at hp
      obtain ⟨p2, e2, hp2⟩ := skipDelim_ok s p1 hp hsc
      rw [e2, Res.ok_bind]
      obtain ⟨f', cols', e3, g1, g2, g3⟩ := ih (col + 1) f1 p2 _ (by omega) (by omega) hsz' hp2
      refine ⟨f', cols', e3, g1, g2, fun j i => ?_⟩
      rw [g3 j i]
      by_cases hj : j = col
      · subst hj
        rw [if_neg (by omega)]
        simp only [if_true]
        rw [Buf.put_data]
        by_cases hi : i = row
        · rw [if_pos hi, if_pos ⟨hi, by omega, hcn⟩]
        · rw [if_neg hi, if_neg (by omega)]
      · simp only [if_neg hj]
        by_cases hc : i = row ∧ col + 1 ≤ j ∧ j < n
        · rw [if_pos hc, if_pos (by omega)]
        · rw [if_neg hc, if_neg (by omega)]

theorem readFrameRows_ok {types : Nat → ColTy} {m n : Nat} {want : Nat → Nat → Val} (hn : 0 < n)
    (hok : ∀ r c, r < m → c < n → CellOk (types c) (want r c)) (k : Nat) : ∀ (row : Nat) (f : File) (cols : Nat → Buf Val), row + k = m →
    (∀ j, j < n → (cols j).size = m) → f.rest = tableFrom (fun r c => printVal (want r c)) m n row →
    ∃ cols', readFrameRows types n ',' k row f cols = .ok cols' ∧
      ∀ j i, j < n → i < m → (cols' j).data i = if row ≤ i then want i j else (cols j).data i := by
  induction k with
  | zero =>
    intro row f cols hk hsz _
    exact ⟨cols, rfl, fun j i _ hi => by rw [if_neg (by omega)]⟩
  | succ k ih =>
    intro row f cols hk hsz hf
    have hrow : row < m := by omega
    rw [tableFrom_step hrow] at hf
    obtain ⟨f1, e1, ha⟩ := getLine_ok (f := f) (by rw [hf]; simp [newline_mem_row hn])
    rw [hf] at ha
    unfold readFrameRows
    rw [e1]
    simp only
    obtain ⟨f2, cols2, e2, g1, g2, g3⟩ := readFrameRow_ok (want := want row) hrow (fun c hc => hok row c hrow hc) n 0 f1 0 cols (by omega) hn hsz ha
    rw [e2, Res.ok_bind]
    simp only
    obtain ⟨cols3, e3, h3⟩ := ih (row + 1) f2 cols2 (by omega) g2 g1
    refine ⟨cols3, e3, fun j i hj hi => ?_⟩
    rw [h3 j i hj hi]
    by_cases h1 : row + 1 ≤ i
    · rw [if_pos h1, if_pos (by omega)]
    · rw [if_neg h1, g3 j i]
      by_cases h2 : i = row
      · rw [if_pos ⟨h2, by omega, hj⟩, if_pos (by omega), h2]
      · rw [if_neg (by omega), if_neg (by omega)]

/-- Frames with any mix of integer and string columns. -/
theorem C35_frame (fr : Frame) (hm : 0 < fr.numRows) (hn : 0 < fr.numCols) (hv : ∀ j, j < fr.numCols → fr.numRows ≤ (fr.cols j).size)
    (hok : ∀ r c, r < fr.numRows → c < fr.numCols → CellOk (fr.types c) ((fr.cols c).data r)) :
    ∃ text, writeFrame fr = .ok text ∧ ∀ junk, ∃ o, readFrame (File.open text) fr.numRows fr.numCols fr.types ',' junk = .ok o ∧
      o.numRows = fr.numRows ∧ o.numCols = fr.numCols ∧ ∀ r c, r < fr.numRows → c < fr.numCols → (o.cols c).data r = (fr.cols c).data r := by
  refine ⟨tableFrom (fun r c => printVal ((fr.cols c).data r)) fr.numRows fr.numCols 0, writeTable_ok fun i j hi hj => ?_, fun junk => ?_⟩
  · rw [Buf.read_eq (by have := hv j hj; omega)]; rfl
  · unfold readFrame
    rw [if_neg (by omega), if_neg (by omega)]
    obtain ⟨cols, e, h⟩ := readFrameRows_ok (want := fun r c => (fr.cols c).data r) hn hok fr.numRows 0
      (File.open (tableFrom (fun r c => printVal ((fr.cols c).data r)) fr.numRows fr.numCols 0)) (fun j => ⟨fr.numRows, junk j⟩) (by omega) (fun _ _ => rfl) rfl
    rw [e, Res.ok_bind]
    exact ⟨_, rfl, rfl, rfl, fun r c hr hc => by rw [h c r hc hr, if_pos (by omega)]⟩

/-! ### C55, C56: what does not survive -/

/-- 2147483648 in an `int64` matrix is read back as -2147483648. -/
theorem C55_int64_wrong_partial : ∃ (m : Mat Int) (text : List Char), m.numRows = 1 ∧ m.numCols = 1 ∧ IntTy.si64.InRange (m.get 0 0) ∧
    writeInts .si64 m = .ok text ∧ ∀ junk, ∃ o, readInts .si64 (File.open text) 1 1 ',' junk = .ok o ∧ o.get 0 0 ≠ m.get 0 0 := by
  obtain ⟨text, e, h⟩ := C55_ints_modulo .si64 ⟨1, 1, 1, Buf.ofList [2147483648]⟩ (by decide) (by decide)
    (fun r c hr hc => by simp only at hr hc; have : r = 0 := by omega
                         have : c = 0 := by omega
                         subst_vars; decide)
    (fun r c hr hc => by simp only at hr hc; have : r = 0 := by omega
                         have : c = 0 := by omega
                         subst_vars; unfold IntTy.InRange; decide)
  refine ⟨_, text, rfl, rfl, by unfold IntTy.InRange; decide, e, fun junk => ?_⟩
  obtain ⟨o, e1, _, _, e2⟩ := h junk
  refine ⟨o, e1, ?_⟩
  rw [e2 0 0 (by decide) (by decide)]
  decide

/-- What the reader finds for a string that needs quotes. -/
theorem at_quoted {s : List Char} (hq : ∃ x ∈ s, x = ',' ∨ x = '\n' ∨ x = '\r' ∨ x = '"') (h : At f pos (quoteStrCsvIf s ++ c :: S)) :
    f.line[pos]? = some '"' ∧ At f (base pos false + 1) (esc s ++ '"' :: c :: S) := by
  have hq' : s.any (fun c => c = ',' || c = '\n' || c = '\r' || c = '"') = true := by
    obtain ⟨x, hx, h1⟩ := hq
    simp only [List.any_eq_true, Bool.or_eq_true, decide_eq_true_eq]
    exact ⟨x, hx, by tauto⟩
  unfold quoteStrCsvIf at h
  rw [if_pos hq'] at h
  have h1 : At f pos ('"' :: (esc s ++ '"' :: c :: S)) := by simpa [esc] using h
  exact ⟨h1.char, h1.next (by decide)⟩

/-- The string `setCString` returns starts with what has been read up to some point. -/
theorem setCString_prefix {t : List Char} {g : File} {p : Nat} {lb : Bool} (hm : f.line[pos]? = some '"')
    (e : setLoop ',' true pos f 1 false [] = setLoop ',' true pos g p lb t) {f' : File} {pos' : Nat} {s' : List Char}
    (h : setCString f pos ',' = .ok (f', pos', s')) : t <+: s' := by
  unfold setCString at h
  split at h
  · cases h
  · have hd : decide (f.line[pos]? = some '"') = true := by rw [hm]; simp
    rw [hd] at h
    simp only [if_true] at h
    rw [e] at h
    cases hx : setLoop ',' true pos g p lb t with
    | error x => rw [hx] at h; cases h
    | ok x =>
      obtain ⟨a, b, c, d⟩ := x
      rw [hx] at h
      cases h
      exact setLoop_extends hx

theorem setLoop_cr {start : Nat} {lb : Bool} {res : List Char} (hc : f.line[base start lb + pos]? = some '\r') :
    (∃ f', setLoop ',' true start f pos lb res = setLoop ',' true start f' 0 true (res ++ ['\n'])) ∨
      setLoop ',' true start f pos lb res = .error (.ub "unspecified buffer contents") := by
  rw [setLoop]
  split
  · rename_i h; rw [hc] at h; cases h
  · rename_i d h'; rw [hc] at h'; cases h'
    rw [if_neg (by decide), if_neg (by simp), if_neg (by simp), if_neg (by simp), if_neg (by simp), if_pos (by simp)]
    split
    · exact Or.inr rfl
    · rename_i f' hg; exact Or.inl ⟨f', rfl⟩

theorem setLoop_slash {start : Nat} {lb : Bool} {res : List Char} (hc : f.line[base start lb + pos]? = some '\\')
    (hd : f.line[base start lb + pos + 1]? = some '"') :
    setLoop ',' true start f pos lb res = setLoop ',' true start f (pos + 2) lb (res ++ ['\\', '"']) := by
  rw [setLoop]
  split
  · rename_i h; rw [hc] at h; cases h
  · rename_i d h'; rw [hc] at h'; cases h'
    rw [if_neg (by decide), if_neg (by simp), if_neg (by simp), if_neg (by simp), if_pos (by simp [hd])]

/-- A carriage return in a string is never read back: wherever the cell is in a written file, `setCString` returns another string or
fails, for every string whose first part is admissible. -/
theorem C56_carriage_return_lost_partial (a b : List Char) (ha : ∀ x ∈ a, x ≠ NUL ∧ x ≠ '\r')
    (hsl : ∀ u v, a = u ++ '\\' :: v → v = [] ∨ ∃ x v', v = x :: v' ∧ x ≠ '"') (hS : '\n' ∈ c :: S)
    (h : At f pos (quoteStrCsvIf (a ++ '\r' :: b) ++ c :: S)) (f' : File) (pos' : Nat) (s' : List Char)
    (hr : setCString f pos ',' = .ok (f', pos', s')) : s' ≠ a ++ '\r' :: b := by
  obtain ⟨hm, h1⟩ := at_quoted ⟨'\r', by simp, by simp⟩ h
  have h2 : At f (base pos false + 1) (esc a ++ '\r' :: (esc b ++ '"' :: c :: S)) := by simpa [esc] using h1
  obtain ⟨g, p, l, e, hh⟩ := setLoop_prefix a f 1 false [] h2 ha
    (fun u v e => (hsl u v e).imp (fun h => ⟨h, by decide⟩) id) (by simp only [List.mem_cons, List.mem_append] at hS ⊢; tauto)
  rcases setLoop_cr (res := [] ++ a) hh.char with ⟨g', e2⟩ | e2
  · rw [e2] at e
    have hp := setCString_prefix hm e hr
    rintro rfl
    obtain ⟨r, hr⟩ := hp
    simp at hr
  · rw [e2] at e
    unfold setCString at hr
    split at hr
    · cases hr
    · have hd : decide (f.line[pos]? = some '"') = true := by rw [hm]; simp
      rw [hd] at hr
      simp only [if_true] at hr
      rw [e] at hr
      cases hr

/-- A backslash at the end of a quoted string swallows the closing quote: the string is never read back. -/
theorem C56_backslash_end_partial (a : List Char) (ha : ∀ x ∈ a, x ≠ NUL ∧ x ≠ '\r') (hq : ∃ x ∈ a, x = ',' ∨ x = '\n' ∨ x = '"')
    (hsl : ∀ u v, a = u ++ '\\' :: v → v = [] ∨ ∃ x v', v = x :: v' ∧ x ≠ '"') (hS : '\n' ∈ c :: S)
    (h : At f pos (quoteStrCsvIf (a ++ ['\\']) ++ c :: S)) (f' : File) (pos' : Nat) (s' : List Char)
    (hr : setCString f pos ',' = .ok (f', pos', s')) : s' ≠ a ++ ['\\'] := by
  obtain ⟨x, hx, hx2⟩ := hq
  obtain ⟨hm, h1⟩ := at_quoted ⟨x, by simp [hx], by tauto⟩ h
  have h2 : At f (base pos false + 1) (esc a ++ '\\' :: ('"' :: c :: S)) := by simpa [esc] using h1
  obtain ⟨g, p, l, e, hh⟩ := setLoop_prefix a f 1 false [] h2 ha
    (fun u v e => (hsl u v e).imp (fun h => ⟨h, by decide⟩) id) (by simp only [List.mem_cons] at hS ⊢; tauto)
  rw [setLoop_slash hh.char (hh.next (by decide)).char] at e
  have hp := setCString_prefix hm e hr
  rintro rfl
  obtain ⟨r, hr⟩ := hp
  simp at hr

/-- A quote after a backslash ends the string: the rest of it is lost. -/
theorem C56_backslash_quote_partial (a b : List Char) (y : Char) (hy : y ≠ '"') (ha : ∀ x ∈ a, x ≠ NUL ∧ x ≠ '\r')
    (hsl : ∀ u v, a = u ++ '\\' :: v → v = [] ∨ ∃ x v', v = x :: v' ∧ x ≠ '"') (hS : '\n' ∈ c :: S)
    (h : At f pos (quoteStrCsvIf (a ++ '\\' :: '"' :: y :: b) ++ c :: S)) :
    ∃ f' pos', setCString f pos ',' = .ok (f', pos', a ++ ['\\', '"']) := by
  obtain ⟨hm, h1⟩ := at_quoted ⟨'"', by simp, by simp⟩ h
  have h2 : At f (base pos false + 1) (esc a ++ '\\' :: '"' :: '"' :: y :: (esc b ++ '"' :: c :: S)) := by simpa [esc, hy] using h1
  obtain ⟨g, p, l, e, hh⟩ := setLoop_prefix a f 1 false [] h2 ha
    (fun u v e => (hsl u v e).imp (fun h => ⟨h, by decide⟩) id) (by simp only [List.mem_cons, List.mem_append] at hS ⊢; tauto)
  have h3 := (hh.next (by decide)).next (by decide)
  have hend : setLoop ',' true pos g (p + 2) l ([] ++ a ++ ['\\', '"']) = .ok (g, p + 2, l, [] ++ a ++ ['\\', '"']) :=
    setLoop_end h3.char (by
      rw [show base pos l + (p + 2) + 1 = base pos l + p + 1 + 1 + 1 by omega, (h3.next (by decide)).char]
      simpa using hy)
  rw [setLoop_slash hh.char (hh.next (by decide)).char, hend] at e
  unfold setCString
  rw [if_neg (by have := h.lt; omega)]
  have hd : decide (f.line[pos]? = some '"') = true := by rw [hm]; simp
  rw [hd]
  simp only [if_true]
  rw [e, Res.ok_bind]
  exact ⟨_, _, rfl⟩

/-! ### Non-vacuity -/

/-- A string with separator, newline, quotes and backslashes. -/
def exStr : List Char := ['a', ',', '\\', 'n', '\n', '"', 'b']

theorem exStr_admissible : Admissible exStr := by
  refine ⟨by decide, fun _ a b h => ?_⟩
  have : ∀ k, k < 7 → exStr[k]? = some '\\' → k = 2 := by decide
  have hk : exStr[a.length]? = some '\\' := by rw [h]; simp
  have hlt := (List.getElem?_eq_some_iff.1 hk).1
  have h2 := this a.length hlt hk
  have hb : b = exStr.drop 3 := by
    rw [h, List.drop_append, h2]; simp [show a.length ≤ 3 by omega]
  exact ⟨'n', exStr.drop 4, by rw [hb]; rfl, by decide⟩

/-- A frame with an `uint32` column holding its largest value and a string column. -/
def exFrame : Frame := ⟨1, 2, fun j => if j = 0 then .int .ui32 else .str, fun j => if j = 0 then Buf.ofList [.int 4294967295] else Buf.ofList [.str exStr]⟩

example : ∀ r c, r < exFrame.numRows → c < exFrame.numCols → CellOk (exFrame.types c) ((exFrame.cols c).data r) := by
  intro r c hr hc
  have h1 : r = 0 := by have : exFrame.numRows = 1 := rfl; omega
  have h2 : c = 0 ∨ c = 1 := by have : exFrame.numCols = 2 := rfl; omega
  subst h1
  rcases h2 with rfl | rfl
  · exact ⟨by unfold IntTy.InRange; decide, by simp⟩
  · exact exStr_admissible

/-- A place in a file for which the theorems of C56 have something to say. -/
example : At ⟨['"', 'a', '\r', '"', '\n'], []⟩ 0 (quoteStrCsvIf (['a'] ++ '\r' :: []) ++ '\n' :: []) :=
  ⟨by decide, by decide, ['"', 'a', '\r', '"'], by decide, by decide⟩

end Verif.Io
