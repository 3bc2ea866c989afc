/-
  C353-C356: exchange of matrices with numpy; C357-C359: with generated code.
-/
import Verif.Interop.Model

namespace Verif.Interop
open Verif Verif.Dense Verif.Csr

variable {α : Type}

/-- The matrix a numpy array shows. -/
def NArr.mat (a : NArr α) : Mat α := ⟨a.rows, a.cols, a.at⟩

theorem CContiguous.pos {a : NArr α} (h : a.CContiguous) {r c : Nat} (hr : r < a.rows) (hc : c < a.cols) :
    r * a.s0 + c * a.s1 = r * a.cols + c := by
  obtain ⟨h1, h2⟩ := h
  have e1 : c * a.s1 = c := by
    rcases h1 with h | h
    · simp [h]
    · have : c = 0 := by omega
      simp [this]
  have e2 : r * a.s0 = r * a.cols := by
    rcases h2 with h | h
    · rw [h]
    · have : r = 0 := by omega
      simp [this]
  rw [e1, e2]

theorem read_oob {b : Buf α} {i : Nat} (h : ¬ i < b.size) : b.read i = .error (.ub "out-of-bounds read") := by
  simp [Buf.read, h]

theorem wrap_is {mem : Buf α} {base rows cols : Nat} {f : Nat → Nat → α}
    (hb : ∀ r c, r < rows → c < cols → base + (r * cols + c) < mem.size)
    (hd : ∀ r c, r < rows → c < cols → mem.data (base + (r * cols + c)) = f r c) :
    (wrap mem base rows cols).Is ⟨rows, cols, f⟩ := by
  refine is_of_data ⟨Nat.le_refl _, rfl, fun r c hr hc => ?_, fun _ => rfl⟩ rfl rfl fun r c hr hc => ?_
  · simp only [wrap, Hdr.new] at *
    have := hb r c hr hc; omega
  · simp only [wrap, Hdr.new] at *
    rw [← hd r c hr hc]; congr 1; omega

/-- **C353.** A C-contiguous numpy array is received as the matrix it shows, without a copy. -/
theorem C353_receive (a : NArr α) (hv : a.Valid) (hc : a.CContiguous) : (fromNumpy a).Is a.mat := by
  refine wrap_is (fun r c h1 h2 => ?_) (fun r c h1 h2 => ?_)
  · have := hv r c h1 h2
    have := CContiguous.pos hc h1 h2
    omega
  · have := CContiguous.pos hc h1 h2
    unfold NArr.at
    congr 1; omega

/-- **C353.** A matrix whose rows lie next to each other (new matrices, ranges of rows of them, and matrices of at most
one row) is returned to Python as a valid array that shows this matrix. -/
theorem C353_return (x : DM α) (a : Mat α) (hx : x.Is a) (h : x.h.rowSkip = a.cols ∨ a.rows ≤ 1) :
    (toNumpy x).Valid ∧ (toNumpy x).mat.Same a := by
  have er := hx.rows; have ec := hx.cols
  have key : ∀ r c, r < a.rows → c < a.cols → r * a.cols = r * x.h.rowSkip := fun r c hr _ => by
    rcases h with h | h
    · rw [h]
    · have : r = 0 := by omega
      simp [this]
  refine ⟨fun r c hr hc => ?_, er, ec, fun r c hr hc => ?_⟩
  · simp only [toNumpy] at hr hc ⊢
    rw [er] at hr; rw [ec] at hc ⊢
    have := hx.inb hr hc
    have := key r c hr hc
    rw [hx.wf.start]; omega
  · simp only [toNumpy, NArr.mat, NArr.at] at hr hc ⊢
    rw [er] at hr; rw [ec] at hc ⊢
    rw [hx.wf.start, ← hx.data hr hc, key r c hr hc, Nat.mul_one]

/-- **C353.** A C-contiguous array that is received and returned again shows the same elements, and so do later changes
through either side. -/
theorem C353_round_trip (a : NArr α) (hv : a.Valid) (hc : a.CContiguous) (v : α) (r c : Nat) (hr : r < a.rows)
    (hcc : c < a.cols) :
    (toNumpy (fromNumpy a)).mat.Same a.mat ∧
    ∃ m, (fromNumpy a).h.set a.mem r c v = .ok m ∧
      ∀ r' c', r' < a.rows → c' < a.cols →
        ({ a with mem := m } : NArr α).at r' c' = if r' = r ∧ c' = c then v else a.at r' c' := by
  refine ⟨(C353_return _ _ (C353_receive a hv hc) (.inl rfl)).2, ?_⟩
  have hp := CContiguous.pos hc hr hcc
  have hin := hv r c hr hcc
  have hst : (fromNumpy a).h.start = a.off := by
    rw [(C353_receive a hv hc).wf.start]; rfl
  refine ⟨a.mem.put (a.off + (r * a.cols + c)) v, ?_, fun r' c' hr' hc' => ?_⟩
  · have n1 : ¬ (fromNumpy a).h.numRows ≤ r := fun h => by
      have : (fromNumpy a).h.numRows = a.rows := rfl
      omega
    have n2 : ¬ (fromNumpy a).h.numCols ≤ c := fun h => by
      have : (fromNumpy a).h.numCols = a.cols := rfl
      omega
    unfold Hdr.set Hdr.pos
    rw [hst, if_neg n1, if_neg n2]
    simp only [Res.ok_bind, Bool.false_eq_true, if_false]
    exact Buf.write_eq (by show a.off + (r * a.cols + c) < _; omega)
  · have hp' := CContiguous.pos hc hr' hc'
    unfold NArr.at
    simp only [Buf.put]
    have e : a.off + r' * a.s0 + c' * a.s1 = a.off + (r' * a.cols + c') := by omega
    rw [e]
    by_cases h : r' = r ∧ c' = c
    · obtain ⟨rfl, rfl⟩ := h; simp
    · have : r' * a.cols + c' ≠ r * a.cols + c := fun h' => by
        have e1 : r' = r := by
          have h1 : (r' * a.cols + c') / a.cols = r' := by
            rw [Nat.add_comm, Nat.add_mul_div_right _ _ (by omega), Nat.div_eq_of_lt hc']; simp
          have h2 : (r * a.cols + c) / a.cols = r := by
            rw [Nat.add_comm, Nat.add_mul_div_right _ _ (by omega), Nat.div_eq_of_lt hcc]; simp
          rw [← h1, ← h2, h']
        subst e1
        exact h ⟨rfl, by omega⟩
      rw [if_neg h, if_neg (by omega)]

/-- A 2x3 array at offset 1. -/
def exArr : NArr Nat := ⟨⟨8, fun i => i * 10⟩, 1, 2, 3, 3, 1⟩
example : exArr.Valid ∧ exArr.CContiguous ∧ exArr.at 1 2 = 60 := by
  refine ⟨fun r c hr hc => ?_, by simp [exArr, NArr.CContiguous], by decide⟩
  simp only [exArr] at *; omega

/-- **C354 (refuted).** The transpose of a square array with at least two rows, as numpy makes it, is received as the
array before transposition. -/
theorem C354_transposed_partial (a : NArr α) (hv : a.Valid) (hc : a.CContiguous) (hs : a.rows = a.cols) :
    (fromNumpy a.T).Is a.mat ∧ (∀ r c, r < a.rows → c < a.rows → a.T.mat.cell r c = a.mat.cell c r) ∧
    (∀ r c, r < a.rows → c < a.rows → a.at r c ≠ a.at c r → ¬ (fromNumpy a.T).Is a.T.mat) := by
  have h1 : (fromNumpy a.T).Is a.mat := by
    refine (C353_receive a hv hc).congr ⟨rfl, rfl, fun _ _ _ _ => rfl⟩ |> fun h => ?_
    have : fromNumpy a.T = fromNumpy a := by simp [fromNumpy, NArr.T, hs]
    rw [this]; exact h
  have h2 : ∀ r c, a.T.mat.cell r c = a.mat.cell c r := fun r c => by
    simp only [NArr.mat, NArr.at, NArr.T]; congr 1; omega
  refine ⟨h1, fun r c _ _ => h2 r c, fun r c hr hc' hne h => hne ?_⟩
  have := (h1.same h).2.2 r c hr (by simp only [NArr.mat]; omega)
  rw [h2] at this
  exact this

/-- **C355 (refuted).** Some columns of a matrix, returned to Python: the array shows in its second row, first column the
cell to the right of the selection in the first row, instead of the first selected cell of the second row. -/
theorem C355_columns_partial (x : DM α) (a : Mat α) (hx : x.Is a) (cl cu : Int) (h0 : 0 ≤ cl) (h1 : cl < cu)
    (h2 : cu < a.cols) (hr : 2 ≤ a.rows) :
    ∃ v, x.h.sliceCol cl cu = .ok v ∧
      DM.Is ⟨v, x.mem⟩ (a.window 0 a.rows cl.toNat cu.toNat) ∧
      (toNumpy ⟨v, x.mem⟩).rows = a.rows ∧ (toNumpy ⟨v, x.mem⟩).cols = cu.toNat - cl.toNat ∧
      (toNumpy ⟨v, x.mem⟩).at 1 0 = a.cell 0 cu.toNat := by
  obtain ⟨v, e, hv⟩ := hx.view (rl := 0) (ru := a.rows) (cl := cl) (cu := cu) ⟨by omega, by omega, by omega, by omega⟩
    ⟨by omega, by omega, by omega, by omega⟩
  have e' : x.h.sliceCol cl cu = .ok v := by
    unfold Hdr.sliceCol
    rw [hx.rows]; exact e
  have hrows : v.numRows = a.rows := by have := hv.rows; simpa [Mat.window] using this
  have hcols : v.numCols = cu.toNat - cl.toNat := by have := hv.cols; simpa [Mat.window] using this
  have hbase : v.base = x.h.base + (0 * x.h.rowSkip + cl.toNat) := by
    have v1 : Hdr.validRange 0 a.rows x.h.numRows = true := by
      rw [hx.rows]; exact (validRange_iff _ _ _).2 ⟨by omega, by omega, by omega, by omega⟩
    have v2 : Hdr.validRange cl cu x.h.numCols = true := by
      rw [hx.cols]; exact (validRange_iff _ _ _).2 ⟨by omega, by omega, by omega, by omega⟩
    simp [Hdr.view, v1, v2] at e
    rw [← e]; simp
  refine ⟨v, e', by simpa using hv, hrows, hcols, ?_⟩
  simp only [toNumpy, NArr.at]
  have hst : (v.start) = v.base := hv.wf.start
  rw [hst, hbase, hcols]
  have := hx.data (r := 0) (c := cu.toNat) (by omega) (by omega)
  rw [← this]; congr 1; omega

/-- **C356 (refuted).** Arrays of 16-bit integers: for every non-empty contiguous array that fills its allocation, the last
cell of the received matrix lies outside of it, and a cell in the first half combines two elements of the array. -/
theorem C356_sixteen_bits_partial (a : NArr Nat) (h0 : a.off = 0) (hs : a.mem.size = a.rows * a.cols)
    (hr : 0 < a.rows) (hc : 0 < a.cols) :
    (cellOfUInt16 a (a.rows - 1) (a.cols - 1)).IsUB ∧
    (∀ r c, 2 * (r * a.cols + c) + 1 < a.rows * a.cols →
      cellOfUInt16 a r c = .ok (a.mem.data (2 * (r * a.cols + c)) + 65536 * a.mem.data (2 * (r * a.cols + c) + 1))) := by
  have hn : (a.rows - 1) * a.cols + a.cols = a.rows * a.cols := by
    obtain ⟨n, hn⟩ : ∃ n, a.rows = n + 1 := ⟨a.rows - 1, by omega⟩
    simp [hn, Nat.add_mul]
  constructor
  · unfold cellOfUInt16 read32
    rw [h0]
    by_cases h : 0 + 2 * ((a.rows - 1) * a.cols + (a.cols - 1)) < a.mem.size
    · rw [Buf.read_eq h]
      simp only [Res.ok_bind]
      rw [read_oob (by omega)]
      exact ⟨_, rfl⟩
    · rw [read_oob h]
      exact ⟨_, rfl⟩
  · intro r c h
    unfold cellOfUInt16 read32
    rw [h0, Buf.read_eq (by omega), Buf.read_eq (by omega)]
    simp only [Res.ok_bind, Nat.zero_add]

/-- **C357.** A matrix whose rows lie next to each other is seen by generated code as it is, and a result of generated code
(row-major, offset zero) becomes a matrix that shows it; in particular converting there and back changes nothing. -/
theorem C357_memref (x : DM α) (a : Mat α) (hx : x.Is a) (h : x.h.rowSkip = a.cols ∨ a.rows ≤ 1) :
    (denseToMemRef x).size0 = a.rows ∧ (denseToMemRef x).size1 = a.cols ∧
    (∀ r c, r < a.rows → c < a.cols → x.mem.read ((denseToMemRef x).pos r c) = .ok (a.cell r c)) ∧
    (memRefToDense x.mem (denseToMemRef x)).Is a := by
  have er := hx.rows; have ec := hx.cols
  have key : ∀ r c, r < a.rows → c < a.cols → x.h.base + (r * a.cols + c) = x.h.base + r * x.h.rowSkip + c :=
    fun r c hr _ => by
      rcases h with h | h
      · rw [h]; omega
      · have : r = 0 := by omega
        simp [this]
  refine ⟨er, ec, fun r c hr hc => ?_, ?_⟩
  · have e : (denseToMemRef x).pos r c = x.h.base + r * x.h.rowSkip + c := by
      rw [← key r c hr hc]; simp only [denseToMemRef, MemRef2.pos, ec]; omega
    rw [e, Buf.read_eq (hx.inb hr hc), hx.data hr hc]
  · have : memRefToDense x.mem (denseToMemRef x) = wrap x.mem x.h.base a.rows a.cols := by
      simp [memRefToDense, denseToMemRef, er, ec]
    rw [this]
    refine wrap_is (fun r c hr hc => ?_) (fun r c hr hc => ?_)
    · rw [key r c hr hc]; exact hx.inb hr hc
    · rw [key r c hr hc]; exact hx.data hr hc

/-- **C358 (refuted).** Some columns of a matrix, passed to generated code: what it reads as the first cell of the second
row is the cell to the right of the selection in the first row. -/
theorem C358_columns_partial (x : DM α) (a : Mat α) (hx : x.Is a) (cl cu : Int) (h0 : 0 ≤ cl) (h1 : cl < cu)
    (h2 : cu < a.cols) (hr : 2 ≤ a.rows) :
    ∃ v, x.h.sliceCol cl cu = .ok v ∧
      DM.Is ⟨v, x.mem⟩ (a.window 0 a.rows cl.toNat cu.toNat) ∧
      x.mem.read ((denseToMemRef ⟨v, x.mem⟩).pos 1 0) = .ok (a.cell 0 cu.toNat) := by
  obtain ⟨v, e, hv, _, hcols, hat⟩ := C355_columns_partial x a hx cl cu h0 h1 h2 hr
  refine ⟨v, e, hv, ?_⟩
  have hst : v.start = v.base := hv.wf.start
  have hp : (denseToMemRef ⟨v, x.mem⟩).pos 1 0 = v.start + 1 * v.numCols + 0 * 1 := by
    simp only [denseToMemRef, MemRef2.pos, hst]; omega
  have hin : v.start + 1 * v.numCols + 0 * 1 < x.mem.size := by
    have h3 := hv.inb (r := 1) (c := 0) (by simp [Mat.window]; omega) (by simp [Mat.window]; omega)
    have h4 := hv.wf.skip
    simp only at h3 h4
    rw [hst]; omega
  rw [hp, Buf.read_eq hin]
  exact congrArg _ hat

example : ∃ x : DM Nat, x.Is ⟨3, 4, fun r c => r * 4 + c⟩ := ⟨_, exM_is⟩

/-- **C359.** The three buffers of a sparse matrix, be it a range of rows of another matrix or not, passed to generated code
and back, make a matrix with the same contents; the number of values announced for them is the number of stored entries. -/
theorem C359_sparse (zero : α) (x : CM α) (a : Mat α) (hx : x.Is zero a) :
    (sparseFromBuffers x.mem (csrRowOffsetsMemRef x) a.rows a.cols).Is zero a ∧
    (∃ m, csrValuesMemRef x = .ok m ∧ m.size = x.o a.rows - x.o 0) := by
  have er := hx.rows; have ec := hx.cols
  constructor
  · have e : sparseFromBuffers x.mem (csrRowOffsetsMemRef x) a.rows a.cols =
        ⟨⟨x.h.numRows, x.h.numCols, x.h.numRows, false, x.h.rowOff, 0⟩, x.mem⟩ := by
      simp [sparseFromBuffers, csrRowOffsetsMemRef, er, ec]
    rw [e]
    exact ⟨⟨hx.wf.offsIn, hx.wf.mono, hx.wf.topV, hx.wf.topC, hx.wf.sorted, hx.wf.bound⟩, er, ec, hx.entry, hx.rest⟩
  · have h1 := hx.wf.offsIn
    unfold csrValuesMemRef CHdr.numNonZeros CHdr.off
    rw [Buf.read_eq h1, Buf.read_eq (by omega)]
    refine ⟨_, rfl, ?_⟩
    simp [CM.o, er]

end Verif.Interop
