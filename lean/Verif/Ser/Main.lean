/-
  C34, C51-C54: saving and loading matrices.
-/
import Verif.Ser.Csr

namespace Verif.Ser
open Verif

namespace Csr

/-- The stored entries of row `r`, in order: column and bytes of the value. -/
def rowEntries (t : VTy) (m : Csr) (r : Nat) : List (Nat × List Byte) :=
  (List.range (m.off (r + 1) - m.off r)).map fun k => (u64 m.colIdxs (m.off r + k), bytesAt m.vals (t.size * (m.off r + k)) t.size)

/-- Equal matrices: same dimensions and the same entries in every row. -/
def Same (t : VTy) (m o : Csr) : Prop :=
  o.numRows = m.numRows ∧ o.numCols = m.numCols ∧ ∀ r, r < m.numRows → o.rowEntries t r = m.rowEntries t r

variable {t : VTy} {m : Csr}

theorem off_of_complete (g : Good t m) {o : Csr} (h : Complete (codec t) (stream t m) (m.total t) (Shape t m) (byteAt m) o) {r : Nat}
    (hr : r ≤ m.numRows) : o.off r = m.off r - m.off 0 := by
  obtain ⟨s, h⟩ := h
  have hb : HasBytes o.offs (8 * r) (le 8 (m.off r - m.off 0)) := by
    intro k hk
    rw [le_length] at hk
    have h53 : (codec t).headerSize = 53 := rfl
    have := h (53 + (8 * r + k)) (by rw [h53]; omega) (by unfold total; omega)
    rw [byteAt, if_pos (by omega), stream, if_neg (by omega), if_pos (by omega), Nat.add_sub_cancel_left, newByte,
      show (8 * r + k) / 8 = r by omega, show (8 * r + k) % 8 = k by omega] at this
    exact this
  have hu := hb.bytesAt
  rw [le_length] at hu
  unfold off u64
  rw [s.base, Nat.zero_add, hu, unle_le]
  have := off_lt m r
  rw [Nat.mod_eq_of_lt (by unfold off u64 at *; omega)]
  rfl

theorem same_of_complete (g : Good t m) {o : Csr} (h : Complete (codec t) (stream t m) (m.total t) (Shape t m) (byteAt m) o) : Same t m o := by
  have hs := h.1
  refine ⟨hs.rows, hs.cols, fun r hr => ?_⟩
  have e1 := off_of_complete g h (r := r) (by omega)
  have e2 := off_of_complete g h (r := r + 1) (by omega)
  have m1 := g.mono r hr
  have m0 := off_mono g (r := 0) (s := r) (by omega) (by omega)
  have m2 := off_mono g (r := r + 1) (s := m.numRows) (by omega) (by omega)
  have hn := nnz_eq g
  have h53 : (codec t).headerSize = 53 := rfl
  unfold rowEntries
  rw [e1, e2, show m.off (r + 1) - m.off 0 - (m.off r - m.off 0) = m.off (r + 1) - m.off r by omega]
  refine List.map_congr_left fun k hk => ?_
  rw [List.mem_range] at hk
  have hkk : m.off r - m.off 0 + k < m.nnz := by omega
  generalize hx : m.off r - m.off 0 + k = x at hkk
  have hx2 : m.off r + k = m.off 0 + x := by omega
  rw [hx2]
  refine Prod.ext ?_ ?_
  · show u64 o.colIdxs x = u64 m.colIdxs (m.off 0 + x)
    unfold u64 bytesAt
    refine congrArg unle ?_
    refine List.map_congr_left fun i hi => ?_
    rw [List.mem_range] at hi
    have := h.2 (53 + (m.numRows + 1) * 8 + (8 * x + i)) (by rw [h53]; omega) (by unfold total; omega)
    rw [byteAt, if_neg (by omega), if_pos (by omega), stream, if_neg (by omega), if_neg (by omega), if_pos (by omega), Nat.add_sub_cancel_left] at this
    rw [this]
    exact congrArg _ (by omega)
  · show bytesAt o.vals (t.size * x) t.size = bytesAt m.vals (t.size * (m.off 0 + x)) t.size
    unfold bytesAt
    refine List.map_congr_left fun i hi => ?_
    rw [List.mem_range] at hi
    have hlt : t.size * x + i < m.nnz * t.size := by
      have h1 : (x + 1) * t.size ≤ m.nnz * t.size := Nat.mul_le_mul_right _ hkk
      have h2 : (x + 1) * t.size = t.size * x + t.size := by rw [Nat.add_mul, Nat.one_mul, Nat.mul_comm]
      omega
    have := h.2 (53 + (m.numRows + 1) * 8 + m.nnz * 8 + (t.size * x + i)) (by rw [h53]; omega) (by unfold total; omega)
    rw [byteAt, if_neg (by omega), if_neg (by omega), stream, if_neg (by omega), if_neg (by omega), if_neg (by omega), Nat.add_sub_cancel_left] at this
    rw [this, Nat.mul_add]
    exact congrArg _ (by omega)

end Csr

/-! ### C34: dense matrices -/

section DenseThms
variable {t : VTy} {m : Dense}

theorem dense_length (m : Dense) (t : VTy) : m.length t = 45 + m.valuesSize t := by unfold Dense.length Dense.valuesSize; omega

/-- One piece: serializing into any buffer that is large enough yields exactly `length` bytes, and deserializing these bytes yields an
equal matrix. `junk` is the content of freshly allocated memory. -/
theorem C34_dense_one_piece (g : m.Good t) (junk : Nat → Byte) (buf : Buf Byte) (cs : Nat) (h1 : m.length t ≤ cs) (h2 : cs ≤ buf.size) :
    ∃ buf' o, m.serialize t buf 0 cs 0 = .ok (m.length t, buf') ∧ Dense.deserialize t buf' 0 (m.length t) none 0 junk = .ok o ∧ m.Same t o := by
  rw [dense_length] at *
  obtain ⟨⟨n, b⟩, e, e1, _, e3⟩ := onePiece_ok (Dense.law g junk) buf cs h1 h2
  obtain ⟨o, f, f1⟩ := e3 _ (Nat.le_refl _) (by omega)
  simp only at e1
  subst e1
  exact ⟨b, o, e, f, Dense.same_of_complete g f1⟩

/-- File: written with chunks of any size from 45 on, read with chunks of any size from 45 on. The reading loop ends. -/
theorem C34_dense_file (g : m.Good t) (junk : Nat → Byte) (cs cs' : Nat) (h : 45 ≤ cs) (h' : 45 ≤ cs') :
    ∃ file, (Dense.codec t junk).writeFile m cs = .ok file ∧ file.length = m.length t ∧
      ∃ steps, ∀ fuel, steps ≤ fuel → ∃ o, (Dense.codec t junk).readFile file cs' fuel = .ok (some o) ∧ m.Same t o := by
  refine ⟨_, writeFile_ok (Dense.law g junk) cs h, by simp [streamList, dense_length], Codec.numChunks (45 + m.valuesSize t) cs' + 1, fun fuel hf => ?_⟩
  obtain ⟨r, e, x, rfl, hx⟩ := readFile_ok (Dense.law g junk) cs' h' fuel (by omega)
  exact ⟨x, e, Dense.same_of_complete g hx⟩

/-- Network: self-describing chunks of any size from 98 on, received in any order. All chunks are consumed, then the receiver stops. -/
theorem C34_dense_any_order (g : m.Good t) (junk : Nat → Byte) (cs : Nat) (h : 98 ≤ cs) :
    ∃ steps, ∀ fuel, steps ≤ fuel → ∃ chunks, (Dense.codec t junk).outOfOrderChunks m cs fuel = .ok chunks ∧
      ∀ arrived : List (Buf Byte), arrived.Perm chunks →
        ∃ o, (Dense.codec t junk).receive (none, 0) arrived = .ok (some o, []) ∧ m.Same t o := by
  obtain ⟨p, rfl⟩ : ∃ p, cs = (Dense.codec t junk).headerSize + 8 + p := ⟨cs - 53, by simp [Dense.codec]; omega⟩
  have hp : (Dense.codec t junk).headerSize ≤ p := by simp [Dense.codec] at *; omega
  refine ⟨Codec.numChunks (45 + m.valuesSize t) p + 1, fun fuel hf => ?_⟩
  obtain ⟨l, e, l1, l2⟩ := outOfOrderChunks_ok (Dense.law g junk) (dense_length m t) p hp fuel (by omega)
  refine ⟨l, e, fun l' hl => ?_⟩
  obtain ⟨⟨ro, rl⟩, f, f1, x, f2, f3⟩ := receive_ok (Dense.law g junk) p hp l l' l1 l2 hl
  simp only at f1 f2
  subst f1 f2
  exact ⟨x, f, Dense.same_of_complete g f3⟩

end DenseThms

/-! ### C34: sparse matrices -/

section CsrThms
variable {t : VTy} {m : Csr}

theorem C34_csr_one_piece (g : m.Good t) (buf : Buf Byte) (cs : Nat) (h1 : m.total t ≤ cs) (h2 : cs ≤ buf.size) :
    ∃ buf' o, m.serialize t buf 0 cs 0 = .ok (m.total t, buf') ∧ Csr.deserialize t buf' 0 (m.total t) none 0 = .ok o ∧ m.Same t o := by
  obtain ⟨n, hn, _⟩ := Csr.length_ok g
  obtain ⟨⟨n, b⟩, e, e1, _, e3⟩ := onePiece_ok (Csr.law g n hn) buf cs h1 h2
  obtain ⟨o, f, f1⟩ := e3 _ (Nat.le_refl _) (by omega)
  simp only at e1
  subst e1
  exact ⟨b, o, e, f, Csr.same_of_complete g f1⟩

/-- `length`, by which callers size their buffers, is never too small. -/
theorem C34_csr_length (g : m.Good t) : ∃ n, m.length t = .ok n ∧ m.total t ≤ n := Csr.length_ok g

theorem C34_csr_file (g : m.Good t) (cs cs' : Nat) (h : 53 ≤ cs) (h' : 53 ≤ cs') :
    ∃ file, (Csr.codec t).writeFile m cs = .ok file ∧ file.length = m.total t ∧
      ∃ steps, ∀ fuel, steps ≤ fuel → ∃ o, (Csr.codec t).readFile file cs' fuel = .ok (some o) ∧ m.Same t o := by
  obtain ⟨n, hn, _⟩ := Csr.length_ok g
  refine ⟨_, writeFile_ok (Csr.law g n hn) cs h, by simp [streamList], Codec.numChunks (m.total t) cs' + 1, fun fuel hf => ?_⟩
  obtain ⟨r, e, x, rfl, hx⟩ := readFile_ok (Csr.law g n hn) cs' h' fuel (by omega)
  exact ⟨x, e, Csr.same_of_complete g hx⟩

/-- Needs an original without spare capacity or a view (see C53). -/
theorem C34_csr_any_order (g : m.Good t) (hx : m.isView = true ∨ m.maxNnz = m.nnz) (cs : Nat) (h : 114 ≤ cs) :
    ∃ steps, ∀ fuel, steps ≤ fuel → ∃ chunks, (Csr.codec t).outOfOrderChunks m cs fuel = .ok chunks ∧
      ∀ arrived : List (Buf Byte), arrived.Perm chunks → ∃ o, (Csr.codec t).receive (none, 0) arrived = .ok (some o, []) ∧ m.Same t o := by
  have hn : m.length t = .ok (m.total t) := by
    unfold Csr.length Csr.nzbForLength
    rw [Csr.countNonZeros_ok g]
    have : (if m.isView = true then Except.ok m.nnz else Except.ok m.maxNnz : Res Nat) = .ok m.nnz := by
      rcases hx with hx | hx
      · rw [if_pos hx]
      · rw [hx]; split <;> rfl
    rw [this, Res.ok_bind]
    rfl
  obtain ⟨p, rfl⟩ : ∃ p, cs = (Csr.codec t).headerSize + 8 + p := ⟨cs - 61, by simp [Csr.codec]; omega⟩
  have hp : (Csr.codec t).headerSize ≤ p := by simp [Csr.codec] at *; omega
  refine ⟨Codec.numChunks (m.total t) p + 1, fun fuel hf => ?_⟩
  obtain ⟨l, e, l1, l2⟩ := outOfOrderChunks_ok (Csr.law g _ hn) rfl p hp fuel (by omega)
  refine ⟨l, e, fun l' hl => ?_⟩
  obtain ⟨⟨ro, rl⟩, f, f1, x, f2, f3⟩ := receive_ok (Csr.law g _ hn) p hp l l' l1 l2 hl
  simp only at f1 f2
  subst f1 f2
  exact ⟨x, f, Csr.same_of_complete g f3⟩

end CsrThms

/-! ### C51: views of columns -/

/-- The serializer ignores the row skip: what is loaded at `(r, c)` is the value at position `r * numCols + c` of the array, for every
matrix (with 32-bit dimensions). -/
theorem C51_row_skip_ignored {t : VTy} {m : Dense} (g : Dense.Good t { m with rowSkip := m.numCols }) (junk : Nat → Byte) (buf : Buf Byte) (cs : Nat)
    (h1 : m.length t ≤ cs) (h2 : cs ≤ buf.size) :
    ∃ buf' o, m.serialize t buf 0 cs 0 = .ok (m.length t, buf') ∧ Dense.deserialize t buf' 0 (m.length t) none 0 junk = .ok o ∧
      o.numRows = m.numRows ∧ o.numCols = m.numCols ∧ ∀ r c, r < m.numRows → c < m.numCols →
        o.cell t r c = bytesAt m.vals ((r * m.numCols + c) * t.size) t.size := by
  obtain ⟨b, o, e1, e2, e3, e4, e5⟩ := C34_dense_one_piece g junk buf cs h1 h2
  exact ⟨b, o, e1, e2, e3, e4, e5⟩

/-- Left column of the 2x2 matrix `(1 2; 3 4)` of one-byte values, as a view. -/
def leftColumn : Dense := ⟨2, 1, 2, Buf.ofList [1, 2, 3, 4]⟩

/-- Serializing a view of the left column of `(1 2; 3 4)` and loading it gives `(1 2)` instead of `(1 3)`. -/
theorem C51_column_view_wrong_partial : ∃ (t : VTy) (m : Dense), m.numRows ≤ 2 ∧ m.numCols ≤ 1 ∧ ((m.numRows - 1) * m.rowSkip + m.numCols) * t.size ≤ m.vals.size ∧
    ∀ junk, ∃ buf' o, m.serialize t ⟨m.length t, fun _ => 0⟩ 0 (m.length t) 0 = .ok (m.length t, buf') ∧
      Dense.deserialize t buf' 0 (m.length t) none 0 junk = .ok o ∧ ¬ m.Same t o := by
  refine ⟨⟨1, 1⟩, leftColumn, by decide, by decide, by decide, fun junk => ?_⟩
  obtain ⟨b, o, e1, e2, _, _, e5⟩ := C51_row_skip_ignored (t := ⟨1, 1⟩) (m := leftColumn) ⟨rfl, by decide, by decide, by decide, by decide, by decide⟩ junk
    ⟨leftColumn.length ⟨1, 1⟩, fun _ => 0⟩ (leftColumn.length ⟨1, 1⟩) (Nat.le_refl _) (Nat.le_refl _)
  refine ⟨b, o, e1, e2, fun h => ?_⟩
  have h1 := h.2.2 1 0 (by decide) (by decide)
  rw [e5 1 0 (by decide) (by decide)] at h1
  exact absurd h1 (by decide)

/-! ### C52: large dimensions -/

/-- The format keeps 32 bits of each dimension: what is created from the header of any dense matrix has the dimensions modulo `2^32`. -/
theorem C52_dims_truncated_partial {t : VTy} {m : Dense} (hc : t.code < 256) (buf : Buf Byte) (h : 45 ≤ buf.size) (junk : Nat → Byte) :
    ∃ buf', m.serializeHeader t buf 0 = .ok (45, buf') ∧
      Dense.deserializeHeader t buf' 0 none junk = .ok (Dense.create t (m.numRows % 2 ^ 32) (m.numCols % 2 ^ 32) junk) := by
  unfold Dense.serializeHeader
  obtain ⟨b, e, e1, e2⟩ := putAll_ok (m.headerBytes t) (buf := buf) (i := 0) (by rw [Dense.header_length]; omega)
  rw [e, Res.ok_bind]
  refine ⟨b, rfl, ?_⟩
  obtain ⟨b1, b2, b3, b4, b5⟩ := Dense.header_fields (t := t) (m := m) (buf := b) (base := 0) fun i hi => by
    rw [e2, Dense.header_length, if_pos (by omega), Dense.stream, if_pos hi]; simp
  unfold Dense.deserializeHeader dfDtype dfVtype
  rw [readNum_of b1 (by omega), Res.ok_bind, if_neg (by decide), readNum_of b2 (by omega), Res.ok_bind,
    if_neg (by rw [Nat.mod_eq_of_lt (by omega)]; simp), readNum_of b3 (by omega), Res.ok_bind, readNum_of b4 (by omega), Res.ok_bind,
    readNum_of b5 (by omega), Res.ok_bind, if_neg (by decide), if_pos (by decide)]
  rfl

/-! ### C53: spare capacity -/

theorem endless {t : VTy} {m : Csr} (g : m.Good t) {srcLen : Nat} (hsrc : m.length t = .ok srcLen) (hlt : m.total t < srcLen) (p : Nat)
    (hp : 53 ≤ p) (fuel : Nat) : ∀ k, (Csr.codec t).outOfOrderLoop m (53 + 8 + p) fuel (min (m.total t) (k * p)) = .error (.ub "endless loop") := by
  induction fuel with
  | zero => intro k; rfl
  | succ fuel ih =>
    intro k
    unfold Codec.outOfOrderLoop
    rw [show (Csr.codec t).length m = m.length t from rfl, hsrc, Res.ok_bind, if_pos (by omega)]
    have hk : min (m.total t) (k * p) = 0 ∨ 53 ≤ min (m.total t) (k * p) := by
      cases k with
      | zero => left; simp
      | succ k =>
        right
        have h1 : p ≤ (k + 1) * p := Nat.le_mul_of_pos_left _ (by omega)
        have h2 : 53 ≤ m.total t := by unfold Csr.total; omega
        omega
    obtain ⟨⟨s, b⟩, e, e1, _⟩ := nextChunk_ok (Csr.law g srcLen hsrc) p hp (min (m.total t) (k * p)) hk (by omega)
    rw [show (53 + 8 + p) = (Csr.codec t).headerSize + 8 + p from rfl, e, Res.ok_bind]
    simp only at e1 ⊢
    have h3 : s = min (m.total t) ((k + 1) * p) := by rw [e1, Nat.add_mul, Nat.one_mul]; omega
    rw [h3, show (Csr.codec t).headerSize + 8 + p = 53 + 8 + p from rfl, ih (k + 1)]
    rfl

/-- Serializing an original with spare capacity (`maxNumNonZeros` above the number of non-zeros, as most kernels produce) in
self-describing chunks never ends, for every such matrix and chunk size. -/
theorem C53_spare_capacity_endless_partial {t : VTy} {m : Csr} (g : m.Good t) (hv : m.isView = false) (hcap : m.nnz < m.maxNnz) (cs : Nat)
    (h : 114 ≤ cs) (fuel : Nat) : (Csr.codec t).outOfOrderChunks m cs fuel = .error (.ub "endless loop") := by
  have hn : m.length t = .ok (18 + 1 + 16 + 9 + 1 + 8 + (m.numRows + 1) * 8 + m.maxNnz * 8 + m.maxNnz * t.size) := by
    unfold Csr.length Csr.nzbForLength
    rw [hv]
    rfl
  have hlt : m.total t < 18 + 1 + 16 + 9 + 1 + 8 + (m.numRows + 1) * 8 + m.maxNnz * 8 + m.maxNnz * t.size := by
    have := Nat.mul_le_mul_right t.size (Nat.le_of_lt hcap)
    unfold Csr.total; omega
  unfold Codec.outOfOrderChunks
  rw [show (Csr.codec t).length m = m.length t from rfl, hn, Res.ok_bind, if_neg (by omega)]
  have := endless g hn hlt (cs - 61) (by omega) fuel 0
  rw [Nat.zero_mul, Nat.min_zero, show 53 + 8 + (cs - 61) = cs by omega] at this
  exact this

/-! ### C54: overload that allocates the buffer -/

/-- The overload allocates 8 bytes whatever the length and writes past them, for every sparse matrix. -/
theorem C54_alloc_overflow_partial {t : VTy} {m : Csr} (g : m.Good t) (cs : Nat) (h : cs = 0 ∨ 53 ≤ cs) :
    m.serializeAlloc t cs 0 = .error (.ub "out-of-bounds write") := by
  obtain ⟨n, hn, hn2⟩ := Csr.length_ok g
  have h53 : 53 ≤ m.total t := by unfold Csr.total; omega
  unfold Csr.serializeAlloc
  rw [hn, Res.ok_bind]
  have key : ∀ c, 53 ≤ c → m.serialize t ⟨8, fun _ => 0⟩ 0 c 0 = .error (.ub "out-of-bounds write") := by
    intro c hc
    unfold Csr.serialize
    rw [hn, Res.ok_bind]
    simp only
    rw [if_pos (show c ≠ 0 by omega), if_neg (show ¬ c < 53 by omega)]
    unfold Csr.headerIfFirst Csr.serializeHeader
    rw [if_pos rfl, Csr.countNonZeros_ok g, Res.ok_bind]
    have : putAll ⟨8, fun _ => 0⟩ 0 (m.headerBytes t m.nnz) = .error (.ub "out-of-bounds write") := by
      unfold Csr.headerBytes putAll putBytes Buf.copy
      have hl : (dfHeader 2 m.numRows m.numCols).length = 18 := by simp [dfHeader, le_length]
      rw [hl, if_neg (by omega), if_neg (by simp [Buf.ofList, hl]), if_pos (by simp)]
      rfl
    rw [this]
    rfl
  simp only
  split
  · exact key _ (by omega)
  · exact key _ (by omega)

/-! ### Non-vacuity -/

/-- A 2x3 dense matrix of one-byte values. -/
def exDense : Dense := ⟨2, 3, 3, Buf.ofList [1, 2, 3, 4, 5, 6]⟩

example : exDense.Good ⟨1, 1⟩ := ⟨rfl, by decide, by decide, by decide, by decide, by decide⟩

/-- A view of the last two rows of a sparse 3x4 matrix of one-byte values with entries `(0,0)=7`, `(1,1)=8`, `(2,0)=9`, `(2,3)=5`. -/
def exCsr : Csr := ⟨2, 4, 4, 3, true, 1, Buf.ofList (le 8 0 ++ le 8 1 ++ le 8 2 ++ le 8 4), Buf.ofList (le 8 0 ++ le 8 1 ++ le 8 0 ++ le 8 3),
  Buf.ofList [7, 8, 9, 5]⟩

example : exCsr.rowEntries ⟨1, 1⟩ 0 = [(1, [8])] ∧ exCsr.rowEntries ⟨1, 1⟩ 1 = [(0, [9]), (3, [5])] := by decide

theorem exCsr_good : exCsr.Good ⟨1, 1⟩ := by
  refine ⟨by decide, fun r hr => ?_, by decide, by decide, by decide, by decide, by decide, by decide, by decide⟩
  have : r = 0 ∨ r = 1 := by have : exCsr.numRows = 2 := rfl; omega
  rcases this with rfl | rfl <;> decide

example : exCsr.isView = true := rfl

/-- The same with spare capacity, as an original. -/
def exSpare : Csr := ⟨1, 4, 3, 1, false, 0, Buf.ofList (le 8 0 ++ le 8 1), Buf.ofList (le 8 2 ++ le 8 0 ++ le 8 0), Buf.ofList [7, 0, 0]⟩

example : exSpare.Good ⟨1, 1⟩ ∧ exSpare.isView = false ∧ exSpare.nnz < exSpare.maxNnz := by
  refine ⟨⟨by decide, fun r hr => ?_, by decide, by decide, by decide, by decide, by decide, by decide, by decide⟩, rfl, by decide⟩
  have : r = 0 := by have : exSpare.numRows = 1 := rfl; omega
  subst this; decide

end Verif.Ser
