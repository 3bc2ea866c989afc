/- Round trip of sparse matrices. -/
import Verif.Ser.Dense

namespace Verif.Ser
open Verif

namespace Csr

/-- Row offset `r` of the matrix (view). -/
def off (m : Csr) (r : Nat) : Nat := u64 m.offs (m.offsBase + r)

/-- Number of stored entries. -/
def nnz (m : Csr) : Nat := m.off m.numRows - m.off 0

/-- Total number of serialized bytes. -/
def total (t : VTy) (m : Csr) : Nat := 53 + (m.numRows + 1) * 8 + m.nnz * 8 + m.nnz * t.size

/-- Matrices for which the round trip is claimed: well-formed originals and row views (also views of views), with sizes that fit the
format. -/
structure Good (t : VTy) (m : Csr) : Prop where
  offs : 8 * (m.offsBase + m.numRows + 1) ≤ m.offs.size
  mono : ∀ r, r < m.numRows → m.off r ≤ m.off (r + 1)
  colIdxs : 8 * m.off m.numRows ≤ m.colIdxs.size
  vals : t.size * m.off m.numRows ≤ m.vals.size
  cap : m.nnz ≤ m.maxNnz
  rows : m.numRows < 2 ^ 32
  cols : m.numCols < 2 ^ 32
  bytes : m.total t < 2 ^ 64
  code : t.code < 256

/-- Byte `i` of the row offsets relative to the first one. -/
def newByte (m : Csr) (i : Nat) : Byte := (le 8 (m.off (i / 8) - m.off 0)).getD (i % 8) 0

/-- The serialized form. -/
def stream (t : VTy) (m : Csr) (j : Nat) : Byte :=
  if j < 53 then (m.headerBytes t m.nnz).flatten.getD j 0
  else if j < 53 + (m.numRows + 1) * 8 then m.newByte (j - 53)
  else if j < 53 + (m.numRows + 1) * 8 + m.nnz * 8 then m.colIdxs.data (8 * m.off 0 + (j - (53 + (m.numRows + 1) * 8)))
  else m.vals.data (t.size * m.off 0 + (j - (53 + (m.numRows + 1) * 8 + m.nnz * 8)))

/-- An original of the same shape as `m`, with exactly the needed capacity. -/
structure Shape (t : VTy) (m o : Csr) : Prop where
  rows : o.numRows = m.numRows
  cols : o.numCols = m.numCols
  max : o.maxNnz = m.nnz
  alloc : o.numRowsAllocated = m.numRows
  before : o.before = false
  base : o.offsBase = 0
  offs : o.offs.size = 8 * (m.numRows + 1)
  colIdxs : o.colIdxs.size = 8 * m.nnz
  vals : o.vals.size = t.size * m.nnz

/-- Byte of a matrix of the shape of `m` at a stream position. -/
def byteAt (m o : Csr) (j : Nat) : Byte :=
  if j < 53 + (m.numRows + 1) * 8 then o.offs.data (j - 53)
  else if j < 53 + (m.numRows + 1) * 8 + m.nnz * 8 then o.colIdxs.data (j - (53 + (m.numRows + 1) * 8))
  else o.vals.data (j - (53 + (m.numRows + 1) * 8 + m.nnz * 8))

theorem header_length (t : VTy) (m : Csr) (n : Nat) : (m.headerBytes t n).flatten.length = 53 := by
  simp [headerBytes, dfHeader, dfBody, dfBlock, le_length]

variable {t : VTy} {m : Csr}

theorem rowOffset_ok (g : Good t m) {r : Nat} (h : r ≤ m.numRows) : m.rowOffset r = .ok (m.off r) := by
  have := g.offs
  unfold rowOffset readU64 readNum
  rw [if_pos (by omega)]
  rfl

theorem off_mono (g : Good t m) {r s : Nat} (h : r ≤ s) (hs : s ≤ m.numRows) : m.off r ≤ m.off s := by
  induction s with
  | zero => rw [show r = 0 by omega]
  | succ s ih =>
    rcases Nat.lt_or_ge r (s + 1) with h1 | h1
    · exact Nat.le_trans (ih (by omega) (by omega)) (g.mono s (by omega))
    · rw [show r = s + 1 by omega]

theorem off_lt (m : Csr) (r : Nat) : m.off r < 2 ^ 64 := u64_lt _ _

theorem countNonZeros_ok (g : Good t m) : m.countNonZeros = .ok m.nnz := by
  suffices h : Res.Ok m.countNonZeros fun n => n = m.nnz by obtain ⟨n, h1, h2⟩ := h; rw [h1, h2]
  unfold countNonZeros
  refine forLoop_ok (fun r n => n = m.off r - m.off 0) 0 m.numRows 0 (by omega) (by simp) fun r n _ hr hn => ?_
  unfold numNonZerosRow
  rw [rowOffset_ok g (by omega), Res.ok_bind, rowOffset_ok g (by omega), Res.ok_bind, Res.ok_bind, sub64_eq (g.mono r hr)]
  refine Res.ok_iff.2 ?_
  have h1 := off_mono g (r := 0) (s := r) (by omega) (by omega)
  have h2 := g.mono r hr
  have h3 := off_lt m (r + 1)
  rw [hn, Nat.mod_eq_of_lt (by omega)]
  omega

theorem newRows_ok (g : Good t m) : Res.Ok m.newRows fun b => b.size = 8 * (m.numRows + 1) ∧ ∀ i, i < 8 * (m.numRows + 1) → b.data i = m.newByte i := by
  unfold newRows
  rw [rowOffset_ok g (by omega), Res.ok_bind]
  refine forLoop_ok (fun r (b : Buf Byte) => b.size = 8 * (m.numRows + 1) ∧ ∀ i, i < 8 * r → b.data i = m.newByte i) 0 (m.numRows + 1) _ (by omega)
    ⟨rfl, fun i hi => by omega⟩ fun r b _ hr ⟨h1, h2⟩ => ?_
  rw [rowOffset_ok g (by omega), Res.ok_bind, sub64_eq (off_mono g (by omega) (by omega))]
  refine (putBytes_ok (by rw [le_length]; omega)).mono fun b' ⟨c1, c2⟩ => ⟨by omega, fun i hi => ?_⟩
  rw [le_length] at c2
  rw [c2 i]
  by_cases hi2 : 8 * r ≤ i ∧ i < 8 * r + 8
  · rw [if_pos hi2, newByte, show i / 8 = r by omega, show i % 8 = i - 8 * r by omega]
  · rw [if_neg hi2]; exact h2 i (by omega)

theorem nnz_eq (g : Good t m) : m.off 0 + m.nnz = m.off m.numRows := by
  have := off_mono g (r := 0) (s := m.numRows) (by omega) (by omega)
  unfold nnz; omega

theorem serializeHeader_ok (g : Good t m) (buf : Buf Byte) (base : Nat) (h : base + 53 ≤ buf.size) :
    Res.Ok (m.serializeHeader t buf base) fun p => p.1 = 53 ∧ Holds (stream t m) buf p.2 base 0 p.1 := by
  unfold serializeHeader
  rw [countNonZeros_ok g, Res.ok_bind]
  refine (putAll_ok _ (by rw [header_length]; exact h)).bind fun b ⟨b1, b2⟩ => Res.ok_iff.2 ⟨rfl, b1, fun i => ?_⟩
  rw [header_length] at b2
  rw [b2 i]
  by_cases hi : base ≤ i ∧ i < base + 53
  · rw [if_pos hi, if_pos (by simpa using hi), stream, if_pos (by omega)]; simp
  · rw [if_neg hi, if_neg (by simpa using hi)]

theorem length_ok (g : Good t m) : Res.Ok (m.length t) fun n => m.total t ≤ n := by
  unfold length nzbForLength
  rw [countNonZeros_ok g]
  by_cases h : m.isView = true
  · rw [if_pos h, Res.ok_bind]; exact Res.ok_iff.2 (by unfold total; omega)
  · rw [if_neg h, Res.ok_bind]
    refine Res.ok_iff.2 ?_
    have := g.cap
    have := Nat.mul_le_mul_right t.size g.cap
    unfold total; omega

theorem serialize_ok (g : Good t m) (buf : Buf Byte) (base cs from' : Nat) (h1 : 53 ≤ cs) (h2 : base + cs ≤ buf.size)
    (h3 : from' = 0 ∨ 53 ≤ from') (h4 : from' ≤ m.total t) :
    Res.Ok (m.serialize t buf base cs from') fun p => p.1 = min cs (m.total t - from') ∧ Holds (stream t m) buf p.2 base from' p.1 := by
  unfold serialize
  refine (length_ok g).bind fun len _ => ?_
  simp only
  rw [if_pos (show cs ≠ 0 by omega), if_neg (show ¬ cs < 53 by omega)]
  have hne := nnz_eq g
  refine Res.Ok.bind (P := fun p => Upto cs from' 53 p.1 ∧ Holds (stream t m) buf p.2 base from' p.1) ?_ ?_
  · unfold headerIfFirst
    by_cases h0 : from' = 0
    · subst h0
      rw [if_pos rfl]
      refine (serializeHeader_ok g buf base (by omega)).mono fun p ⟨p1, p2⟩ => ⟨?_, p2⟩
      rw [p1, Upto]; simp; omega
    · rw [if_neg h0]
      refine Res.ok_iff.2 ⟨?_, Holds.start _ _ _ _⟩
      rw [Upto, if_neg (by omega)]
  rintro ⟨b, buf1⟩ ⟨u1, o1⟩
  simp only at u1 o1 ⊢
  rw [countNonZeros_ok g, Res.ok_bind]
  refine (newRows_ok g).bind fun nr ⟨n1, n2⟩ => ?_
  refine (serSection_ok (idx := 53) (A := (m.numRows + 1) * 8) (Or.inr (by omega)) (fun k hk => ?_) h2 u1 o1).bind ?_
  · rw [Nat.zero_add, n2 k (by omega), stream, if_neg (by omega), if_pos (by omega), Nat.add_sub_cancel_left]
  rintro ⟨b2, buf2⟩ ⟨u2, o2⟩
  simp only at u2 o2 ⊢
  by_cases hc2 : cs ≤ b2
  · rw [if_pos hc2]
    refine Res.ok_iff.2 ⟨?_, o2⟩
    simp only [Upto] at u2
    split at u2 <;> (unfold total at *; omega)
  rw [if_neg hc2, rowOffset_ok g (by omega), Res.ok_bind]
  have hcol := g.colIdxs
  refine (serSection_ok (idx := 53 + (m.numRows + 1) * 8) (A := m.nnz * 8) (Or.inr (by omega)) (fun k hk => ?_) h2 u2 o2).bind ?_
  · rw [stream, if_neg (by omega), if_neg (by omega), if_pos (by omega)]; exact congrArg _ (by omega)
  rintro ⟨b3, buf3⟩ ⟨u3, o3⟩
  simp only at u3 o3 ⊢
  by_cases hc3 : cs ≤ b3
  · rw [if_pos hc3]
    refine Res.ok_iff.2 ⟨?_, o3⟩
    simp only [Upto] at u3
    split at u3 <;> (unfold total at *; omega)
  rw [if_neg hc3]
  have hval := g.vals
  have hmul : t.size * m.off 0 + m.nnz * t.size = t.size * m.off m.numRows := by rw [← hne, Nat.mul_add, Nat.mul_comm m.nnz]
  refine (serSection_ok (idx := 53 + (m.numRows + 1) * 8 + m.nnz * 8) (A := m.nnz * t.size) (Or.inr (by omega)) (fun k hk => ?_) h2 u3 o3).mono ?_
  · rw [stream, if_neg (by omega), if_neg (by omega), if_neg (by omega)]; exact congrArg _ (by omega)
  rintro ⟨b4, buf4⟩ ⟨u4, o4⟩
  refine ⟨?_, o4⟩
  simp only [Upto] at u4 ⊢
  rw [u4]
  unfold total at *
  split <;> omega

theorem header_fields {buf : Buf Byte} {base : Nat} (h : ∀ i, i < 53 → buf.data (base + i) = stream t m i) :
    HasBytes buf (base + 1) (le 1 2) ∧ HasBytes buf (base + 18) (le 1 t.code) ∧ HasBytes buf (base + 35) (le 4 m.numRows) ∧
      HasBytes buf (base + 39) (le 4 m.numCols) ∧ HasBytes buf (base + 43) (le 1 2) ∧ HasBytes buf (base + 45) (le 8 m.nnz) := by
  have hb : HasBytes buf base (m.headerBytes t m.nnz).flatten := by
    intro k hk
    rw [header_length] at hk
    rw [h k hk, stream, if_pos hk]
  simp only [headerBytes, dfHeader, dfBody, dfBlock, List.flatten_cons, List.flatten_nil, HasBytes.append, le_length, List.length_append] at hb
  obtain ⟨⟨_, b1, _, _⟩, b2, _, ⟨b3, b4, b5⟩, _, b6, _⟩ := hb
  exact ⟨b1, b2, b3, b4, b5, b6⟩

theorem nnz_lt (g : Good t m) : m.nnz < 2 ^ 64 := by
  have := g.bytes
  unfold total at this
  omega

theorem create_shape (t : VTy) (m : Csr) : Shape t m (create t m.numRows m.numCols m.nnz) := by
  dsimp only [create]
  constructor <;> dsimp only

theorem deserializeHeader_ok (g : Good t m) {buf : Buf Byte} {base : Nat} (hs : base + 53 ≤ buf.size)
    (h : ∀ i, i < 53 → buf.data (base + i) = stream t m i) (o : Option Csr) (ho : ∀ x, o = some x → Shape t m x) :
    Res.Ok (deserializeHeader t buf base o) fun o' => ∃ x, o' = some x ∧ Shape t m x ∧ ∀ y, o = some y → x = y := by
  obtain ⟨b1, b2, b3, b4, b5, b6⟩ := header_fields h
  have h1 := g.rows
  have h2 := g.cols
  have h3 := g.code
  have h4 := nnz_lt g
  unfold deserializeHeader dfDtype dfVtype
  rw [readNum_of b1 (by omega), Res.ok_bind, if_neg (by decide), readNum_of b2 (by omega), Res.ok_bind,
    if_neg (by rw [Nat.mod_eq_of_lt (by omega)]; simp), readNum_of b3 (by omega), Res.ok_bind, readNum_of b4 (by omega), Res.ok_bind,
    readNum_of b5 (by omega), Res.ok_bind, if_neg (by decide), if_pos (by decide), readNum_of b6 (by omega), Res.ok_bind,
    Nat.mod_eq_of_lt (by omega), Nat.mod_eq_of_lt (by omega), Nat.mod_eq_of_lt (by omega)]
  cases o with
  | none => exact Res.ok_iff.2 ⟨create t m.numRows m.numCols m.nnz, rfl, create_shape t m, by simp⟩
  | some x => exact Res.ok_iff.2 ⟨x, rfl, ho x rfl, by simp⟩

theorem deserialize_ok (g : Good t m) (buf : Buf Byte) (base cs : Nat) (oo : Option Csr) (from' : Nat)
    (hoo : ∀ x, oo = some x → Shape t m x) (h2 : base + cs ≤ buf.size)
    (h3 : (53 ≤ from' ∧ oo ≠ none) ∨ (from' = 0 ∧ 53 ≤ cs ∧ ∀ i, i < 53 → buf.data (base + i) = stream t m i)) :
    Res.Ok (deserialize t buf base cs oo from') fun o' => Shape t m o' ∧ ∃ o, (∀ x, oo = some x → o = x) ∧ ∀ j, 53 ≤ j →
      j < m.total t → byteAt m o' j = if from' ≤ j ∧ j < from' + cs then buf.data (base + (j - from')) else byteAt m o j := by
  unfold deserialize
  rw [if_neg (by omega)]
  refine Res.Ok.bind (P := fun p => p.1 = (if from' = 0 then 53 else 0) ∧ Shape t m p.2 ∧ ∀ x, oo = some x → p.2 = x) ?_ ?_
  · unfold targetIfFirst
    by_cases h0 : from' = 0
    · rw [if_pos h0, if_pos h0]
      obtain ⟨_, h5, h6⟩ : from' = 0 ∧ 53 ≤ cs ∧ ∀ i, i < 53 → buf.data (base + i) = stream t m i := by
        rcases h3 with h | h
        · omega
        · exact h
      refine (deserializeHeader_ok g (by omega) h6 oo hoo).bind fun o' ⟨x, hx, h1, h⟩ => ?_
      subst hx
      exact Res.ok_iff.2 ⟨rfl, h1, h⟩
    · rw [if_neg h0, if_neg h0]
      cases hc : oo with
      | none => simp [hc] at h3; omega
      | some x => exact Res.ok_iff.2 ⟨rfl, hoo x hc, by simp⟩
  rintro ⟨b, o⟩ ⟨c1, s, c2⟩
  simp only at c1 c2 s ⊢
  have hfrom : from' = 0 ∨ 53 ≤ from' := by rcases h3 with h | h <;> omega
  have hcs0 : from' = 0 → 53 ≤ cs := by intro h; rcases h3 with h' | h' <;> omega
  have u1 : Upto cs from' 53 b := by
    unfold Upto
    rcases hfrom with h | h
    · subst h; have := hcs0 rfl; simp at c1 ⊢; omega
    · rw [if_neg (by omega)] at c1 ⊢; exact c1
  rw [s.rows, s.max]
  have hoff1 : (if from' = 0 then 0 else sub64 from' 53) = if from' < 53 then 0 else from' - 53 := by
    rcases hfrom with h | h
    · subst h; simp
    · rw [if_neg (by omega), if_neg (by omega), sub64_eq h]
  refine (desSection_ok (idx := 53) (by rw [s.offs]) h2 u1 (fun h => ?_) hoff1).bind ?_
  · rcases hfrom with h' | h'
    · subst h'; simpa using c1
    · omega
  rintro ⟨b1, offs⟩ ⟨u2, z1, e1⟩
  simp only at u2 z1 e1 ⊢
  by_cases hc1 : cs ≤ b1
  · rw [if_pos hc1]
    refine Res.ok_iff.2 ⟨⟨rfl, s.cols, rfl, s.alloc, s.before, s.base, by rw [← s.offs]; exact z1, s.colIdxs, s.vals⟩, o, c2, fun j j1 j2 => ?_⟩
    simp only [Upto] at u2
    simp only [byteAt]
    by_cases hj : j < 53 + (m.numRows + 1) * 8
    · rw [if_pos hj, if_pos hj, e1 (j - 53) (by omega), show 53 + (j - 53) = j by omega]
    · rw [if_neg hj, if_neg hj, if_neg (show ¬ (from' ≤ j ∧ j < from' + cs) by split at u2 <;> omega)]
  rw [if_neg hc1]
  have hoff2 : (if from' < 53 + 8 * (m.numRows + 1) then 0 else sub64 from' (53 + 8 * (m.numRows + 1))) =
      if from' < 53 + 8 * (m.numRows + 1) then 0 else from' - (53 + 8 * (m.numRows + 1)) := by
    split
    · rfl
    · rw [sub64_eq (by omega)]
  refine (desSection_ok (idx := 53 + 8 * (m.numRows + 1)) (A := 8 * m.nnz) (dst := o.colIdxs) (by rw [s.colIdxs]) h2 u2 (fun h => ?_) hoff2).bind ?_
  · simp only [Upto] at u2; split at u2 <;> omega
  rintro ⟨b2, cols⟩ ⟨u3, z2, e2⟩
  simp only at u3 z2 e2 ⊢
  by_cases hc2 : cs ≤ b2
  · rw [if_pos hc2]
    refine Res.ok_iff.2 ⟨⟨rfl, s.cols, rfl, s.alloc, s.before, s.base, by rw [← s.offs]; exact z1, by rw [← s.colIdxs]; exact z2, s.vals⟩, o, c2,
      fun j j1 j2 => ?_⟩
    simp only [Upto] at u3
    simp only [byteAt]
    by_cases hj : j < 53 + (m.numRows + 1) * 8
    · rw [if_pos hj, if_pos hj, e1 (j - 53) (by omega), show 53 + (j - 53) = j by omega]
    · rw [if_neg hj, if_neg hj]
      by_cases hj2 : j < 53 + (m.numRows + 1) * 8 + m.nnz * 8
      · rw [if_pos hj2, if_pos hj2, e2 (j - (53 + (m.numRows + 1) * 8)) (by omega), show 53 + 8 * (m.numRows + 1) + (j - (53 + (m.numRows + 1) * 8)) = j by omega]
      · rw [if_neg hj2, if_neg hj2, if_neg (show ¬ (from' ≤ j ∧ j < from' + cs) by split at u3 <;> omega)]
  rw [if_neg hc2]
  have hoff3 : (if from' < 53 + 8 * (m.numRows + 1) + 8 * m.nnz then 0 else sub64 from' (53 + 8 * (m.numRows + 1) + 8 * m.nnz)) =
      if from' < 53 + 8 * (m.numRows + 1) + 8 * m.nnz then 0 else from' - (53 + 8 * (m.numRows + 1) + 8 * m.nnz) := by
    split
    · rfl
    · rw [sub64_eq (by omega)]
  refine (desSection_ok (idx := 53 + 8 * (m.numRows + 1) + 8 * m.nnz) (A := t.size * m.nnz) (dst := o.vals) (by rw [s.vals]) h2 u3 (fun h => ?_) hoff3).bind ?_
  · simp only [Upto] at u3; split at u3 <;> omega
  rintro ⟨b3, vals⟩ ⟨u4, z3, e3⟩
  simp only at u4 z3 e3 ⊢
  refine Res.ok_iff.2 ⟨⟨rfl, s.cols, rfl, s.alloc, s.before, s.base, by rw [← s.offs]; exact z1, by rw [← s.colIdxs]; exact z2,
    by rw [← s.vals]; exact z3⟩, o, c2, fun j j1 j2 => ?_⟩
  simp only [byteAt]
  by_cases hj : j < 53 + (m.numRows + 1) * 8
  · rw [if_pos hj, if_pos hj, e1 (j - 53) (by omega), show 53 + (j - 53) = j by omega]
  · rw [if_neg hj, if_neg hj]
    by_cases hj2 : j < 53 + (m.numRows + 1) * 8 + m.nnz * 8
    · rw [if_pos hj2, if_pos hj2, e2 (j - (53 + (m.numRows + 1) * 8)) (by omega), show 53 + 8 * (m.numRows + 1) + (j - (53 + (m.numRows + 1) * 8)) = j by omega]
    · unfold total at j2
      rw [Nat.mul_comm t.size] at e3
      rw [if_neg hj2, if_neg hj2, e3 (j - (53 + (m.numRows + 1) * 8 + m.nnz * 8)) (by omega),
        show 53 + 8 * (m.numRows + 1) + 8 * m.nnz + (j - (53 + (m.numRows + 1) * 8 + m.nnz * 8)) = j by omega]

theorem law (g : Good t m) (srcLen : Nat) (hsrc : m.length t = .ok srcLen) : Law (codec t) m srcLen (stream t m) (m.total t) (Shape t m) (byteAt m) := by
  refine ⟨by simp [codec], by simp only [codec, total]; omega, g.bytes, hsrc, ?_, fun o ho => ?_, ?_, fun buf base h => serializeHeader_ok g buf base h,
    ?_, ?_, ?_⟩
  · obtain ⟨n, h1, h2⟩ := length_ok g
    rw [hsrc] at h1; cases h1; exact h2
  · show o.length t = _
    unfold length nzbForLength isView
    rw [ho.alloc, ho.rows, ho.before, ho.max]
    simp [total]
    rfl
  · intro buf base cs from' h1 h2 h3 h4
    exact serialize_ok g buf base cs from' h1 h2 h3 h4
  · intro buf base o h1 h2 h3
    exact (deserializeHeader_ok g h1 h2 o h3).mono fun o' ⟨x, a, b, _⟩ => ⟨x, a, b⟩
  · intro buf base cs o from' h1 h2 _ h3
    simp only [codec] at h3 ⊢
    refine (deserialize_ok g buf base cs (some o) from' (by simpa using h1) h2 (by simpa using h3)).mono
      fun o' ⟨g1, x, g2, g3⟩ => ⟨g1, fun j j1 j2 => ?_⟩
    rw [g3 j j1 j2, g2 o rfl]
  · intro buf base cs h1 h2 h3
    simp only [codec] at h2 h3 ⊢
    refine (deserialize_ok g buf base cs none 0 (by simp) h1 (Or.inr ⟨rfl, h2, h3⟩)).mono
      fun o' ⟨g1, x, g2, g3⟩ => ⟨g1, fun j j1 j2 j3 => ?_⟩
    rw [g3 j j1 j2, if_pos (by omega), Nat.sub_zero]

end Csr
end Verif.Ser
