/- Round trip of dense matrices. -/
import Verif.Ser.Chunks

namespace Verif.Ser
open Verif

namespace Dense

/-- Size of the values in bytes. -/
def valuesSize (t : VTy) (m : Dense) : Nat := m.numRows * m.numCols * t.size

/-- Matrices for which the round trip is claimed: no gaps between rows (an original, or a view of whole rows), dimensions that fit
into the 32 bits of the format, a size in bytes that fits into `size_t`, a one-byte type code. -/
structure Good (t : VTy) (m : Dense) : Prop where
  contiguous : m.rowSkip = m.numCols
  vals : m.valuesSize t ≤ m.vals.size
  rows : m.numRows < 2 ^ 32
  cols : m.numCols < 2 ^ 32
  bytes : m.length t < 2 ^ 64
  code : t.code < 256

/-- The serialized form. -/
def stream (t : VTy) (m : Dense) (j : Nat) : Byte := if j < 45 then (m.headerBytes t).flatten.getD j 0 else m.vals.data (j - 45)

/-- Same shape as `m`. -/
structure Shape (t : VTy) (m o : Dense) : Prop where
  rows : o.numRows = m.numRows
  cols : o.numCols = m.numCols
  skip : o.rowSkip = m.numCols
  size : o.vals.size = m.valuesSize t

def byteAt (o : Dense) (j : Nat) : Byte := o.vals.data (j - 45)

theorem header_length (t : VTy) (m : Dense) : (m.headerBytes t).flatten.length = 45 := by
  simp [headerBytes, dfHeader, dfBody, dfBlock, le_length]

variable {t : VTy} {m : Dense}

theorem header_fields {buf : Buf Byte} {base : Nat} (h : ∀ i, i < 45 → buf.data (base + i) = stream t m i) :
    HasBytes buf (base + 1) (le 1 1) ∧ HasBytes buf (base + 18) (le 1 t.code) ∧ HasBytes buf (base + 35) (le 4 m.numRows) ∧
      HasBytes buf (base + 39) (le 4 m.numCols) ∧ HasBytes buf (base + 43) (le 1 1) := by
  have hb : HasBytes buf base (m.headerBytes t).flatten := by
    intro k hk
    rw [header_length] at hk
    rw [h k hk, stream, if_pos hk]
  simp only [headerBytes, dfHeader, dfBody, dfBlock, List.flatten_cons, List.flatten_nil, HasBytes.append, le_length, List.length_append] at hb
  obtain ⟨⟨_, b1, _, _⟩, b2, _, ⟨b3, b4, b5⟩, _⟩ := hb
  exact ⟨b1, b2, b3, b4, b5⟩

theorem deserializeHeader_ok (g : Good t m) {buf : Buf Byte} {base : Nat} (hs : base + 45 ≤ buf.size)
    (h : ∀ i, i < 45 → buf.data (base + i) = stream t m i) (o : Option Dense) (ho : ∀ x, o = some x → Shape t m x) (junk : Nat → Byte) :
    Res.Ok (deserializeHeader t buf base o junk) fun x => Shape t m x ∧ ∀ y, o = some y → x = y := by
  obtain ⟨b1, b2, b3, b4, b5⟩ := header_fields h
  have h1 := g.rows
  have h2 := g.cols
  have h3 := g.code
  unfold deserializeHeader dfDtype dfVtype
  rw [readNum_of b1 (by omega), Res.ok_bind, if_neg (by decide), readNum_of b2 (by omega), Res.ok_bind,
    if_neg (by rw [Nat.mod_eq_of_lt (by omega)]; simp), readNum_of b3 (by omega), Res.ok_bind, readNum_of b4 (by omega), Res.ok_bind,
    readNum_of b5 (by omega), Res.ok_bind, if_neg (by decide), if_pos (by decide), Nat.mod_eq_of_lt (by omega), Nat.mod_eq_of_lt (by omega)]
  cases o with
  | none => exact Res.ok_iff.2 ⟨⟨rfl, rfl, rfl, rfl⟩, by simp⟩
  | some x => exact Res.ok_iff.2 ⟨ho x rfl, by simp⟩

theorem deserialize_ok (g : Good t m) (junk : Nat → Byte) (buf : Buf Byte) (base cs : Nat) (oo : Option Dense) (from' : Nat)
    (hoo : ∀ x, oo = some x → Shape t m x) (h2 : base + cs ≤ buf.size) (hend : from' ≤ 45 + m.valuesSize t)
    (h3 : (45 ≤ from' ∧ oo ≠ none) ∨ (from' = 0 ∧ 45 ≤ cs ∧ ∀ i, i < 45 → buf.data (base + i) = stream t m i)) :
    Res.Ok (deserialize t buf base cs oo from' junk) fun o' => Shape t m o' ∧ ∃ o, (∀ x, oo = some x → o = x) ∧ ∀ j, 45 ≤ j →
      j < 45 + m.valuesSize t → byteAt o' j = if from' ≤ j ∧ j < from' + cs then buf.data (base + (j - from')) else byteAt o j := by
  unfold deserialize
  rw [if_neg (by omega)]
  refine Res.Ok.bind (P := fun p => p.1 = (if from' = 0 then 45 else 0) ∧ Shape t m p.2 ∧ ∀ x, oo = some x → p.2 = x) ?_ ?_
  · unfold targetIfFirst
    by_cases h0 : from' = 0
    · rw [if_pos h0, if_pos h0]
      obtain ⟨_, h5, h6⟩ : from' = 0 ∧ 45 ≤ cs ∧ ∀ i, i < 45 → buf.data (base + i) = stream t m i := by
        rcases h3 with h | h
        · omega
        · exact h
      exact (deserializeHeader_ok g (by omega) h6 oo hoo junk).bind fun x ⟨h1, h⟩ => Res.ok_iff.2 ⟨rfl, h1, h⟩
    · rw [if_neg h0, if_neg h0]
      cases hc : oo with
      | none => simp [hc] at h3; omega
      | some x => exact Res.ok_iff.2 ⟨rfl, hoo x hc, by simp⟩
  · rintro ⟨b, o'⟩ ⟨c1, h1, c2⟩
    simp only at c1 c2 h1 ⊢
    have hsz : o'.vals.size = m.valuesSize t := h1.size
    have hV : o'.numRows * o'.numCols * t.size = m.valuesSize t := by rw [h1.rows, h1.cols]; rfl
    rw [hV]
    have hb : from' + b = 45 + (from' - 45) := by
      rcases h3 with h0 | h0
      · rw [if_neg (by omega)] at c1; omega
      · rw [if_pos h0.1] at c1; omega
    have hcb : b ≤ cs := by
      rcases h3 with h0 | h0
      · rw [if_neg (by omega)] at c1; omega
      · rw [if_pos h0.1] at c1; omega
    have hoff : (if from' = 0 then 0 else sub64 from' 45) = from' - 45 := by
      split
      · omega
      · rw [sub64_eq (by omega)]
    rw [hoff]
    have hn : bytesToCopy (m.valuesSize t) 45 cs from' b = min cs (45 + m.valuesSize t - from') - b := by
      unfold bytesToCopy
      rcases h3 with h0 | h0
      · rw [if_neg (by omega)] at c1
        rw [if_neg (by omega), sub64_eq (by omega), sub64_eq (by omega)]
        split <;> omega
      · rw [if_pos h0.1] at c1
        rw [if_pos (by omega), sub64_eq (by omega)]
        split <;> omega
    rw [hn]
    refine (Buf.copy_ok (by omega) (by omega)).bind fun v ⟨v1, v2⟩ => Res.ok_iff.2 ⟨⟨h1.rows, h1.cols, h1.skip, by simp only; omega⟩, o', c2, fun j j1 j2 => ?_⟩
    simp only [byteAt]
    rw [v2 (j - 45)]
    by_cases hj : from' ≤ j ∧ j < from' + cs
    · rw [if_pos (by omega), if_pos hj]; congr 1; omega
    · rw [if_neg (by omega), if_neg hj]

theorem law (g : Good t m) (junk : Nat → Byte) :
    Law (codec t junk) m (m.length t) (stream t m) (45 + m.valuesSize t) (Shape t m) byteAt := by
  have hlen : m.length t = 45 + m.valuesSize t := by simp [length, valuesSize]
  have hser : ∀ buf base, base + 45 ≤ buf.size →
      Res.Ok (m.serializeHeader t buf base) fun p => p.1 = 45 ∧ Holds (stream t m) buf p.2 base 0 p.1 := by
    intro buf base h
    unfold serializeHeader
    refine (putAll_ok _ (by rw [header_length]; exact h)).bind fun b ⟨b1, b2⟩ => Res.ok_iff.2 ⟨rfl, b1, fun i => ?_⟩
    rw [header_length] at b2
    rw [b2 i]
    by_cases hi : base ≤ i ∧ i < base + 45
    · rw [if_pos hi, if_pos (by simpa using hi), stream, if_pos (by omega)]; simp
    · rw [if_neg hi, if_neg (by simpa using hi)]
  refine ⟨by simp [codec], by simp [codec], by rw [← hlen]; exact g.bytes, rfl, by omega, fun o ho => ?_, ?_, hser, ?_, ?_, ?_⟩
  · show Except.ok (o.length t) = Except.ok (45 + m.valuesSize t)
    simp [length, valuesSize, ho.rows, ho.cols]
  · intro buf base cs from' h1 h2 h3 h4
    simp only [codec] at h1 h3
    show Res.Ok (m.serialize t buf base cs from') _
    unfold serialize
    simp only
    rw [if_pos (show cs ≠ 0 by omega), if_neg (show ¬ (from' = 0 ∧ cs < 45) by omega)]
    refine Res.Ok.bind (P := fun p => p.1 = (if from' = 0 then 45 else 0) ∧ Holds (stream t m) buf p.2 base from' p.1) ?_ ?_
    · unfold headerIfFirst
      by_cases h0 : from' = 0
      · rw [if_pos h0, if_pos h0, h0]; exact hser buf base (by omega)
      · rw [if_neg h0, if_neg h0]; exact Res.ok_iff.2 ⟨rfl, Holds.start _ _ _ _⟩
    · rintro ⟨b, buf'⟩ ⟨c1, c2⟩
      simp only at c1 c2 ⊢
      have hv := g.vals
      have hV : m.numRows * m.numCols * t.size = m.valuesSize t := rfl
      rw [hV]
      have hn : bytesToCopy (m.valuesSize t) 45 cs from' b = min cs (45 + m.valuesSize t - from') - b := by
        unfold bytesToCopy
        rcases h3 with h0 | h0
        · rw [if_pos h0] at c1
          rw [if_pos (by omega), sub64_eq (by omega)]
          split <;> omega
        · rw [if_neg (by omega)] at c1
          rw [if_neg (by omega), sub64_eq (by omega), sub64_eq (by omega)]
          split <;> omega
      have hst : (if from' > 45 then from' - 45 else 0) = from' - 45 := by split <;> omega
      rw [hn, hst]
      have hb : b ≤ min cs (45 + m.valuesSize t - from') := by
        rcases h3 with h0 | h0
        · rw [if_pos h0] at c1; omega
        · rw [if_neg (by omega)] at c1; omega
      have hpos : from' + b = 45 + (from' - 45) := by
        rcases h3 with h0 | h0
        · rw [if_pos h0] at c1; omega
        · rw [if_neg (by omega)] at c1; omega
      refine (c2.copy (by omega) (by omega) fun k hk => ?_).bind fun buf2 d => Res.ok_iff.2 ⟨by simp only; omega, d⟩
      rw [stream, if_neg (by omega)]
      congr 1; omega
  · intro buf base o h1 h2 h3
    show Res.Ok (deserializeHeader t buf base o junk >>= fun m => Except.ok (some m)) _
    exact (deserializeHeader_ok g h1 h2 o h3 junk).bind fun x ⟨h, _⟩ => Res.ok_iff.2 ⟨x, rfl, h⟩
  · intro buf base cs o from' h1 h2 hend h3
    simp only [codec] at h3 ⊢
    refine (deserialize_ok g junk buf base cs (some o) from' (by simpa using h1) h2 hend (by simpa using h3)).mono
      fun o' ⟨g1, x, g2, g3⟩ => ⟨g1, fun j j1 j2 => ?_⟩
    rw [g3 j j1 j2, g2 o rfl]
  · intro buf base cs h1 h2 h3
    simp only [codec] at h2 h3 ⊢
    refine (deserialize_ok g junk buf base cs none 0 (by simp) h1 (by omega) (Or.inr ⟨rfl, h2, h3⟩)).mono
      fun o' ⟨g1, x, g2, g3⟩ => ⟨g1, fun j j1 j2 j3 => ?_⟩
    rw [g3 j j1 j2, if_pos (by omega), Nat.sub_zero]

/-- The bytes of cell `(r, c)`. -/
def cell (t : VTy) (m : Dense) (r c : Nat) : List Byte := bytesAt m.vals ((r * m.rowSkip + c) * t.size) t.size

/-- Equal matrices: same dimensions and the same value, byte by byte, in every cell. -/
def Same (t : VTy) (m o : Dense) : Prop :=
  o.numRows = m.numRows ∧ o.numCols = m.numCols ∧ ∀ r c, r < m.numRows → c < m.numCols → o.cell t r c = m.cell t r c

theorem same_of_complete (g : Good t m) {junk : Nat → Byte} {o : Dense}
    (h : Complete (codec t junk) (stream t m) (45 + m.valuesSize t) (Shape t m) byteAt o) : Same t m o := by
  obtain ⟨hs, hb⟩ := h
  refine ⟨hs.rows, hs.cols, fun r c hr hc => ?_⟩
  unfold cell bytesAt
  apply List.map_congr_left
  intro k hk
  have hk := List.mem_range.1 hk
  rw [hs.skip, g.contiguous]
  have h1 : r * m.numCols + c < m.numRows * m.numCols := rm_lt hr hc (Nat.le_refl _)
  have h2 : (r * m.numCols + c) * t.size + k < m.numRows * m.numCols * t.size := rm_lt h1 hk (Nat.le_refl _)
  have := hb (45 + ((r * m.numCols + c) * t.size + k)) (by simp [codec]) (by unfold valuesSize; omega)
  simp only [byteAt, stream] at this
  rw [if_neg (by omega), Nat.add_sub_cancel_left] at this
  exact this

end Dense
end Verif.Ser
