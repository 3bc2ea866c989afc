/- Byte encodings, header pieces, section copies. -/
import Verif.Ser.Model
import Mathlib.Data.List.GetD

namespace Verif.Ser
open Verif

theorem le_length (k n : Nat) : (le k n).length = k := by
  induction k generalizing n with
  | zero => rfl
  | succ k ih => simp [le, ih]

theorem unle_le (k n : Nat) : unle (le k n) = n % 256 ^ k := by
  induction k generalizing n with
  | zero => simp [le, unle, Nat.mod_one]
  | succ k ih =>
    simp only [le, unle, ih]
    rw [Nat.pow_succ, Nat.mul_comm (256 ^ k) 256, Nat.mod_mul]

theorem unle_lt (l : List Byte) : unle l < 256 ^ l.length := by
  induction l with
  | nil => simp [unle]
  | cons b l ih =>
    simp only [unle, List.length_cons, Nat.pow_succ]
    have := b.isLt
    omega

theorem bytesAt_length (b : Buf Byte) (i n : Nat) : (bytesAt b i n).length = n := by simp [bytesAt]

theorem u64_lt (b : Buf Byte) (i : Nat) : u64 b i < 2 ^ 64 := by
  have := unle_lt (bytesAt b (8 * i) 8)
  rw [bytesAt_length] at this
  simpa [u64] using this

/-- Bytes equal to a list at a position. -/
def HasBytes (b : Buf Byte) (i : Nat) (l : List Byte) : Prop := ∀ k, k < l.length → b.data (i + k) = l.getD k 0

theorem HasBytes.bytesAt {b : Buf Byte} {i : Nat} {l : List Byte} (h : HasBytes b i l) : bytesAt b i l.length = l := by
  apply List.ext_getElem
  · simp [bytesAt_length]
  · intro k h1 h2
    simp only [Ser.bytesAt, List.getElem_map, List.getElem_range]
    rw [h k h2, List.getD_eq_getElem _ _ h2]

theorem HasBytes.append {b : Buf Byte} {i : Nat} {l l' : List Byte} : HasBytes b i (l ++ l') ↔ HasBytes b i l ∧ HasBytes b (i + l.length) l' := by
  unfold HasBytes
  constructor
  · intro h
    refine ⟨fun k hk => ?_, fun k hk => ?_⟩
    · rw [h k (by simp; omega), List.getD_append _ _ _ _ hk]
    · have := h (l.length + k) (by simp; omega)
      rw [Nat.add_assoc, this, List.getD_append_right _ _ _ _ (by omega)]
      congr 1; omega
  · rintro ⟨h1, h2⟩ k hk
    by_cases hl : k < l.length
    · rw [h1 k hl, List.getD_append _ _ _ _ hl]
    · have := h2 (k - l.length) (by simp at hk; omega)
      rw [List.getD_append_right _ _ _ _ (by omega), ← this]
      congr 1; omega

theorem readNum_of {b : Buf Byte} {i n x : Nat} (h : HasBytes b i (le n x)) (hs : i + n ≤ b.size) : readNum b i n = .ok (x % 256 ^ n) := by
  unfold readNum
  rw [if_pos hs]
  have := h.bytesAt
  rw [le_length] at this
  rw [this, unle_le]

theorem putBytes_ok {buf : Buf Byte} {i : Nat} {bs : List Byte} (h : i + bs.length ≤ buf.size) :
    Res.Ok (putBytes buf i bs) fun b => b.size = buf.size ∧
      ∀ j, b.data j = if i ≤ j ∧ j < i + bs.length then bs.getD (j - i) 0 else buf.data j := by
  unfold putBytes
  refine (Buf.copy_ok (Or.inr (by simp [Buf.ofList])) (Or.inr h)).mono fun b ⟨h1, h2⟩ => ⟨h1, fun j => ?_⟩
  rw [h2 j, Nat.zero_add]
  rfl

theorem putAll_ok (ps : List (List Byte)) : ∀ {buf : Buf Byte} {i : Nat}, i + ps.flatten.length ≤ buf.size →
    Res.Ok (putAll buf i ps) fun b => b.size = buf.size ∧
      ∀ j, b.data j = if i ≤ j ∧ j < i + ps.flatten.length then ps.flatten.getD (j - i) 0 else buf.data j := by
  induction ps with
  | nil =>
    intro buf i _
    refine ⟨buf, rfl, rfl, fun j => ?_⟩
    simp
  | cons p ps ih =>
    intro buf i h
    simp only [List.flatten_cons, List.length_append] at h ⊢
    unfold putAll
    refine (putBytes_ok (by omega)).bind fun b ⟨b1, b2⟩ => ?_
    refine (ih (by omega)).mono fun b' ⟨c1, c2⟩ => ⟨by omega, fun j => ?_⟩
    rw [c2 j]
    by_cases h1 : i + p.length ≤ j ∧ j < i + p.length + ps.flatten.length
    · rw [if_pos h1, if_pos (by omega), List.getD_append_right _ _ _ _ (by omega)]
      congr 1; omega
    · rw [if_neg h1, b2 j]
      by_cases h2 : i ≤ j ∧ j < i + p.length
      · rw [if_pos h2, if_pos (by omega), List.getD_append _ _ _ _ (by omega)]
      · rw [if_neg h2, if_neg (by omega)]

theorem sub64_eq {a b : Nat} (h : b ≤ a) : sub64 a b = a - b := by simp [sub64, h]

/-- Bytes of the chunk produced before the section starting at stream position `idx`. -/
def Upto (cs from' idx b : Nat) : Prop := b = if from' < idx then min cs (idx - from') else 0

/-- The buffer holds `b` bytes of the stream from `from'`, the rest is as in `buf0`. -/
def Holds (stream : Nat → Byte) (buf0 buf : Buf Byte) (base from' b : Nat) : Prop :=
  buf.size = buf0.size ∧ ∀ i, buf.data i = if base ≤ i ∧ i < base + b then stream (from' + (i - base)) else buf0.data i

theorem Holds.start (stream : Nat → Byte) (buf : Buf Byte) (base from' : Nat) : Holds stream buf buf base from' 0 :=
  ⟨rfl, fun i => by rw [if_neg (by omega)]⟩

/-- Copying `n` stream bytes right after the `b` bytes. -/
theorem Holds.copy {stream : Nat → Byte} {buf0 buf : Buf Byte} {base from' b : Nat} (h : Holds stream buf0 buf base from' b) {src : Buf Byte}
    {s n : Nat} (h1 : n = 0 ∨ s + n ≤ src.size) (h2 : n = 0 ∨ base + b + n ≤ buf0.size)
    (h3 : ∀ k, k < n → src.data (s + k) = stream (from' + b + k)) :
    Res.Ok (src.copy s buf (base + b) n) fun buf' => Holds stream buf0 buf' base from' (b + n) := by
  refine (Buf.copy_ok h1 (by rw [h.1]; exact h2)).mono fun buf' ⟨c1, c2⟩ => ⟨by rw [c1, h.1], fun i => ?_⟩
  rw [c2 i]
  by_cases a : base + b ≤ i ∧ i < base + b + n
  · rw [if_pos a, if_pos (by omega), h3 (i - (base + b)) (by omega)]
    congr 1; omega
  · rw [if_neg a, h.2 i]
    by_cases a2 : base ≤ i ∧ i < base + b
    · rw [if_pos a2, if_pos (by omega)]
    · rw [if_neg a2, if_neg (by omega)]

/-- One section of the serialized stream. -/
theorem serSection_ok {stream : Nat → Byte} {src : Buf Byte} {srcBase A : Nat} {buf0 buf : Buf Byte} {base cs from' idx b : Nat}
    (hsrc : A = 0 ∨ srcBase + A ≤ src.size) (hst : ∀ k, k < A → src.data (srcBase + k) = stream (idx + k)) (hbuf : base + cs ≤ buf0.size)
    (hu : Upto cs from' idx b) (hh : Holds stream buf0 buf base from' b) :
    Res.Ok (Csr.serSection src srcBase A buf base cs from' idx b) fun p =>
      Upto cs from' (idx + A) p.1 ∧ Holds stream buf0 p.2 base from' p.1 := by
  unfold Csr.serSection Upto at *
  by_cases h : from' < idx + A
  · rw [if_pos h]
    by_cases h1 : from' < idx
    · have hb : b = min cs (idx - from') := by rw [hu, if_pos h1]
      rw [if_pos h1, if_neg (by omega), sub64_eq (by omega)]
      by_cases h2 : cs - b > A
      · rw [if_pos h2]
        refine (hh.copy (by omega) (by omega) fun k hk => ?_).bind fun buf' g => Res.ok_iff.2 ⟨?_, g⟩
        · rw [Nat.add_zero, hst k hk]; congr 1; omega
        · simp only; rw [if_pos h]; omega
      · rw [if_neg h2]
        refine (hh.copy (by omega) (by omega) fun k hk => ?_).bind fun buf' g => Res.ok_iff.2 ⟨?_, g⟩
        · rw [Nat.add_zero, hst k (by omega)]; congr 1; omega
        · simp only; rw [if_pos h]; omega
    · have hb : b = 0 := by rw [hu, if_neg h1]
      subst hb
      have e : (if from' > idx then from' - idx else 0) = from' - idx := by split <;> omega
      rw [e, if_neg h1, sub64_eq (by omega), sub64_eq (by omega)]
      by_cases h2 : cs > A + idx - from'
      · rw [if_pos h2]
        refine (hh.copy (by omega) (by omega) fun k hk => ?_).bind fun buf' g => Res.ok_iff.2 ⟨?_, g⟩
        · rw [Nat.add_assoc, hst (from' - idx + k) (by omega)]; congr 1; omega
        · simp only; rw [if_pos h]; omega
      · rw [if_neg h2]
        refine (hh.copy (by omega) (by omega) fun k hk => ?_).bind fun buf' g => Res.ok_iff.2 ⟨?_, g⟩
        · rw [Nat.add_assoc, hst (from' - idx + k) (by omega)]; congr 1; omega
        · simp only; rw [if_pos h]; omega
  · rw [if_neg h]
    refine Res.ok_iff.2 ⟨?_, hh⟩
    simp only
    rw [hu, if_neg (by omega), if_neg h]

/-- One section of a chunk being deserialized: exactly the bytes of the chunk's range are replaced. -/
theorem desSection_ok {dst : Buf Byte} {A off : Nat} {buf : Buf Byte} {base cs from' idx b : Nat} (hdst : A ≤ dst.size)
    (hbuf : base + cs ≤ buf.size) (hu : Upto cs from' idx b) (hb : from' < idx → b = idx - from') (hoff : off = if from' < idx then 0 else from' - idx) :
    Res.Ok (Csr.desSection dst A off buf base cs from' idx b) fun p => Upto cs from' (idx + A) p.1 ∧ p.2.size = dst.size ∧
      ∀ i, i < A → p.2.data i = if from' ≤ idx + i ∧ idx + i < from' + cs then buf.data (base + (idx + i - from')) else dst.data i := by
  unfold Csr.desSection Upto at *
  by_cases h : from' < idx + A
  · rw [if_pos h]
    by_cases h1 : from' < idx
    · have hb' : b = idx - from' := hb h1
      rw [if_pos h1] at hu
      rw [if_pos h1] at hoff
      subst hoff
      rw [if_pos h1, sub64_eq (by omega)]
      by_cases h2 : from' + cs > idx + A
      · rw [if_pos h2]
        refine (Buf.copy_ok (by omega) (by omega)).bind fun d ⟨g1, g2⟩ => Res.ok_iff.2 ⟨?_, g1, fun i hi => ?_⟩
        · simp only; rw [if_pos h]; omega
        · simp only; rw [g2 i, if_pos (by omega), if_pos (by omega)]; congr 1; omega
      · rw [if_neg h2]
        refine (Buf.copy_ok (by omega) (by omega)).bind fun d ⟨g1, g2⟩ => Res.ok_iff.2 ⟨?_, g1, fun i hi => ?_⟩
        · simp only; rw [if_pos h]; omega
        · simp only; rw [g2 i]
          by_cases h3 : idx + i < from' + cs
          · rw [if_pos (by omega), if_pos (by omega)]; congr 1; omega
          · rw [if_neg (by omega), if_neg (by omega)]
    · have hb' : b = 0 := by rw [hu, if_neg h1]
      rw [if_neg h1] at hoff
      subst hb' hoff
      rw [if_neg h1, sub64_eq (by omega), sub64_eq (by omega)]
      by_cases h2 : from' + cs > idx + A
      · rw [if_pos h2]
        refine (Buf.copy_ok (by omega) (by omega)).bind fun d ⟨g1, g2⟩ => Res.ok_iff.2 ⟨?_, g1, fun i hi => ?_⟩
        · simp only; rw [if_pos h]; omega
        · simp only; rw [g2 i]
          by_cases h3 : from' ≤ idx + i
          · rw [if_pos (by omega), if_pos (by omega)]; congr 1; omega
          · rw [if_neg (by omega), if_neg (by omega)]
      · rw [if_neg h2]
        refine (Buf.copy_ok (by omega) (by omega)).bind fun d ⟨g1, g2⟩ => Res.ok_iff.2 ⟨?_, g1, fun i hi => ?_⟩
        · simp only; rw [if_pos h]; omega
        · simp only; rw [g2 i]
          by_cases h3 : from' ≤ idx + i ∧ idx + i < from' + cs
          · rw [if_pos (by omega), if_pos (by omega)]; congr 1; omega
          · rw [if_neg (by omega), if_neg (by omega)]
  · rw [if_neg h]
    refine Res.ok_iff.2 ⟨?_, rfl, fun i hi => ?_⟩
    · simp only; rw [hu, if_neg (by omega), if_neg h]
    · simp only; rw [if_neg (by omega)]

end Verif.Ser
