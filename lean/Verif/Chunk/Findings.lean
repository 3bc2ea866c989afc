/-
  C362-C366: where chunked tensors do not do what a user expects.
-/
import Verif.Chunk.Props

namespace Verif.Chunk
open Verif Verif.Dense Verif.Tens

variable {α : Type}

/-! ### Memory outside of the tensor -/

/-- **C362.** `tryGet` should answer "nothing" for indexes outside of the tensor, as `trySet` does. It reads the flag of the
chunk first: for a tensor with one dimension every index in a chunk behind the last one reads memory outside of the flags. -/
theorem C362_tryGet_out_of_range_partial (t : CK α) (w : t.WF) (d c i : Nat) (hs : t.shape = [d]) (hc : t.chunk = [c])
    (hi : perDim d c ≤ i / c) : ∃ m, t.tryGet [i] = .error (.ub m) := by
  have hf : t.flags.size = perDim d c := by rw [w.flagSize]; simp [CK.per, hs, hc]
  unfold CK.tryGet
  have hr : t.rank = 1 := by simp [CK.rank, hs]
  rw [if_neg (by simp [hr]), if_neg (by omega)]
  have hl : t.chunkLin (t.chunkIds [i]) = i / c := by
    simp [CK.chunkLin, CK.chunkIds, CK.per, hs, hc, stridesFrom, linRest]
  rw [hl]
  refine ⟨"out-of-bounds read", ?_⟩
  have : t.flags.read (i / c) = .error (.ub "out-of-bounds read") := by
    unfold Buf.read; rw [if_neg (by omega)]
  rw [this]
  rfl

/-- An index the tensor does not have, and for which a checked read is asked: chunks of two, five elements, index six. -/
def exV : CK Nat := ⟨[5], [2], ⟨6, fun i => i⟩, ⟨3, fun _ => true⟩⟩
example : exV.WF := ⟨rfl, by decide, rfl, rfl, by decide⟩
example : perDim 5 2 ≤ 6 / 2 ∧ exV.trySet [6] 0 = .ok (exV, false) ∧ exV.tryGet [5] = .ok none := ⟨by decide, rfl, rfl⟩

/-- **C363.** Two tensors with the same shapes, the same loaded chunks and the same elements should be equal. The comparison
also compares the memory behind the last element of the chunks at the border: it says no for these two, whose five elements are
all zero. -/
theorem C363_equal_compares_padding_partial : ∃ t u : CK Nat, t.WF ∧ u.WF ∧ t.shape = [5] ∧ u.shape = [5] ∧ t.chunk = u.chunk ∧
    (∀ idx, Valid idx [5] → t.tryGet idx = .ok (some 0) ∧ u.tryGet idx = .ok (some 0)) ∧
    t.equal (· == ·) u = .ok false := by
  have wt : CK.WF (⟨[5], [2], ⟨6, fun _ => 0⟩, ⟨3, fun _ => true⟩⟩ : CK Nat) := ⟨rfl, by decide, rfl, rfl, by decide⟩
  have wu : CK.WF (⟨[5], [2], ⟨6, fun i => if i = 5 then 7 else 0⟩, ⟨3, fun _ => true⟩⟩ : CK Nat) :=
    ⟨rfl, by decide, rfl, rfl, by decide⟩
  refine ⟨_, _, wt, wu, rfl, rfl, rfl, fun idx h => ?_, rfl⟩
  cases h with
  | @cons i _ is _ hi hs =>
      cases hs
      have : i = 0 ∨ i = 1 ∨ i = 2 ∨ i = 3 ∨ i = 4 := by omega
      rcases this with rfl | rfl | rfl | rfl | rfl <;> exact ⟨rfl, rfl⟩

/-- **C364.** `trySetChunk` should refuse chunks the tensor does not have. It compares the chunk indexes with the extents of the
tensor: every chunk index between the number of chunks and the number of elements is accepted, and the values are written
outside of the tensor. -/
theorem C364_trySetChunk_out_of_range_partial (t : CK α) (w : t.WF) (d c k : Nat) (hs : t.shape = [d]) (hc : t.chunk = [c])
    (hk : perDim d c ≤ k) (hd : k < d) (values : Buf α) (hv : c ≤ values.size) :
    ∃ m, t.trySetChunk [k] values = .error (.ub m) := by
  have hm : t.mem.size = perDim d c * c := by rw [w.memSize]; simp [CK.per, hs, hc]
  have hc0 : 0 < c := by
    rcases Nat.eq_zero_or_pos c with h | h
    · exact absurd w.posC (by simp [hc, h])
    · exact h
  have hr : t.rank = 1 := by simp [CK.rank, hs]
  have he : t.elems = c := by simp [CK.elems, hc, count_eq]
  have hl : linRest [k] t.cstrides = k * c := by
    simp [CK.cstrides, CK.per, hs, hc, stridesFrom, linRest, he]
  unfold CK.trySetChunk
  rw [if_neg (by simp [hr]), if_neg (by omega), if_neg (by simp [hs]; omega)]
  simp only [hl, he]
  have hf : forLoop 0 c t.mem (fun i m => do
      let v ← values.read i
      m.write (k * c + i) v) = .error (.ub "out-of-bounds write") := by
    cases c with
    | zero => omega
    | succ c =>
        have h0 : values.read 0 = .ok (values.data 0) := Buf.read_eq (by omega)
        have h1 : ¬ (k * (c + 1) + 0 < t.mem.size) := by
          rw [hm]; have := Nat.mul_le_mul_right (c + 1) hk; omega
        have h2 : t.mem.write (k * (c + 1) + 0) (values.data 0) = .error (.ub "out-of-bounds write") := by
          unfold Buf.write; rw [if_neg h1]
        unfold forLoop
        simp only [Nat.sub_zero, forFrom, h0, Res.ok_bind, h2]
        rfl
  rw [hf]
  exact ⟨_, rfl⟩

example : exV.WF ∧ perDim 5 2 ≤ 3 ∧ 3 < 5 := ⟨⟨rfl, by decide, rfl, rfl, by decide⟩, by decide, by decide⟩

/-- **C365.** A chunked tensor should be makeable from a matrix. For every matrix with columns the constructor reads elements of
a vector that is still empty. -/
theorem C365_from_matrix_partial (x : DM α) (cx cy : Nat) (h : x.h.numCols ≠ 0) : ∃ m, ofMatrix x cx cy = .error (.ub m) := by
  unfold ofMatrix
  rw [if_neg h]
  exact ⟨_, rfl⟩

/-- **C366.** Writing the element of a tensor with rank zero should be possible. The unchecked write reads elements of empty
vectors, although the checked one works. -/
theorem C366_set_rank_zero_partial (t : CK α) (w : t.WF) (v : α) (hs : t.shape = []) :
    (∃ m, t.set [] v = .error (.ub m)) ∧ ∃ t', t.trySet [] v = .ok (t', true) ∧ t'.get [] = .ok v := by
  have hr : t.rank = 0 := by simp [CK.rank, hs]
  have h0 : 0 < t.mem.size := by rw [w.memSize]; exact w.pos0
  constructor
  · unfold CK.set CK.linearId
    rw [if_pos hr, Buf.write_eq h0, if_pos (by simp)]
    exact ⟨_, rfl⟩
  · obtain ⟨t', h1, _, _, h2, _⟩ := (C361_element_access t w [] v).1 (by rw [hs]; exact .nil)
    exact ⟨t', h1, h2⟩

example : CK.WF (⟨[], [], ⟨1, fun _ => 4⟩, ⟨1, fun _ => true⟩⟩ : CK Nat) := ⟨rfl, by decide, rfl, rfl, by decide⟩

end Verif.Chunk
