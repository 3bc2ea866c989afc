/-
  C367: reversal of the bytes of elements read from files of the other byte order.
-/
import Verif.Chunk.Model

namespace Verif.Chunk
open Verif

/-- The copy of an element. -/
theorem copy_bytes (mem : Buf Nat) (p size : Nat) (h : p + size ≤ mem.size) :
    Res.Ok (forLoop 0 size [] fun j (tmp : List Nat) => do
      let b ← mem.read (p + j)
      .ok (tmp ++ [b])) (fun tmp => tmp = (List.range size).map fun j => mem.data (p + j)) := by
  refine forLoop_ok (fun k tmp => tmp = (List.range k).map fun j => mem.data (p + j)) 0 size [] (Nat.zero_le _) rfl ?_
  intro j tmp _ hj hI
  rw [Buf.read_eq (by omega)]
  refine ⟨_, rfl, ?_⟩
  rw [hI, List.range_succ, List.map_append]; rfl

/-- **C367.** Reversing the bytes of an array should exchange byte `j` of each element with byte `size - 1 - j` of it and touch
nothing else. For every memory and every element in it: if a byte follows the element, it is overwritten by the first byte of the
element, the first byte of the element stays, and the others are moved one too far; if none follows, memory outside of the
allocation is written. -/
theorem C367_reverse_bytes_partial (mem : Buf Nat) (p size : Nat) (hs : 0 < size) :
    (p + size < mem.size → ∃ m, reverseArray size mem p 1 = .ok m ∧ m.data p = mem.data p ∧
      ∀ j, j < size → m.data (p + (size - j)) = mem.data (p + j)) ∧
    (p + size = mem.size → ∃ e, reverseArray size mem p 1 = .error (.ub e)) := by
  have one : reverseArray size mem p 1 = (do
      let tmp ← forLoop 0 size [] fun j (tmp : List Nat) => do
        let b ← mem.read (p + j)
        .ok (tmp ++ [b])
      forLoop 0 size mem fun j mem => mem.write (p + size - j) (tmp.getD j 0)) := by
    unfold reverseArray
    rw [forLoop_succ _ _ _ (by omega)]
    simp only [Nat.zero_mul, Nat.add_zero, Nat.zero_add]
    generalize (forLoop 0 size [] fun j (tmp : List Nat) => do
        let b ← mem.read (p + j)
        Except.ok (tmp ++ [b])) = r
    cases r with
    | error e => rfl
    | ok tmp =>
        simp only [Res.ok_bind]
        generalize (forLoop 0 size mem fun j mem => mem.write (p + size - j) (tmp.getD j 0)) = r
        cases r with
        | error e => rfl
        | ok m => simp only [Res.ok_bind, forLoop_empty _ _ _ (Nat.le_refl 1)]
  constructor
  · intro h
    obtain ⟨tmp, e, ht⟩ := copy_bytes mem p size (by omega)
    rw [one, e]
    simp only [Res.ok_bind]
    have key : Res.Ok (forLoop 0 size mem fun j mem => mem.write (p + size - j) (tmp.getD j 0))
        (fun m => m.size = mem.size ∧ m.data p = mem.data p ∧ ∀ j, j < size → m.data (p + (size - j)) = mem.data (p + j)) := by
      refine forLoop_ok (fun k m => m.size = mem.size ∧ m.data p = mem.data p ∧
        ∀ j, j < k → m.data (p + (size - j)) = mem.data (p + j)) 0 size mem (Nat.zero_le _) ⟨rfl, rfl, by intro j hj; omega⟩ ?_
      intro k m _ hk ⟨h1, h2, h3⟩
      rw [Buf.write_eq (by omega)]
      refine ⟨_, rfl, h1, ?_, fun j hj => ?_⟩
      · simp only [Buf.put]; rw [if_neg (by omega)]; exact h2
      · simp only [Buf.put]
        by_cases hjk : j = k
        · subst hjk
          rw [if_pos (by omega), ht]
          simp [hk]
        · rw [if_neg (by omega)]; exact h3 j (by omega)
    obtain ⟨m, e', _, h2, h3⟩ := key
    exact ⟨m, e', h2, h3⟩
  · intro h
    obtain ⟨tmp, e, ht⟩ := copy_bytes mem p size (by omega)
    rw [one, e]
    simp only [Res.ok_bind]
    rw [forLoop_succ _ _ _ hs]
    have : mem.write (p + size - 0) (tmp.getD 0 0) = .error (.ub "out-of-bounds write") := by
      unfold Buf.write; rw [if_neg (by omega)]
    rw [this]
    exact ⟨_, rfl⟩

/-- Four bytes followed by others: 1 2 3 4 9 becomes 1 4 3 2 1 instead of 4 3 2 1 9. -/
example : (reverseArray 4 ⟨5, fun i => [1, 2, 3, 4, 9].getD i 0⟩ 0 1).map (fun m => m.toList 5) = .ok [1, 4, 3, 2, 1] := by
  rfl

end Verif.Chunk
