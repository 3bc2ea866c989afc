/-
  C363 for all one-dimensional tensors with an overhanging chunk.
-/
import Verif.Chunk.Equal

namespace Verif.Chunk
open Verif Verif.Dense Verif.Tens

variable {α : Type}

/-- **C363.** For every loaded tensor with one dimension whose last chunk overhangs it, there is another one with the same shapes,
the same elements, all loaded, that the comparison calls different (provided that some value differs from the one behind the last
element). -/
theorem C363_padding_all_partial (eqv : α → α → Bool) (t : CK α) (w : t.WF) (d c : Nat) (hs : t.shape = [d])
    (hc : t.chunk = [c]) (hd : d % c ≠ 0) (v : α) (hv : eqv (t.mem.data d) v = false) :
    ∃ u : CK α, u.WF ∧ u.shape = t.shape ∧ u.chunk = t.chunk ∧ (∀ idx, Valid idx t.shape → u.tryGet idx = t.tryGet idx ∧
      u.get idx = t.get idx) ∧ t.equal eqv u = .ok false := by
  have hper : t.per = [d / c + 1] := by simp [CK.per, hs, hc, perDim, hd]
  have hcp : t.chunk.prod = c := by simp [hc]
  have hpp : t.per.prod = d / c + 1 := by simp [hper]
  let u : CK α := { t with mem := t.mem.put d v }
  have wu : u.WF := ⟨w.len, w.posC, w.memSize, w.flagSize, w.pos0⟩
  refine ⟨u, wu, rfl, rfl, fun idx h => ?_, ?_⟩
  · have hlt : t.at' idx < d := by
      rw [hs] at h
      cases h with
      | @cons i _ is _ hi his =>
          cases his
          have : t.at' [i] = i := by
            simp only [CK.at', CK.chunkIds, hc, hper, List.zipWith_cons_cons, List.zipWith_nil_left, place, List.prod_cons,
              List.prod_nil, Nat.mul_zero, Nat.mul_one, Nat.add_zero]
            exact Nat.mod_add_div i c
          rw [this]; exact hi
    have hdat : u.mem.data (u.at' idx) = t.mem.data (t.at' idx) := if_neg (Nat.ne_of_lt hlt)
    refine ⟨?_, by rw [get_valid wu h, get_valid w h, hdat]⟩
    by_cases hl : t.Loaded idx
    · rw [(tryGet_valid wu h).1 hl, (tryGet_valid w h).1 hl, hdat]
    · rw [(tryGet_valid wu h).2 hl, (tryGet_valid w h).2 hl]
  · obtain ⟨r, e, h⟩ := equal_mem eqv t u w wu (by rw [hs]; simp) rfl rfl
    cases r with
    | false => exact e
    | true =>
        have hc0 : 0 < c := by
          rcases Nat.eq_zero_or_pos c with h | h
          · exact absurd w.posC (by simp [hc, h])
          · exact h
        have := (h.1 rfl (d / c) (by rw [hpp]; omega)).2.2 (d % c) (by rw [hcp]; exact Nat.mod_lt _ hc0)
        rw [hcp, Nat.div_add_mod, show u.mem.data d = v from if_pos rfl, hv] at this
        cases this

example : CK.WF (⟨[5], [2], ⟨6, fun i => i⟩, ⟨3, fun _ => true⟩⟩ : CK Nat) ∧ 5 % 2 ≠ 0 ∧ (5 == 7) = false :=
  ⟨⟨rfl, by decide, rfl, rfl, by decide⟩, by decide, by decide⟩

end Verif.Chunk
