/-
  C368: writing whole chunks.
-/
import Verif.Chunk.Props

namespace Verif.Chunk
open Verif Verif.Dense Verif.Tens

variable {α : Type}

theorem perDim_le {d c : Nat} (hc : 0 < c) : perDim d c ≤ d := by
  unfold perDim
  split
  · exact Nat.div_le_self d c
  · next h =>
      have hd : 0 < d := by
        rcases Nat.eq_zero_or_pos d with e | e
        · rw [e] at h; simp at h
        · exact e
      have hc1 : 1 < c := by
        rcases Nat.lt_or_ge 1 c with e | e
        · exact e
        · have : c = 1 := by omega
          rw [this] at h; exact absurd (Nat.mod_one d) h
      exact Nat.div_lt_self hd hc1

theorem valid_shape {cids shape chunk : List Nat} (hl : chunk.length = shape.length) (h0 : 0 ∉ chunk)
    (h : Valid cids (List.zipWith perDim shape chunk)) : Valid cids shape := by
  induction chunk generalizing cids shape with
  | nil =>
      have hs : shape = [] := List.eq_nil_of_length_eq_zero hl.symm
      subst hs
      exact h
  | cons c cs ih =>
      cases shape with
      | nil => simp at hl
      | cons d ds =>
          cases h with
          | @cons i _ is _ h hs =>
              have hc : 0 < c := by
                rcases Nat.eq_zero_or_pos c with h | h
                · simp [h] at h0
                · exact h
              exact .cons (Nat.lt_of_lt_of_le h (perDim_le hc)) (ih (by simpa using hl) (fun h => h0 (by simp [h])) hs)

/-- **C368.** Writing an existing chunk makes its values visible, each element of the chunk the one at its place inside the chunk
(first index fastest), and does not change what is seen of other chunks — also if the chunk overhangs the tensor. -/
theorem C368_trySetChunk (t : CK α) (w : t.WF) (hr : t.shape ≠ []) (cids : List Nat)
    (hc : Valid cids (List.zipWith perDim t.shape t.chunk)) (values : Buf α) (hv : t.chunk.prod ≤ values.size) :
    ∃ t', t.trySetChunk cids values = .ok (t', true) ∧ t'.WF ∧ t'.shape = t.shape ∧ ∀ idx, Valid idx t.shape →
      (List.zipWith (· / ·) idx t.chunk = cids →
        t'.tryGet idx = .ok (some (values.data (place (List.zipWith (· % ·) idx t.chunk) t.chunk)))) ∧
      (List.zipWith (· / ·) idx t.chunk ≠ cids → t'.tryGet idx = t.tryGet idx ∧ t'.get idx = t.get idx) := by
  have hr' : t.rank ≠ 0 := fun e => hr (List.eq_nil_of_length_eq_zero e)
  have hvs := valid_shape w.len w.posC hc
  have hlt : place cids t.per < t.per.prod := place_lt hc
  have hl : linRest cids t.cstrides = t.chunk.prod * place cids t.per := by
    have := linRest_strides _ _ t.elems hc
    rw [CK.elems, count_eq] at this
    unfold CK.cstrides
    rw [CK.elems, count_eq]
    exact this
  have hcl : t.chunkLin cids = place cids t.per := by
    have := linRest_strides _ _ 1 hc
    rw [Nat.one_mul] at this
    exact this
  have hend : t.chunk.prod * place cids t.per + t.chunk.prod ≤ t.mem.size := by
    rw [w.memSize]
    calc t.chunk.prod * place cids t.per + t.chunk.prod = t.chunk.prod * (place cids t.per + 1) := by rw [Nat.mul_add]; omega
      _ ≤ t.chunk.prod * t.per.prod := Nat.mul_le_mul_left _ hlt
      _ = _ := Nat.mul_comm ..
  obtain ⟨m, em, hsz, hin, hout⟩ : ∃ m, forLoop 0 t.chunk.prod t.mem (fun i m => do
      let v ← values.read i
      m.write (t.chunk.prod * place cids t.per + i) v) = .ok m ∧ m.size = t.mem.size ∧
      (∀ i, i < t.chunk.prod → m.data (t.chunk.prod * place cids t.per + i) = values.data i) ∧
      (∀ i, (i < t.chunk.prod * place cids t.per ∨ t.chunk.prod * place cids t.per + t.chunk.prod ≤ i) →
        m.data i = t.mem.data i) := by
    refine forLoop_post (fun k m => m.size = t.mem.size ∧
      (∀ i, i < k → m.data (t.chunk.prod * place cids t.per + i) = values.data i) ∧
      (∀ i, (i < t.chunk.prod * place cids t.per ∨ t.chunk.prod * place cids t.per + t.chunk.prod ≤ i) →
        m.data i = t.mem.data i)) 0 t.chunk.prod t.mem (Nat.zero_le _) ⟨rfl, by intro i hi; omega, fun _ _ => rfl⟩ ?_
      (fun _ h => h)
    intro k m _ hk ⟨h1, h2, h3⟩
    rw [Buf.read_eq (by omega)]
    simp only [Res.ok_bind]
    rw [Buf.write_eq (by omega)]
    refine ⟨_, rfl, h1, fun i hi => ?_, fun i hi => ?_⟩
    · simp only [Buf.put]
      by_cases e : i = k
      · rw [if_pos (by omega), e]
      · rw [if_neg (by omega)]; exact h2 i (by omega)
    · simp only [Buf.put]
      rw [if_neg (by omega)]; exact h3 i hi
  let t' : CK α := { t with mem := m, flags := t.flags.put (place cids t.per) true }
  have w' : t'.WF := ⟨w.len, w.posC, hsz.trans w.memSize, w.flagSize, w.pos0⟩
  refine ⟨t', ?_, w', rfl, fun idx h => ⟨fun e => ?_, fun hne => ?_⟩⟩
  · unfold CK.trySetChunk
    rw [if_neg (by simpa [CK.rank] using hvs.length), if_neg hr', (any_ge hvs.length).2 hvs]
    simp only [Bool.false_eq_true, if_false, hl, hcl]
    rw [show t.elems = t.chunk.prod from by rw [CK.elems, count_eq], em]
    simp only [Res.ok_bind]
    rw [Buf.write_eq (by rw [w.flagSize]; exact hlt)]
    rfl
  · have hci : t.chunkIds idx = cids := e
    have hL : t'.Loaded idx := by
      refine .inr ?_
      show (if place (t.chunkIds idx) t.per = place cids t.per then true else _) = true
      rw [hci, if_pos rfl]
    rw [(tryGet_valid w' h).1 hL]
    obtain ⟨_, v2⟩ := valid_div w.len w.posC h
    have : t'.at' idx = t.chunk.prod * place cids t.per + place (List.zipWith (· % ·) idx t.chunk) t.chunk := by
      show place _ t.chunk + t.chunk.prod * place (t.chunkIds idx) t.per = _
      rw [hci, Nat.add_comm]
    rw [this]
    exact congrArg (fun x => Except.ok (some x)) (hin _ (place_lt v2))
  · obtain ⟨v1, v2⟩ := valid_div w.len w.posC h
    have hp : place (t.chunkIds idx) t.per ≠ place cids t.per := fun e => hne (place_inj v1 hc e)
    have hL : t'.Loaded idx ↔ t.Loaded idx := by
      unfold CK.Loaded
      rw [show t'.flags.data (place (t'.chunkIds idx) t'.per) = t.flags.data (place (t.chunkIds idx) t.per) from if_neg hp]
      exact Iff.rfl
    have hd : t'.mem.data (t'.at' idx) = t.mem.data (t.at' idx) := by
      refine hout _ ?_
      have hlt2 : place (List.zipWith (· % ·) idx t.chunk) t.chunk < t.chunk.prod := place_lt v2
      have ha : t'.at' idx = place (List.zipWith (· % ·) idx t.chunk) t.chunk + t.chunk.prod * place (t.chunkIds idx) t.per := rfl
      rw [ha]
      rcases Nat.lt_or_gt_of_ne hp with hlt | hgt
      · left
        have := Nat.mul_le_mul_left t.chunk.prod (Nat.succ_le_of_lt hlt)
        rw [Nat.mul_succ] at this
        omega
      · right
        have := Nat.mul_le_mul_left t.chunk.prod (Nat.succ_le_of_lt hgt)
        rw [Nat.mul_succ] at this
        omega
    refine ⟨?_, by rw [get_valid w' h, get_valid w h, hd]⟩
    by_cases hl : t.Loaded idx
    · rw [(tryGet_valid w' h).1 (hL.2 hl), (tryGet_valid w h).1 hl, hd]
    · rw [(tryGet_valid w' h).2 (fun x => hl (hL.1 x)), (tryGet_valid w h).2 hl]

/-- The chunk of exT that has not been loaded. -/
example : Valid [1, 0] (List.zipWith perDim exT.shape exT.chunk) ∧
    ((exT.trySetChunk [1, 0] ⟨4, fun i => 100 + i⟩).bind fun q => q.1.tryGet [3, 1]) = .ok (some 103) ∧
    exT.tryGet [3, 1] = .ok none := by
  refine ⟨.cons (by decide) (.cons (by decide) .nil), rfl, rfl⟩

end Verif.Chunk
