/-
  C374, C375: ranges of chunks of a chunked tensor.
-/
import Verif.Chunk.Dice

namespace Verif.Chunk
open Verif Verif.Dense Verif.Tens

variable {α : Type}

/-- `tryDiceAtChunkLvl` — ChunkedTensor.h:903-995: the tensor after the call, and the new one (none: `nullptr`). As in the code, the
flags that are set are those of the tensor itself, at the numbers of the new chunks. -/
def diceChunks (junk : Nat → α) (t : CK α) (ranges : List (Nat × Nat)) : Res (CK α × Option (CK α)) :=
  if ranges.length ≠ t.rank then .ok (t, none)
  else if t.rank = 0 then do
    let r ← create junk t.shape t.chunk none
    let v ← t.mem.read 0
    let m ← r.mem.write 0 v
    let f ← t.flags.write 0 true
    .ok ({ t with flags := f }, some { r with mem := m })
  else if (List.zip ranges t.per).any badRange then .ok (t, none)
  else do
    let counts := ranges.map fun q => q.2 - 1 - q.1 + 1
    let los := ranges.map Prod.fst
    let all ← forLoop 0 (count counts) true fun i ok =>
      if !ok then .ok false
      else t.flags.read (t.chunkLin (CT.unrank (List.zip (stridesFrom 1 counts) los) i).1)
    let all ← ranges.foldlM (fun (ok : Bool) q => forLoop q.1 q.2 ok fun j ok =>
      if !ok then .ok false else t.flags.read j) all
    if !all then .ok (t, none)
    else do
      let r ← create junk (List.zipWith (· * ·) counts t.chunk) t.chunk none
      let (m, f) ← forLoop 0 (count r.per) (r.mem, t.flags) fun i s => do
        let ncids := (CT.unrank ((stridesFrom 1 r.per).map fun s => (s, 0)) i).1
        let m ← forLoop 0 t.elems s.1 fun k m => do
          let v ← t.mem.read (linRest (List.zipWith (· + ·) ncids los) t.cstrides + k)
          m.write (linRest ncids r.cstrides + k) v
        let f ← s.2.write (t.chunkLin ncids) true
        .ok (m, f)
      .ok ({ t with flags := f }, some { r with mem := m })

theorem forFrom_inv {σ : Type _} {body : Nat → σ → Res σ} (Inv : σ → Prop)
    (h : ∀ j s s', Inv s → body j s = .ok s' → Inv s') : ∀ (k i : Nat) (s s' : σ), Inv s → forFrom i k s body = .ok s' → Inv s'
  | 0, i, s, s', h0, e => by simp only [forFrom, Except.ok.injEq] at e; exact e ▸ h0
  | k + 1, i, s, s', h0, e => by
      simp only [forFrom] at e
      cases hb : body i s with
      | error x => rw [hb] at e; cases e
      | ok a => rw [hb] at e; exact forFrom_inv Inv h k (i + 1) a s' (h i s a h0 hb) e

theorem bind_ok {β γ : Type _} {x : Res β} {f : β → Res γ} {c : γ} (h : (x >>= f) = .ok c) : ∃ b, x = .ok b ∧ f b = .ok c := by
  cases x with
  | error e => cases h
  | ok b => exact ⟨b, rfl, h⟩

/-- **C374.** The range of chunks should show the elements of these chunks. Whenever there is a result, of any rank but zero, no
checked read of it returns anything: its flags are never set. -/
theorem C374_dice_chunks_invisible_partial (junk : Nat → α) (t : CK α) (w : t.WF) (hr : t.shape ≠ []) (ranges : List (Nat × Nat))
    (t' r : CK α) (h : diceChunks junk t ranges = .ok (t', some r)) :
    ∀ idx, Valid idx r.shape → r.tryGet idx = .ok none := by
  have hr' : t.rank ≠ 0 := fun e => hr (List.eq_nil_of_length_eq_zero e)
  unfold diceChunks at h
  split at h
  · simp at h
  rename_i hlen
  try rw [if_neg hr'] at h
  split at h
  · simp at h
  rename_i hbad
  obtain ⟨all, _, h⟩ := bind_ok h
  obtain ⟨all, _, h⟩ := bind_ok h
  split at h
  · simp at h
  obtain ⟨r0, hc, h⟩ := bind_ok h
  obtain ⟨⟨m, f⟩, hloop, h⟩ := bind_ok h
  simp only [Except.ok.injEq, Prod.mk.injEq, Option.some.injEq] at h
  obtain ⟨_, rfl⟩ := h
  have hlen' : ranges.length = t.chunk.length := by
    have : ranges.length = t.shape.length := by simpa [CK.rank] using hlen
    rw [this, w.len]
  have hm : m.size = r0.mem.size := by
    have := forFrom_inv (fun s : Buf α × Buf Bool => s.1.size = r0.mem.size) (fun j s s' hs hb => by
      obtain ⟨m1, hm1, hb⟩ := bind_ok hb
      obtain ⟨f1, _, hb⟩ := bind_ok hb
      simp only [Except.ok.injEq] at hb
      subst hb
      refine forFrom_inv (fun b : Buf α => b.size = r0.mem.size) (fun k b b' hb hk => ?_) _ _ _ _ hs hm1
      obtain ⟨v, _, hk⟩ := bind_ok hk
      unfold Buf.write at hk
      split at hk
      · simp only [Except.ok.injEq] at hk
        rw [← hk]; exact hb
      · cases hk) _ _ _ _ rfl hloop
    exact this
  have hl2 : t.chunk.length = (List.zipWith (· * ·) (ranges.map fun q => q.2 - 1 - q.1 + 1) t.chunk).length := by
    simp [hlen']
  have hcl := C361_create junk (List.zipWith (· * ·) (ranges.map fun q => q.2 - 1 - q.1 + 1) t.chunk) t.chunk (none : Option α) hl2
  have h0s : 0 ∉ List.zipWith (· * ·) (ranges.map fun q => q.2 - 1 - q.1 + 1) t.chunk := by
    intro h0
    obtain ⟨e, he⟩ := hcl.1 (.inl h0)
    rw [hc] at he; cases he
  obtain ⟨r1, e1, w1, s1, v1⟩ := hcl.2 h0s w.posC
  have hrr : r1 = r0 := by
    rw [hc] at e1; exact (Except.ok.inj e1).symm
  subst hrr
  intro idx hv
  have hv1 : Valid idx (List.zipWith (· * ·) (ranges.map fun q => q.2 - 1 - q.1 + 1) t.chunk) := by
    have : Valid idx r1.shape := hv
    rw [s1] at this; exact this
  have hne : List.zipWith (· * ·) (ranges.map fun q => q.2 - 1 - q.1 + 1) t.chunk ≠ [] := by
    intro e
    have := congrArg List.length e
    rw [← hl2, w.len] at this
    exact hr (List.eq_nil_of_length_eq_zero this)
  have hnone := v1 idx hv1 hne
  have wm : CK.WF ({ r1 with mem := m } : CK α) := ⟨w1.len, w1.posC, hm.trans w1.memSize, w1.flagSize, w1.pos0⟩
  have hL : ¬ r1.Loaded idx := by
    intro hL
    rw [(tryGet_valid w1 (by rw [s1]; exact hv1)).1 hL] at hnone
    simp at hnone
  exact (tryGet_valid wm hv).2 hL

/-- There are results: the second chunk of two. -/
example : ((diceChunks (fun _ => 0) (⟨[2], [1], ⟨2, fun i => 10 + i⟩, ⟨2, fun _ => true⟩⟩ : CK Nat) [(1, 2)]).map
    fun q => q.2.map fun r => (r.shape, r.mem.toList 1)) = .ok (some ([1], [11])) := rfl

/-- **C375.** Asking for a range of chunks should not change the tensor. It marks chunks as loaded that have not been: after the
second chunk of this tensor has been asked for, the first one, which has not been loaded, shows the contents of uninitialised
memory. -/
theorem C375_dice_chunks_marks_partial (junk cells : Nat → α) :
    ∃ t t' r : CK α, t = ⟨[2], [1], ⟨2, cells⟩, ⟨2, fun i => i == 1⟩⟩ ∧ t.WF ∧ diceChunks junk t [(1, 2)] = .ok (t', some r) ∧
      t.tryGet [0] = .ok none ∧ t'.tryGet [0] = .ok (some (cells 0)) := by
  refine ⟨_, ⟨[2], [1], ⟨2, cells⟩, (⟨2, fun i => i == 1⟩ : Buf Bool).put 0 true⟩,
    ⟨[1], [1], (⟨1, junk⟩ : Buf α).put 0 (cells 1), ⟨1, fun _ => false⟩⟩, rfl, ⟨rfl, ?_, rfl, rfl, ?_⟩, ?_, ?_, ?_⟩
  · show 0 ∉ [1]
    decide
  · show 0 < 2 * 1
    decide
  · with_unfolding_all rfl
  · rfl
  · rfl

end Verif.Chunk
