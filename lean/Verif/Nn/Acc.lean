/-
  Reasoning rules for kernels that update a result buffer by read-modify-write steps inside nested counted loops: what such a kernel
  does to each cell of the buffer is a left fold over the list of the terms that hit this cell, in program order.
  These are proof tools, not a model of a particular source file.
-/
import Verif.Basic.Copy

namespace Verif.Nn
open Verif

variable {σ α τ : Type}

/-- Started in a state whose context satisfies `J`, the code `m` returns normally, keeps `J` and the size `N` of the result buffer, and
has combined the terms `L o` (in this order, by `op`) into cell `o`. -/
def Acc (J : σ → Prop) (N : Nat) (op : α → τ → α) (m : σ × Buf α → Res (σ × Buf α)) (L : Nat → List τ) : Prop :=
  ∀ s : σ × Buf α, J s.1 → s.2.size = N →
    Res.Ok (m s) (fun s' => J s'.1 ∧ s'.2.size = N ∧ ∀ o, s'.2.data o = (L o).foldl op (s.2.data o))

variable {J : σ → Prop} {N : Nat} {op : α → τ → α}

theorem Acc.congr {m : σ × Buf α → Res (σ × Buf α)} {L L' : Nat → List τ} (h : Acc J N op m L) (e : ∀ o, L o = L' o) :
    Acc J N op m L' := fun s hJ hs => (h s hJ hs).mono fun s' ⟨a, b, c⟩ => ⟨a, b, fun o => by rw [c o, e o]⟩

theorem Acc.skip : Acc (τ := τ) J N op (fun s => .ok s) (fun _ => []) :=
  fun s hJ hs => ⟨s, rfl, hJ, hs, fun _ => rfl⟩

theorem Acc.seq {m1 m2 : σ × Buf α → Res (σ × Buf α)} {L1 L2 : Nat → List τ} (h1 : Acc J N op m1 L1) (h2 : Acc J N op m2 L2) :
    Acc J N op (fun s => m1 s >>= m2) (fun o => L1 o ++ L2 o) := by
  intro s hJ hs
  refine (h1 s hJ hs).bind fun s1 ⟨a, b, c⟩ => ?_
  refine (h2 s1 a b).mono fun s2 ⟨a', b', c'⟩ => ⟨a', b', fun o => ?_⟩
  rw [c' o, c o, List.foldl_append]

theorem Acc.loop {lo hi : Nat} {body : Nat → σ × Buf α → Res (σ × Buf α)} {L : Nat → Nat → List τ}
    (h : ∀ j, lo ≤ j → j < hi → Acc J N op (body j) (L j)) :
    Acc J N op (fun s => forLoop lo hi s body) (fun o => (List.range (hi - lo)).flatMap fun j => L (lo + j) o) := by
  intro s hJ hs
  have key : ∀ (k i : Nat) (s : σ × Buf α), lo ≤ i → i + k ≤ hi → J s.1 → s.2.size = N →
      Res.Ok (forFrom i k s body) (fun s' => J s'.1 ∧ s'.2.size = N ∧
        ∀ o, s'.2.data o = ((List.range k).flatMap fun j => L (i + j) o).foldl op (s.2.data o)) := by
    intro k
    induction k with
    | zero => intro i s _ _ hJ hs; exact ⟨s, rfl, hJ, hs, fun _ => rfl⟩
    | succ k ih =>
      intro i s h1 h2 hJ hs
      unfold forFrom
      refine (h i h1 (by omega) s hJ hs).bind fun s1 ⟨a, b, c⟩ => ?_
      refine (ih (i + 1) s1 (by omega) (by omega) a b).mono fun s2 ⟨a', b', c'⟩ => ⟨a', b', fun o => ?_⟩
      rw [c' o, c o, List.range_succ_eq_map]
      simp only [List.flatMap_cons, List.foldl_append, Nat.add_zero, List.flatMap_map]
      congr 2
      funext j
      rw [show i + 1 + j = i + j.succ from by omega]
  by_cases hle : lo ≤ hi
  · exact key (hi - lo) lo s (Nat.le_refl _) (by omega) hJ hs
  · have : hi - lo = 0 := by omega
    unfold forLoop
    rw [this]
    exact ⟨s, rfl, hJ, hs, fun _ => rfl⟩

theorem Acc.loop0 {n : Nat} {body : Nat → σ × Buf α → Res (σ × Buf α)} {L : Nat → Nat → List τ}
    (h : ∀ j, j < n → Acc J N op (body j) (L j)) :
    Acc J N op (fun s => forLoop 0 n s body) (fun o => (List.range n).flatMap fun j => L j o) :=
  (Acc.loop (lo := 0) (hi := n) (L := L) fun j _ hj => h j hj).congr fun o => by simp

/-- One read-modify-write of cell `off`. -/
theorem Acc.step {m : σ × Buf α → Res (σ × Buf α)} {off : Nat} {t : τ} (hoff : off < N)
    (hm : ∀ s, J s.1 → s.2.size = N → m s = .ok (s.1, s.2.put off (op (s.2.data off) t))) :
    Acc J N op m (fun o => if o = off then [t] else []) := by
  intro s hJ hs
  refine ⟨_, hm s hJ hs, hJ, hs, fun o => ?_⟩
  by_cases h : o = off
  · subst h; simp
  · simp only [h, if_false, List.foldl_nil]
    exact Buf.put_data_ne _ _ _ _ h

/-- Preparing the context before `m`. -/
theorem Acc.setup {K : σ → Prop} {pre : σ → Res σ} {m : σ × Buf α → Res (σ × Buf α)} {L : Nat → List τ}
    (hpre : ∀ x, J x → Res.Ok (pre x) K) (hKJ : ∀ x, K x → J x) (hm : Acc K N op m L) :
    Acc J N op (fun s => pre s.1 >>= fun x => m (x, s.2)) L := by
  intro s hJ hs
  refine (hpre s.1 hJ).bind fun x hx => ?_
  exact (hm (x, s.2) hx hs).mono fun s' ⟨a, b, c⟩ => ⟨hKJ _ a, b, c⟩

/-- The terms of exactly one iteration hit the cell. -/
theorem flatMap_single {n j0 : Nat} {L : Nat → List τ} (h0 : j0 < n) (h : ∀ j, j < n → j ≠ j0 → L j = []) :
    (List.range n).flatMap L = L j0 := by
  have : ∀ k, k ≤ n → (List.range k).flatMap L = if j0 < k then L j0 else [] := by
    intro k
    induction k with
    | zero => intro _; simp
    | succ k ih =>
      intro hk
      rw [List.range_succ, List.flatMap_append, ih (by omega)]
      simp only [List.flatMap_cons, List.flatMap_nil, List.append_nil]
      by_cases e : k = j0
      · subst e; simp
      · rw [h k (by omega) e]
        by_cases h1 : j0 < k
        · simp [h1, show j0 < k + 1 from by omega]
        · simp [h1, show ¬ j0 < k + 1 from by omega]
  rw [this n (Nat.le_refl _)]
  simp [h0]

theorem flatMap_nil {n : Nat} {L : Nat → List τ} (h : ∀ j, j < n → L j = []) : (List.range n).flatMap L = [] := by
  simp only [List.flatMap_eq_nil_iff, List.mem_range]
  exact h

theorem flatMap_congr_range {n : Nat} {L L' : Nat → List τ} (h : ∀ j, j < n → L j = L' j) :
    (List.range n).flatMap L = (List.range n).flatMap L' := by
  induction n with
  | zero => rfl
  | succ n ih =>
    rw [List.range_succ, List.flatMap_append, List.flatMap_append, ih fun j hj => h j (by omega)]
    simp only [List.flatMap_cons, List.flatMap_nil, List.append_nil, h n (by omega)]

end Verif.Nn
