import Verif.Nn.PoolBack
import Mathlib.Algebra.BigOperators.Ring.Finset
/-
  Writing a small table into a zeroed larger one, and sums over ranges.
-/
namespace Verif.Nn
open Verif Verif.Dense

variable {α τ : Type}

/-- As `Acc`, for code that works on one buffer. -/
def AccB (N : Nat) (op : α → τ → α) (m : Buf α → Res (Buf α)) (L : Nat → List τ) : Prop :=
  ∀ b : Buf α, b.size = N → Res.Ok (m b) (fun b' => b'.size = N ∧ ∀ o, b'.data o = (L o).foldl op (b.data o))

theorem AccB.loop0 {N : Nat} {op : α → τ → α} {n : Nat} {body : Nat → Buf α → Res (Buf α)} {L : Nat → Nat → List τ}
    (h : ∀ j, j < n → AccB N op (body j) (L j)) :
    AccB N op (fun b => forLoop 0 n b body) (fun o => (List.range n).flatMap fun j => L j o) := by
  intro b hb
  refine forLoop_ok (fun k (b' : Buf α) => b'.size = N ∧ ∀ o, b'.data o = ((List.range k).flatMap fun j => L j o).foldl op (b.data o)) 0 n b
    (Nat.zero_le _) ⟨hb, fun o => rfl⟩ ?_
  intro j b1 _ hj ⟨h1, h2⟩
  refine (h j hj b1 h1).mono fun b2 ⟨k1, k2⟩ => ⟨k1, fun o => ?_⟩
  rw [k2 o, h2 o, List.range_succ, List.flatMap_append, List.foldl_append]
  simp

theorem AccB.step {N : Nat} {op : α → τ → α} {m : Buf α → Res (Buf α)} {off : Nat} {t : τ} (hoff : off < N)
    (hm : ∀ b : Buf α, b.size = N → m b = .ok (b.put off (op (b.data off) t))) : AccB N op m (fun o => if o = off then [t] else []) := by
  intro b hb
  refine ⟨_, hm b hb, hb, fun o => ?_⟩
  by_cases h : o = off
  · subst h; simp
  · simp only [h, if_false, List.foldl_nil]
    exact Buf.put_data_ne _ _ _ _ h

/-- Zeroing the first `n` cells of a buffer. -/
theorem zero_loop [Zero α] {n : Nat} {b : Buf α} (hb : b.size = n) :
    Res.Ok (forLoop 0 n b fun i b => b.write i 0) (fun b' : Buf α => b'.size = n ∧ ∀ o, o < n → b'.data o = 0) := by
  refine forLoop_ok (fun k (b' : Buf α) => b'.size = n ∧ ∀ o, o < k → b'.data o = 0) 0 n b (Nat.zero_le _)
    ⟨hb, fun o ho => absurd ho (Nat.not_lt_zero _)⟩ ?_
  intro j p _ hj ⟨f1, f2⟩
  rw [Buf.write_iff]
  refine ⟨by omega, f1, fun o ho => ?_⟩
  rw [Buf.put_data]
  split
  · rfl
  · exact f2 o (by omega)

/-- The table `t` (of `P x Q` values) placed at the rows `A h` and columns `B w`, zero elsewhere. -/
def placed [AddCommMonoid α] (P Q : Nat) (A B : Nat → Nat) (t : Nat → Nat → α) (r s : Nat) : α :=
  ∑ h ∈ Finset.range P, ∑ w ∈ Finset.range Q, if r = A h ∧ s = B w then t h w else 0

theorem placed_eq [AddCommMonoid α] {P Q : Nat} {A B : Nat → Nat} {t : Nat → Nat → α} (hA : ∀ h h', A h = A h' → h = h')
    (hB : ∀ w w', B w = B w' → w = w') {h w : Nat} (hh : h < P) (hw : w < Q) : placed P Q A B t (A h) (B w) = t h w := by
  unfold placed
  rw [Finset.sum_eq_single h, Finset.sum_eq_single w]
  · rw [if_pos ⟨rfl, rfl⟩]
  · intro w' _ hne; rw [if_neg fun e => hne (hB _ _ e.2).symm]
  · intro hn; exact absurd (Finset.mem_range.2 hw) hn
  · intro h' _ hne
    exact Finset.sum_eq_zero fun w' _ => by rw [if_neg fun e => hne (hA _ _ e.1).symm]
  · intro hn; exact absurd (Finset.mem_range.2 hh) hn

theorem placed_zero [AddCommMonoid α] {P Q : Nat} {A B : Nat → Nat} {t : Nat → Nat → α} {r s : Nat}
    (h : ∀ h w, h < P → w < Q → ¬ (r = A h ∧ s = B w)) : placed P Q A B t r s = 0 := by
  unfold placed
  exact Finset.sum_eq_zero fun h' hh => Finset.sum_eq_zero fun w' hw => by
    rw [if_neg (h h' w' (Finset.mem_range.1 hh) (Finset.mem_range.1 hw))]

/-- Two nested loops that write `t h w` to the cell in row `A h` and column `B w` of a zeroed buffer with `M` columns. -/
theorem place_ok [AddCommMonoid α] {N M P Q : Nat} {A B : Nat → Nat} {t : Nat → Nat → α} {body : Nat → Nat → Buf α → Res (Buf α)}
    (hA : ∀ h h', A h = A h' → h = h') (hB : ∀ w w', B w = B w' → w = w') (hBM : ∀ w, w < Q → B w < M)
    (hN : ∀ h w, h < P → w < Q → A h * M + B w < N * M)
    (hbody : ∀ h w, h < P → w < Q → ∀ b : Buf α, b.size = N * M → body h w b = .ok (b.put (A h * M + B w) (t h w)))
    {b : Buf α} (hb : b.size = N * M) (hz : ∀ o, o < N * M → b.data o = 0) :
    Res.Ok (forLoop 0 P b fun h b => forLoop 0 Q b fun w b => body h w b) (fun b' : Buf α => b'.size = N * M ∧
      ∀ r s, r < N → s < M → b'.data (r * M + s) = placed P Q A B t r s) := by
  have main : AccB (N * M) (fun (_ : α) v => v) (fun b => forLoop 0 P b fun h b => forLoop 0 Q b fun w b => body h w b)
      (fun o => (List.range P).flatMap fun h => (List.range Q).flatMap fun w => if o = A h * M + B w then [t h w] else []) :=
    AccB.loop0 fun h hh => AccB.loop0 fun w hw => AccB.step (hN h w hh hw) fun b hb => hbody h w hh hw b hb
  refine (main b hb).mono fun b' ⟨h1, h2⟩ => ⟨h1, fun r s hr hs => ?_⟩
  rw [h2, hz _ (rm_lt hr hs (Nat.le_refl _))]
  beta_reduce
  by_cases hex : ∃ h w, h < P ∧ w < Q ∧ r = A h ∧ s = B w
  · obtain ⟨h, w, hh, hw, rfl, rfl⟩ := hex
    rw [placed_eq hA hB hh hw, flatMap_single hh, flatMap_single hw]
    · rw [if_pos rfl]; rfl
    · intro w' hw' hne
      rw [if_neg]
      intro e; exact hne (hB _ _ (rm_inj hs (hBM w' hw') e).2).symm
    · intro h' hh' hne
      refine flatMap_nil fun w' hw' => ?_
      rw [if_neg]
      intro e; exact hne (hA _ _ (rm_inj hs (hBM w' hw') e).1).symm
  · rw [placed_zero fun h w hh hw e => hex ⟨h, w, hh, hw, e.1, e.2⟩, flatMap_nil]
    · rfl
    · intro h hh
      refine flatMap_nil fun w hw => ?_
      rw [if_neg]
      intro e
      have := rm_inj hs (hBM w hw) e
      exact hex ⟨h, w, hh, hw, this.1, this.2⟩

theorem total_flatMap [AddCommMonoid α] (n : Nat) (L : Nat → List α) :
    total ((List.range n).flatMap L) = ∑ j ∈ Finset.range n, total (L j) := by
  induction n with
  | zero => rfl
  | succ n ih =>
    rw [List.range_succ, List.flatMap_append, total_append, ih, Finset.sum_range_succ]
    simp

theorem total_single [AddMonoid α] (a : α) : total [a] = a := by rw [total_cons, total_nil, add_zero]

end Verif.Nn
