/-
  Termination of vectorized execution (C08, C09): every execution can be completed, and a task that is scheduled often enough
  terminates.
-/
import Verif.Vect.Props

namespace Verif.Vect
open Verif Verif.Dense
variable {α : Type}
variable {P : Pipe α} {ins : List (Inp α)} {F : PipeSpec α} {ts : List (Nat × Nat)} {bs : Nat → Nat} {len : Nat}
variable {h0 : Nat → Hdr} {size0' : Nat → Nat} {init : Nat → Option (Mat α)}

/-- Lexicographic order used as termination measure. -/
abbrev Rank := Nat × Nat × Nat × Nat × Nat
def rankRel : WellFoundedRelation Rank :=
  Prod.lex Nat.lt_wfRel (Prod.lex Nat.lt_wfRel (Prod.lex Nat.lt_wfRel (Prod.lex Nat.lt_wfRel Nat.lt_wfRel)))

def rank (P : Pipe α) (ru : Nat) : PC α → Rank
  | .batch r => (2, ru - r, 2 * P.numOutputs + 1, 0, 0)
  | .acc r _ _ o => (2, ru - r, 2 * (P.numOutputs - o), 0, 0)
  | .copy r _ _ o s i j => (2, ru - r, 2 * (P.numOutputs - o) - 1, s.numRows - i, s.numCols - j)
  | .merge o => (1, P.numOutputs - o, 0, 0, 0)
  | .done => (0, 0, 0, 0, 0)

theorem rk1 {a a' : Nat} {x y : Nat × Nat × Nat × Nat} (h : a < a') : rankRel.rel (a, x) (a', y) := Prod.Lex.left _ _ h
theorem rk2 {a b b' : Nat} {x y : Nat × Nat × Nat} (h : b < b') : rankRel.rel (a, b, x) (a, b', y) :=
  Prod.Lex.right _ (Prod.Lex.left _ _ h)
theorem rk3 {a b c c' : Nat} {x y : Nat × Nat} (h : c < c') : rankRel.rel (a, b, c, x) (a, b, c', y) :=
  Prod.Lex.right _ (Prod.Lex.right _ (Prod.Lex.left _ _ h))
theorem rk4 {a b c d d' x y : Nat} (h : d < d') : rankRel.rel (a, b, c, d, x) (a, b, c, d', y) :=
  Prod.Lex.right _ (Prod.Lex.right _ (Prod.Lex.right _ (Prod.Lex.left _ _ h)))
theorem rk5 {a b c d e e' : Nat} (h : e < e') : rankRel.rel (a, b, c, d, e) (a, b, c, d, e') :=
  Prod.Lex.right _ (Prod.Lex.right _ (Prod.Lex.right _ (Prod.Lex.right _ h)))

theorem bind_ok_inv {β γ : Type} {m : Res β} {f : β → Res γ} {c : γ} (h : (m >>= f) = .ok c) : ∃ b, m = .ok b ∧ f b = .ok c := by
  cases m with
  | error e => cases h
  | ok b => exact ⟨b, rfl, h⟩

/-- A step of an unfinished task decreases its rank. -/
theorem stepTask_rank {rl ru b : Nat} {l l' : Loc α} {res res' : Outs α} (hb : 1 ≤ b)
    (hl : LocInv P ins F h0 rl ru b l) (hnd : l.pc ≠ .done) (h : stepTask P ru b l res = .ok (l', res')) :
    rankRel.rel (rank P ru l'.pc) (rank P ru l.pc) := by
  unfold stepTask at h
  cases hpc : l.pc with
  | batch r =>
    simp only [hpc] at h
    by_cases hr : r < ru
    · rw [if_pos hr] at h
      obtain ⟨xs, _, h⟩ := bind_ok_inv h
      obtain ⟨ys, _, h⟩ := bind_ok_inv h
      cases h
      exact rk3 (by omega)
    · rw [if_neg hr] at h
      cases h
      exact rk1 (by omega)
  | acc r r2 lres o =>
    simp only [LocInv, hpc] at hl
    obtain ⟨⟨_, l2, l3, _⟩, _⟩ := hl
    simp only [hpc] at h
    by_cases ho : o < P.numOutputs
    · rw [if_pos ho] at h
      split at h
      · split at h
        · cases h
        · obtain ⟨s, _, h⟩ := bind_ok_inv h
          cases h
          exact rk3 (by omega)
      · split at h
        · cases h
        · obtain ⟨s, _, h⟩ := bind_ok_inv h
          cases h
          exact rk3 (by omega)
      · split at h
        · cases h
          exact rk3 (by omega)
        · obtain ⟨z, _, h⟩ := bind_ok_inv h
          cases h
          exact rk3 (by omega)
    · rw [if_neg ho] at h
      cases h
      exact rk2 (by omega)
  | copy r r2 lres o s i j =>
    simp only [LocInv, hpc] at hl
    obtain ⟨⟨_, l2, l3, _⟩, l4, _⟩ := hl
    simp only [hpc] at h
    by_cases hi : i < s.numRows
    · rw [if_pos hi] at h
      by_cases hj : j < s.numCols
      · rw [if_pos hj] at h
        split at h
        · cases h
        · obtain ⟨v, _, h⟩ := bind_ok_inv h
          obtain ⟨m, _, h⟩ := bind_ok_inv h
          cases h
          exact rk5 (by omega)
      · rw [if_neg hj] at h
        cases h
        exact rk4 (by omega)
    · rw [if_neg hi] at h
      cases h
      exact rk3 (by omega)
  | merge o =>
    simp only [hpc] at h
    by_cases ho : o < P.numOutputs
    · rw [if_pos ho] at h
      by_cases hc : P.combine o = .rows ∨ P.combine o = .cols
      · rw [if_pos hc] at h
        cases h
        exact rk2 (by omega)
      · rw [if_neg hc] at h
        split at h
        · cases h
          exact rk2 (by omega)
        · split at h
          · cases h
          · obtain ⟨z, _, h⟩ := bind_ok_inv h
            cases h
            exact rk2 (by omega)
    · rw [if_neg ho] at h
      cases h
      exact rk1 (by omega)
  | done => exact (hnd hpc).elim

theorem run_append (s : St α) (a b : List Nat) : run P ts bs s (a ++ b) = run P ts bs s a >>= fun s' => run P ts bs s' b := by
  induction a generalizing s with
  | nil => rfl
  | cons t a ih =>
    simp only [List.cons_append, run, bind_assoc]
    congr 1
    funext s'
    exact ih s'

/-- A single task can be run to completion, without disturbing the others. -/
theorem task_completes (hS : Setup P ins F len ts bs)
    (hA : ∀ o, o < P.numOutputs → AggOk P ins F len o) (hT : ∀ o, o < P.numOutputs → TiledOk P ins F len h0 size0' o)
    (hinit : ∀ o, o < P.numOutputs → (P.combine o).isAgg → ShapeOf (init o) (T ins F o).rows (T ins F o).cols)
    {t : Nat} (ht : t < ts.length) : ∀ (k : Rank) (s : St α), Inv P ins F ts bs h0 size0' init s → rank P (hi ts t) (s.locs t).pc = k →
      ∃ n, Res.Ok (run P ts bs s (List.replicate n t)) fun s' => Inv P ins F ts bs h0 size0' init s' ∧ (s'.locs t).pc = .done ∧
        ∀ u, u ≠ t → s'.locs u = s.locs u := by
  intro k
  induction k using rankRel.wf.induction with
  | _ k ih =>
    intro s hI hk
    by_cases hd : (s.locs t).pc = .done
    · exact ⟨0, s, rfl, hI, hd, fun _ _ => rfl⟩
    · obtain ⟨s1, hs1, hI1⟩ := step_inv hS hI t hA hT hinit
      have hst := hs1
      unfold step at hst
      rw [if_pos ht] at hst
      obtain ⟨⟨l', res'⟩, hl', hst⟩ := bind_ok_inv hst
      cases hst
      have hr := stepTask_rank (hS.batch t) (hI.loc t ht) hd hl'
      have e : hi ts t = (ts.getD t (0, 0)).2 := rfl
      obtain ⟨n, s2, h2, h3, h4, h5⟩ := ih _ (by rw [← hk, e]; exact hr) _ hI1 (by simp only [upd_same])
      refine ⟨n + 1, s2, ?_, h3, h4, ?_⟩
      · rw [List.replicate_succ]
        show (step P ts bs s t >>= fun s' => run P ts bs s' (List.replicate n t)) = .ok s2
        rw [hs1]; exact h2
      · intro u hu
        rw [h5 u hu]
        simp only [upd_ne _ _ hu]

/-- C08/C09: no interleaving gets stuck; every execution can be completed. -/
theorem C08_C09_completable {res0 : Outs α} (hS : Setup P ins F len ts bs)
    (hO : ∀ o, o < P.numOutputs → OutputOk P ins F len o (res0 o)) (sch : List Nat) :
    ∃ rest, Res.Ok (run P ts bs (St.init ts res0) (sch ++ rest)) (fun s => s.finished ts.length) := by
  have hA : ∀ o, o < P.numOutputs → AggOk P ins F len o := fun o ho ha => (aggOk (hO o ho) ha).1
  have hT : ∀ o, o < P.numOutputs → TiledOk P ins F len (hdr0 res0) (size0 res0) o := fun o ho => tiledOk (hO o ho)
  have hin := fun o ho ha => (init0_spec (hO o ho) ha).2.1
  obtain ⟨s, hs, hI⟩ := run_inv hS hA hT hin sch (inv_init hS hO)
  have key : ∀ k, k ≤ ts.length → ∀ s, Inv P ins F ts bs (hdr0 res0) (size0 res0) (init0 P ins F res0) s →
      ∃ rest, Res.Ok (run P ts bs s rest) fun s' => Inv P ins F ts bs (hdr0 res0) (size0 res0) (init0 P ins F res0) s' ∧
        ∀ t, t < k → (s'.locs t).pc = .done := by
    intro k
    induction k with
    | zero => intro _ s hI; exact ⟨[], s, rfl, hI, fun t h => by omega⟩
    | succ k ih =>
      intro hk s hI
      obtain ⟨r1, s1, e1, hI1, hd1⟩ := ih (by omega) s hI
      obtain ⟨n, s2, e2, hI2, hd2, ho2⟩ := task_completes hS hA hT hin (t := k) (by omega) _ s1 hI1 rfl
      refine ⟨r1 ++ List.replicate n k, s2, ?_, hI2, ?_⟩
      · rw [run_append, e1]; exact e2
      · intro t ht
        by_cases e : t = k
        · subst e; exact hd2
        · rw [ho2 t e]; exact hd1 t (by omega)
  obtain ⟨rest, s', e, _, hd⟩ := key ts.length (Nat.le_refl _) s hI
  refine ⟨rest, s', by rw [run_append, hs]; exact e, ?_⟩
  intro t ht
  rw [hd t ht]; trivial

/-! ### The batch size -/

/-- C08: the engine's batch size is positive (as `Setup.batch` requires) if there are rows, every row has at least one byte, and
the number of rows per batch fits into 32 bits. -/
theorem C08_batch_size_positive (mem len phy : Nat) (h1 : 0 < len) (h2 : len ≤ mem) (h3 : phy / (mem / len) < 2 ^ 32) :
    Res.Ok (cpuBatchSize mem len phy) (fun b => 1 ≤ b) := by
  have hq : 0 < mem / len := Nat.div_pos h2 h1
  unfold cpuBatchSize
  rw [if_neg (by omega), if_neg (by omega)]
  refine ⟨_, rfl, ?_⟩
  rw [Nat.mod_eq_of_lt]
  · exact Nat.le_max_left _ _
  · omega

/-- Without rows the engine divides by zero. -/
theorem C08_empty_input_undefined (mem phy : Nat) : Res.IsUB (cpuBatchSize mem 0 phy) := ⟨_, rfl⟩

/-- A batch size of 2^32 rows is truncated to 0, and then a task repeats its first batch forever: after the accumulation of the
outputs it is back at the same row. -/
theorem C08_batch_size_truncated_to_zero :
    cpuBatchSize 8 8 (2 ^ 32) = .ok 0 ∧
    ∀ (P : Pipe α) (ru r r2 : Nat) (lres : Nat → DM α) (agg : Nat → Option (DM α)) (res : Outs α),
      stepTask P ru 0 ⟨.acc r r2 lres P.numOutputs, agg⟩ res = .ok (⟨.batch r, agg⟩, res) := by
  refine ⟨by decide, fun P ru r r2 lres agg res => ?_⟩
  unfold stepTask
  simp

end Verif.Vect
