import Verif.Sched.Model
import Verif.Sched.Spec
import Mathlib.Tactic.Ring
namespace Verif.Sched
open Verif.Spec

/-- Invariant of the partitioner between calls. -/
structure LP.Inv (s : LP) : Prop where
  sum : s.scheduledTasks + s.remainingTasks = s.totalTasks
  cp : 1 ≤ s.chunkParam

/-- The tasks' row ranges. -/
def Task.range (t : Task) : Nat × Nat := (t.lo, t.hi)

theorem mk'_inv (m : Scheme) (tasks chunk workers : Nat) (auto : Bool) (fl : FloatParts) (h : 1 ≤ chunk) :
    (LP.mk' m tasks chunk workers auto fl).Inv := by
  constructor
  · simp [LP.mk']
  · simp only [LP.mk']; split
    · split <;> omega
    · exact h

theorem clamp_pos (i : Int) : 1 ≤ clampChunkParam i := by
  unfold clampChunkParam; split <;> omega

/-- What one call of `getNextChunk` does while chunks remain. -/
theorem getNextWith_spec (s : LP) (raw : Nat) (h : s.Inv) (hn : s.hasNext = true) :
    let r := s.getNextWith raw
    0 < r.1 ∧ r.1 ≤ s.remainingTasks ∧ r.2.Inv ∧ r.2.totalTasks = s.totalTasks ∧
      r.2.remainingTasks = s.remainingTasks - r.1 ∧ r.2.chunkParam = s.chunkParam ∧
      (r.1 = s.remainingTasks ∨ s.chunkParam ≤ r.1) := by
  have hn' : s.scheduledTasks < s.totalTasks := by simpa [LP.hasNext] using hn
  have h1 := h.sum; have h2 := h.cp
  refine ⟨?_, ?_, ⟨?_, ?_⟩, rfl, rfl, rfl, ?_⟩ <;> simp only [LP.getNextWith] <;> omega

theorem hasNext_false {s : LP} (h : s.Inv) (hn : ¬ s.hasNext = true) : s.remainingTasks = 0 := by
  have hn' : ¬ s.scheduledTasks < s.totalTasks := by simpa [LP.hasNext] using hn
  have := h.sum; omega

/-- `Stable raw s`: `raw` returns a value in `s` and in every state reachable from `s` by `getNextChunk`. -/
def Stable (P : LP → Prop) (raw : LP → Res Nat) : Prop :=
  ∀ s, P s → (∃ c, raw s = .ok c) ∧ ∀ c, P (s.getNextWith c).2

theorem produce_spec {P : LP → Prop} {raw : LP → Res Nat} (hst : Stable P raw) (q : Nat) :
    ∀ (fuel : Nat) (s : LP) (start itr : Nat), P s → s.Inv → s.remainingTasks ≤ fuel →
    ∃ ts, produce raw q fuel s start itr = .ok (some ts) ∧
      Tiles start (start + s.remainingTasks) (ts.map Task.range) ∧
      (∀ t ∈ ts, t.hi = start + s.remainingTasks ∨ s.chunkParam ≤ t.hi - t.lo) ∧
      ∀ k (hk : k < ts.length), ts[k].queue = (itr + k) % q := by
  intro fuel
  induction fuel with
  | zero =>
    intro s start itr hP h hf
    have hn : ¬ s.hasNext = true := by have := h.sum; simp [LP.hasNext]; omega
    refine ⟨[], by simp [produce, hn], ?_, by simp, by simp⟩
    have := hasNext_false h hn
    simp [Tiles, this]
  | succ fuel ih =>
    intro s start itr hP h hf
    by_cases hn : s.hasNext = true
    · obtain ⟨⟨c0, hc0⟩, hP'⟩ := hst s hP
      have hsp := getNextWith_spec s c0 h hn
      rcases hr : s.getNextWith c0 with ⟨c, s'⟩
      rw [hr] at hsp
      obtain ⟨g1, g2, g3, g4, g5, g6, g7⟩ := hsp
      simp only at g1 g2 g3 g4 g5 g6 g7
      have hPs : P s' := by have := hP' c0; rw [hr] at this; exact this
      obtain ⟨ts, e1, e2, em, e3⟩ := ih s' (start + c) (itr + 1) hPs g3 (by omega)
      refine ⟨{ lo := start, hi := start + c, queue := itr % q } :: ts, ?_, ?_, ?_, ?_⟩
      · simp only [produce, hn, if_true, hc0]
        simp [bind, Except.bind, hr, e1, pure, Except.pure]
      · simp only [List.map_cons, Task.range, Tiles, true_and]
        refine ⟨by omega, ?_⟩
        rw [show start + s.remainingTasks = start + c + s'.remainingTasks by omega]
        exact e2
      · intro t ht
        rcases List.mem_cons.1 ht with rfl | ht
        · simp only; omega
        · have := em t ht; omega
      · intro k hk
        cases k with
        | zero => simp
        | succ k =>
          simp only [List.getElem_cons_succ]
          rw [e3 k (by simpa using hk), show itr + 1 + k = itr + (k + 1) by omega]
    · refine ⟨[], by simp [produce, hn], ?_, by simp, by simp⟩
      have := hasNext_false h hn
      simp [Tiles, this]

theorem produceTo_spec {P : LP → Prop} {raw : LP → Res Nat} (hst : Stable P raw) (q : Nat) :
    ∀ (fuel : Nat) (s : LP) (start : Nat), P s → s.Inv → s.remainingTasks ≤ fuel →
    ∃ ts, produceTo raw q fuel s start = .ok (some (ts, start + s.remainingTasks)) ∧
      Tiles start (start + s.remainingTasks) (ts.map Task.range) ∧
      ∀ t ∈ ts, t.queue = q ∧ (t.hi = start + s.remainingTasks ∨ s.chunkParam ≤ t.hi - t.lo) := by
  intro fuel
  induction fuel with
  | zero =>
    intro s start hP h hf
    have hn : ¬ s.hasNext = true := by have := h.sum; simp [LP.hasNext]; omega
    have := hasNext_false h hn
    refine ⟨[], by simp [produceTo, hn, this], ?_, by simp⟩
    simp [Tiles, this]
  | succ fuel ih =>
    intro s start hP h hf
    by_cases hn : s.hasNext = true
    · obtain ⟨⟨c0, hc0⟩, hP'⟩ := hst s hP
      have hsp := getNextWith_spec s c0 h hn
      rcases hr : s.getNextWith c0 with ⟨c, s'⟩
      rw [hr] at hsp
      obtain ⟨g1, g2, g3, g4, g5, g6, g7⟩ := hsp
      simp only at g1 g2 g3 g4 g5 g6 g7
      have hPs : P s' := by have := hP' c0; rw [hr] at this; exact this
      obtain ⟨ts, e1, e2, e3⟩ := ih s' (start + c) hPs g3 (by omega)
      have hsum : start + s.remainingTasks = start + c + s'.remainingTasks := by omega
      refine ⟨{ lo := start, hi := start + c, queue := q } :: ts, ?_, ?_, ?_⟩
      · simp only [produceTo, hn, if_true, hc0]
        simp [bind, Except.bind, hr, e1, pure, Except.pure, hsum]
      · simp only [List.map_cons, Task.range, Tiles, true_and]
        refine ⟨by omega, ?_⟩
        rw [hsum]
        exact e2
      · intro t ht
        rcases List.mem_cons.1 ht with rfl | ht
        · refine ⟨rfl, ?_⟩; simp only; omega
        · have := e3 t ht; exact ⟨this.1, by omega⟩
    · have := hasNext_false h hn
      refine ⟨[], by simp [produceTo, hn, this], ?_, by simp⟩
      simp [Tiles, this]

/-- Sum of the rows the partitioners still have to hand out. -/
def remSum (lps : List LP) : Nat := (lps.map LP.remainingTasks).sum

theorem producePre_spec {P : LP → Prop} {raw : LP → Res Nat} (hst : Stable P raw) (fuel : Nat) :
    ∀ (lps : List LP) (q start : Nat),
      (∀ lp ∈ lps, P lp ∧ lp.Inv ∧ lp.remainingTasks ≤ fuel) →
    ∃ ts, producePre raw fuel lps q start = .ok (some ts) ∧
      Tiles start (start + remSum lps) (ts.map Task.range) ∧
      (∀ t ∈ ts, q ≤ t.queue ∧ t.queue < q + lps.length) ∧
      ∀ i (hi : i < lps.length),
        Tiles (start + remSum (lps.take i)) (start + remSum (lps.take (i + 1)))
          ((ts.filter (fun t => t.queue = q + i)).map Task.range) := by
  intro lps
  induction lps with
  | nil => intro q start _; exact ⟨[], rfl, by simp [Tiles, remSum], by simp, by simp⟩
  | cons lp lps ih =>
    intro q start hall
    obtain ⟨hP, hI, hF⟩ := hall lp (by simp)
    obtain ⟨ts, e1, e2, e3⟩ := produceTo_spec hst q fuel lp start hP hI hF
    obtain ⟨us, f1, f2, f3, f4⟩ := ih (q + 1) (start + lp.remainingTasks) (fun l hl => hall l (by simp [hl]))
    have hsum : start + remSum (lp :: lps) = start + lp.remainingTasks + remSum lps := by
      simp [remSum]; omega
    refine ⟨ts ++ us, ?_, ?_, ?_, ?_⟩
    · simp [producePre, e1, bind, Except.bind, f1, pure, Except.pure]
    · rw [List.map_append, hsum]; exact e2.append f2
    · intro t ht
      rcases List.mem_append.1 ht with ht | ht
      · have := (e3 t ht).1; simp only [List.length_cons]; omega
      · have := f3 t ht; simp only [List.length_cons]; omega
    · intro i hi
      rw [List.filter_append]
      cases i with
      | zero =>
        have h1 : ts.filter (fun t => decide (t.queue = q + 0)) = ts := by
          apply List.filter_eq_self.2; intro t ht; simp [(e3 t ht).1]
        have h2 : us.filter (fun t => decide (t.queue = q + 0)) = [] := by
          apply List.filter_eq_nil_iff.2; intro t ht; have := f3 t ht; simp; omega
        rw [h1, h2]
        simpa [remSum] using e2
      | succ i =>
        have h1 : ts.filter (fun t => decide (t.queue = q + (i + 1))) = [] := by
          apply List.filter_eq_nil_iff.2; intro t ht; simp [(e3 t ht).1]
        rw [h1, List.nil_append]
        have := f4 i (by simpa using hi)
        have e : q + (i + 1) = q + 1 + i := by omega
        simp only [e]
        have r1 : start + lp.remainingTasks + remSum (lps.take i) = start + remSum ((lp :: lps).take (i + 1)) := by
          simp [remSum]; omega
        have r2 : start + lp.remainingTasks + remSum (lps.take (i + 1)) =
            start + remSum ((lp :: lps).take (i + 1 + 1)) := by
          simp [remSum]; omega
        rw [r1, r2] at this
        exact this

/-! Raw chunk sizes of the code never fail for at least one worker (and at least two FISS stages). -/

theorem divUp_ok {a b : Nat} (h : 0 < b) : divUp a b = .ok (ceilDiv a b) := by
  simp [divUp]; omega
theorem divDown_ok {a b : Nat} (h : 0 < b) : divDown a b = .ok (a / b) := by
  simp [divDown]; omega

/-- Condition under which `rawChunk` has no undefined behaviour. -/
def ChunkDefined (s : LP) : Prop := 0 < s.totalWorkers ∧ (s.scheme = .fiss → 2 ≤ s.fissStages)

theorem rawChunk_ok (s : LP) (h : ChunkDefined s) : ∃ c, s.rawChunk = .ok c := by
  obtain ⟨h1, h2⟩ := h
  have p2 : ∀ k : Nat, 0 < 2 ^ k := fun k => Nat.pow_pos (by decide)
  unfold LP.rawChunk
  have m1 : 0 < (2 + s.fissStages) * s.totalWorkers := Nat.mul_pos (by omega) h1
  have m2 : 0 < 2 * s.totalWorkers := by omega
  have m3 : 0 < 3 * s.totalWorkers := by omega
  have m4 : 0 < 4 := by decide
  split <;> first
    | exact ⟨_, rfl⟩
    | (simp only [divUp_ok h1, divDown_ok h1, divUp_ok (p2 _), divUp_ok m1, bind, Except.bind, pure, Except.pure,
        divUp_ok m2, divUp_ok m3, divUp_ok m4]; try exact ⟨_, rfl⟩)
  · have hs := h2 ‹_›
    have : 0 < s.totalWorkers * s.fissStages * (s.fissStages - 1) :=
      Nat.mul_pos (Nat.mul_pos h1 (by omega)) (by omega)
    simp only [divUp_ok this]
    exact ⟨_, rfl⟩
  · split <;> exact ⟨_, rfl⟩

theorem rawChunk_stable : Stable ChunkDefined LP.rawChunk := by
  intro s h
  exact ⟨rawChunk_ok s h, fun c => h⟩

theorem oracle_stable (raw : LP → Nat) : Stable (fun _ => True) (fun s => .ok (raw s)) :=
  fun s _ => ⟨⟨_, rfl⟩, fun _ => trivial⟩


/-! Distributed ranges. -/

/-- Start of the `i`-th of `n` balanced blocks of `len` elements. -/
theorem block_le (len n i : Nat) : i * (len / n) + min i (len % n) ≤ (i + 1) * (len / n) + min (i + 1) (len % n) := by
  generalize len / n = k
  have : (i + 1) * k = i * k + k := by ring
  omega

theorem block_end (len n : Nat) (hn : 0 < n) : n * (len / n) + min n (len % n) = len := by
  have := Nat.div_add_mod len n
  have h2 := Nat.mod_lt len hn
  omega

/-- A sequence of block boundaries gives a tiling. -/
theorem tilesE_of_bounds (f : Nat → Nat) (hf : ∀ i, f i ≤ f (i + 1)) (n : Nat) :
    TilesE (f 0) (f n) ((List.range n).map (fun i => (f i, f (i + 1)))) := by
  have key : ∀ (n k : Nat), TilesE (f k) (f (k + n)) ((List.range' k n).map (fun i => (f i, f (i + 1)))) := by
    intro n
    induction n with
    | zero => intro k; simp [TilesE]
    | succ n ih =>
      intro k
      rw [List.range'_succ]
      simp only [List.map_cons, TilesE, true_and]
      refine ⟨hf k, ?_⟩
      have := ih (k + 1)
      rw [show k + 1 + n = k + (n + 1) by omega] at this
      exact this
  have := key n 0
  simpa [List.range_eq_range'] using this

theorem mapM_ok {α β : Type} (f : α → Res β) (g : α → β) :
    ∀ (l : List α), (∀ a ∈ l, f a = .ok (g a)) → l.mapM f = .ok (l.map g) := by
  intro l
  induction l with
  | nil => intro _; rfl
  | cons a l ih =>
    intro h
    rw [List.mapM_cons, h a (by simp), ih (fun b hb => h b (by simp [hb]))]
    rfl

/-! `getStages` for few tasks. -/
theorem getStages_few (tasks workers : Nat) (hle : tasks ≤ workers) (hw : 0 < tasks) :
    ∀ (fuel sch : Nat), tasks ≤ sch + fuel → sch ≤ tasks → getStagesLoop tasks workers fuel 0 sch sch = some 1 := by
  intro fuel
  induction fuel with
  | zero => intro sch h1 h2; simp only [getStagesLoop]; rw [if_neg (by omega)]
  | succ fuel ih =>
    intro sch h1 h2
    simp only [getStagesLoop]
    split
    · have hd : sch / workers = 0 := Nat.div_eq_of_lt (by omega)
      have hc : ceilDiv tasks (2 ^ (sch / workers + 1) * workers) = 1 := by
        rw [hd]; unfold ceilDiv
        simp only [Nat.zero_add, Nat.pow_one]
        rw [Nat.div_eq_iff (by omega)]; omega
      rw [hd, ← hd, hc, hd]
      exact ih (sch + 1) (by omega) (by omega)
    · rfl

end Verif.Sched
