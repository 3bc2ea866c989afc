import Verif.Queue.Lemmas
/-
  Invariants of the worker pool.
-/
namespace Verif.Queue

/-- Queue `q` is closed and empty. -/
def Drained (s : State) (q : Nat) : Prop := ∃ qs, s.queues[q]? = some qs ∧ qs.closed = true ∧ qs.data = []

/-- Number of closed queues according to the producer's program counter. -/
def numClosed (n : Nat) : PPC → Nat
  | .enq _ | .wait _ | .notify _ _ => 0
  | .closing i => i
  | .notifyAll i => i + 1
  | .joining => n

/-- Number of queues whose sleepers have all been woken after closing. -/
def numNotified (n : Nat) : PPC → Nat
  | .enq _ | .wait _ | .notify _ _ => 0
  | .closing i => i
  | .notifyAll i => i
  | .joining => n

/-- Tasks the producer still has to enqueue. -/
def pend : PPC → List (Nat × Nat)
  | .enq r | .wait r | .notify _ r => r
  | _ => []

/-- Tasks a worker holds. -/
def held (w : Worker) : List Nat :=
  match w.pc with
  | .notify t | .exec t => [t]
  | _ => []

/-- Additive weights of task lists: number of occurrences of a task, or number of tasks. -/
structure Additive (g : List Nat → Nat) : Prop where
  nil : g [] = 0
  app : ∀ a b, g (a ++ b) = g a + g b

theorem Additive.cons {g : List Nat → Nat} (h : Additive g) (t : Nat) (l : List Nat) : g (t :: l) = g [t] + g l := by
  have := h.app [t] l; simpa using this

/-- Weight of all tasks in the system. -/
def total (g : List Nat → Nat) (s : State) : Nat :=
  g s.executed + (s.workers.map (fun w => g (held w))).sum + (s.queues.map (fun q => g q.data)).sum +
    g ((pend s.prod).map Prod.fst)

structure Inv (cfg : Cfg) (tasks : List (Nat × Nat)) (s : State) : Prop where
  nq : s.queues.length = cfg.numQueues
  ctl : ∀ w ∈ s.workers, CtlWF cfg w.ctl
  seen : ∀ w ∈ s.workers, ∀ q, q < cfg.numQueues → (w.pc = .done ∨ Seen cfg w.ctl q) → Drained s q
  closed : ∀ q qs, s.queues[q]? = some qs → (qs.closed = true ↔ q < numClosed cfg.numQueues s.prod)
  nc : numClosed cfg.numQueues s.prod ≤ cfg.numQueues
  sleep : ∀ w ∈ s.workers, w.pc = .waiting → numNotified cfg.numQueues s.prod ≤ w.ctl.target
  pendq : ∀ p ∈ pend s.prod, p.2 < cfg.numQueues
  waitne : ∀ r, s.prod = .wait r → r ≠ []
  cons : ∀ g, Additive g → total g s = g (tasks.map Prod.fst)

theorem inv_init (cfg : Cfg) (cap : Nat) (starts : List Nat) (tasks : List (Nat × Nat))
    (hst : ∀ q ∈ starts, q < cfg.numQueues) (htk : ∀ p ∈ tasks, p.2 < cfg.numQueues) :
    Inv cfg tasks (init cfg cap starts tasks) := by
  have hw : ∀ w ∈ (init cfg cap starts tasks).workers, ∃ q i, q < cfg.numQueues ∧
      w = { ctl := { target := q, start := q, dom := cfg.phys i, phase := .own }, pc := .deq } := by
    intro w hw
    simp only [init, List.mem_map] at hw
    obtain ⟨⟨q, i⟩, hm, rfl⟩ := hw
    have := List.mem_zipIdx hm
    exact ⟨q, i, hst q (by rw [this.2.2]; exact List.getElem_mem _), rfl⟩
  constructor
  · simp [init]
  · intro w h; obtain ⟨q, i, hq, rfl⟩ := hw w h; exact ⟨hq, hq, rfl⟩
  · intro w h; obtain ⟨q, i, hq, rfl⟩ := hw w h
    intro q' _ hs; rcases hs with hs | hs
    · simp at hs
    · exact absurd hs (by simp [Seen])
  · intro q qs h
    simp only [init] at h
    have := List.mem_replicate.1 (mem_of_get h)
    simp [this.2, numClosed, init]
  · simp [init, numClosed]
  · intro w h; obtain ⟨q, i, hq, rfl⟩ := hw w h; simp
  · exact htk
  · intro r h; simp [init] at h
  · intro g hg
    have h1 : (init cfg cap starts tasks).workers.map (fun w => g (held w)) =
        List.replicate (init cfg cap starts tasks).workers.length 0 := by
      rw [← List.length_map (f := fun w => g (held w)) (as := (init cfg cap starts tasks).workers)]
      apply List.eq_replicate_of_mem
      intro b hb; simp only [List.mem_map] at hb
      obtain ⟨w, hwm, rfl⟩ := hb
      obtain ⟨q, i, _, rfl⟩ := hw w hwm
      exact hg.nil
    unfold total
    rw [h1]
    simp [init, hg.nil, pend]

/-! Preservation. -/

/-- Effect of a wake-up of sleeping threads on everything the invariant speaks about. -/
theorem notifyOne_inv {cfg : Cfg} {tasks : List (Nat × Nat)} {q : Nat} {s s' : State} (h : NotifyOne q s s')
    (hi : Inv cfg tasks s) : Inv cfg tasks s' := by
  cases h with
  | none => exact hi
  | worker i w hw hpc htgt =>
    have hm := mem_of_get hw
    have key : ∀ w' ∈ s.workers.set i { w with pc := .deq }, ∃ w₀ ∈ s.workers, w'.ctl = w₀.ctl ∧ (w'.pc = w₀.pc ∨ w'.pc = .deq) := by
      intro w' h'
      rcases mem_of_set h' with rfl | h'
      · exact ⟨w, hm, rfl, Or.inr rfl⟩
      · exact ⟨w', h', rfl, Or.inl rfl⟩
    refine ⟨hi.nq, ?_, ?_, hi.closed, hi.nc, ?_, hi.pendq, hi.waitne, ?_⟩
    · intro w' h'; obtain ⟨w₀, h0, e1, _⟩ := key w' h'; rw [e1]; exact hi.ctl w₀ h0
    · intro w' h' q' hq' hs
      obtain ⟨w₀, h0, e1, e2⟩ := key w' h'
      apply hi.seen w₀ h0 q' hq'
      rw [e1] at hs
      rcases hs with hs | hs
      · rcases e2 with e2 | e2
        · exact Or.inl (e2 ▸ hs)
        · rw [e2] at hs; cases hs
      · exact Or.inr hs
    · intro w' h' hp
      obtain ⟨w₀, h0, e1, e2⟩ := key w' h'
      rw [e1]; apply hi.sleep w₀ h0
      rcases e2 with e2 | e2
      · rw [← e2, hp]
      · rw [e2] at hp; cases hp
    · intro g hg
      have := hi.cons g hg
      have hs := sum_set (fun w => g (held w)) s.workers i w { w with pc := .deq } hw
      have e1 : g (held w) = 0 := by simp [held, hpc, hg.nil]
      have e2 : g (held { w with pc := .deq }) = 0 := by simp [held, hg.nil]
      unfold total at *
      simp only at *
      omega
  | prod t rest hp =>
    refine ⟨hi.nq, hi.ctl, hi.seen, ?_, ?_, ?_, ?_, by simp, ?_⟩
    · have := hi.closed; rw [hp] at this; exact this
    · simp [numClosed]
    · have := hi.sleep; rw [hp] at this; exact this
    · have := hi.pendq; rw [hp] at this; exact this
    · intro g hg; have := hi.cons g hg; unfold total at *; rw [hp] at this; exact this

/-- A worker update that keeps queues and producer. -/
theorem inv_set_worker {cfg : Cfg} {tasks : List (Nat × Nat)} {s : State} {i : Nat} {w w' : Worker} {ex : List Nat}
    (hi : Inv cfg tasks s) (hw : s.workers[i]? = some w) (hctl : CtlWF cfg w'.ctl)
    (hseen : ∀ q, q < cfg.numQueues → (w'.pc = .done ∨ Seen cfg w'.ctl q) → Drained s q)
    (hsleep : w'.pc = .waiting → numNotified cfg.numQueues s.prod ≤ w'.ctl.target)
    (hcons : ∀ g, Additive g → g ex + g (held w') = g s.executed + g (held w)) :
    Inv cfg tasks { s with workers := s.workers.set i w', executed := ex } := by
  refine ⟨hi.nq, ?_, ?_, hi.closed, hi.nc, ?_, hi.pendq, hi.waitne, ?_⟩
  · intro x h; rcases mem_of_set h with rfl | h
    · exact hctl
    · exact hi.ctl x h
  · intro x h; rcases mem_of_set h with rfl | h
    · exact hseen
    · exact hi.seen x h
  · intro x h; rcases mem_of_set h with rfl | h
    · exact hsleep
    · exact hi.sleep x h
  · intro g hg
    have h1 := hi.cons g hg
    have h2 := sum_set (fun w => g (held w)) s.workers i w w' hw
    have h3 := hcons g hg
    unfold total at *
    simp only at *
    omega

theorem deq_task {qs qs' : QState} {t : Nat} (h : qs.deq = .task t qs') :
    qs.data = t :: qs'.data ∧ qs'.closed = qs.closed ∧ qs'.cap = qs.cap := by
  unfold QState.deq at h
  split at h
  · split at h <;> cases h
  · cases h; exact ⟨‹_›, rfl, rfl⟩

theorem deq_eof {qs : QState} (h : qs.deq = .eof) : qs.data = [] ∧ qs.closed = true := by
  unfold QState.deq at h
  split at h
  · split at h
    · exact ⟨‹_›, ‹_›⟩
    · cases h
  · cases h

theorem deq_wait {qs : QState} (h : qs.deq = .wait) : qs.data = [] ∧ qs.closed = false := by
  unfold QState.deq at h
  split at h
  · split at h
    · cases h
    · rename_i hd hc; exact ⟨hd, by simpa using hc⟩
  · cases h

theorem enq_some {qs qs' : QState} {t : Nat} (h : qs.enq t = some qs') :
    qs'.data = qs.data ++ [t] ∧ qs'.closed = qs.closed ∧ qs.data.length < qs.cap ∧ qs'.cap = qs.cap := by
  unfold QState.enq at h
  split at h
  · cases h
  · cases h; exact ⟨rfl, rfl, by omega, rfl⟩

theorem inv_step {cfg : Cfg} {tasks : List (Nat × Nat)} {s s' : State} {b : Bool} (h : Step cfg s b s')
    (hi : Inv cfg tasks s) : Inv cfg tasks s' := by
  cases h with
  | pEnq t q rest qs qs' hp hq he =>
    obtain ⟨e1, e2, e3, e4⟩ := enq_some he
    have hcl : qs.closed = false := by
      have := hi.closed q qs hq; rw [hp] at this; simpa [numClosed] using this
    have hdr : ∀ x, Drained s x → Drained { s with queues := s.queues.set q qs', prod := .notify q rest } x := by
      intro x ⟨ys, h1, h2, h3⟩
      refine ⟨ys, ?_, h2, h3⟩
      rw [get_set hq]
      split
      · subst ‹x = q›; rw [hq] at h1; cases h1; rw [hcl] at h2; cases h2
      · exact h1
    refine ⟨by simpa using hi.nq, hi.ctl, fun w hw x hx hs => hdr x (hi.seen w hw x hx hs), ?_, by simp [numClosed],
      by intro w _ _; simp [numNotified], ?_, by simp, ?_⟩
    · intro x xs hx
      rw [get_set hq] at hx
      split at hx
      · cases hx; simp [numClosed, e2, hcl]
      · have := hi.closed x xs hx; rw [hp] at this; exact this
    · have := hi.pendq; rw [hp] at this
      intro p hp'; exact this p (by simp only [pend] at *; simp [hp'])
    · intro g hg
      have h1 := hi.cons g hg
      have h2 := sum_set (fun q => g q.data) s.queues q qs qs' hq
      unfold total at *
      rw [hp] at h1
      simp only [pend, List.map_cons] at *
      rw [hg.cons] at h1
      rw [e1, hg.app] at h2
      omega
  | pFull t q rest qs hp hq he =>
    refine ⟨hi.nq, hi.ctl, hi.seen, ?_, by simp [numClosed], ?_, ?_, by simp, ?_⟩
    · have := hi.closed; rw [hp] at this; exact this
    · have := hi.sleep; rw [hp] at this; exact this
    · have := hi.pendq; rw [hp] at this; exact this
    · intro g hg; have := hi.cons g hg; unfold total at *; rw [hp] at this; exact this
  | pNotify _ q rest hp hn =>
    apply notifyOne_inv hn
    refine ⟨hi.nq, hi.ctl, hi.seen, ?_, by simp [numClosed], ?_, ?_, by simp, ?_⟩
    · have := hi.closed; rw [hp] at this; exact this
    · have := hi.sleep; rw [hp] at this; exact this
    · have := hi.pendq; rw [hp] at this; exact this
    · intro g hg; have := hi.cons g hg; unfold total at *; rw [hp] at this; exact this
  | pEnqDone hp =>
    refine ⟨hi.nq, hi.ctl, hi.seen, ?_, by simp [numClosed], ?_, by simp [pend], by simp, ?_⟩
    · have := hi.closed; rw [hp] at this; exact this
    · have := hi.sleep; rw [hp] at this; exact this
    · intro g hg; have := hi.cons g hg; unfold total at *; rw [hp] at this; exact this
  | pClose i qs hp hq =>
    have hlt : i < cfg.numQueues := by
      have := (List.getElem?_eq_some_iff.1 hq).1; rw [hi.nq] at this; exact this
    refine ⟨by simpa using hi.nq, hi.ctl, ?_, ?_, by simp [numClosed]; omega, ?_, by simp [pend], by simp, ?_⟩
    · intro w hw x hx hs
      obtain ⟨ys, h1, h2, h3⟩ := hi.seen w hw x hx hs
      by_cases hxi : x = i
      · subst hxi; rw [hq] at h1; cases h1
        refine ⟨qs.close, ?_, rfl, h3⟩
        rw [get_set hq]; simp
      · refine ⟨ys, ?_, h2, h3⟩
        rw [get_set hq]; simp [hxi, h1]
    · intro x xs hx
      rw [get_set hq] at hx
      split at hx
      · cases hx; simp [QState.close, numClosed]; omega
      · have := hi.closed x xs hx; rw [hp] at this
        simp only [numClosed] at *; rw [this]; omega
    · have := hi.sleep; rw [hp] at this; exact this
    · intro g hg
      have h1 := hi.cons g hg
      have h2 := sum_set (fun q => g q.data) s.queues i qs qs.close hq
      unfold total at *
      rw [hp] at h1
      simp only [pend, QState.close] at *
      omega
  | pNotifyAll i hp =>
    have key : ∀ w' ∈ s.workers.map (wakeOn i), ∃ w₀ ∈ s.workers, w'.ctl = w₀.ctl ∧ held w' = held w₀ ∧
        (w'.pc = .done → w₀.pc = .done) ∧ (w'.pc = .waiting → w₀.pc = .waiting ∧ w₀.ctl.target ≠ i) := by
      intro w' h'
      simp only [List.mem_map] at h'
      obtain ⟨w, hm, rfl⟩ := h'
      refine ⟨w, hm, ?_⟩
      unfold wakeOn
      split
      · rename_i hc; simp [held, hc.1]
      · rename_i hc
        refine ⟨rfl, rfl, id, fun hw => ⟨hw, fun ht => hc ⟨hw, ht⟩⟩⟩
    refine ⟨hi.nq, ?_, ?_, ?_, ?_, ?_, by simp [pend], by simp, ?_⟩
    · intro w' h'; obtain ⟨w₀, h0, e1, _⟩ := key w' h'; rw [e1]; exact hi.ctl w₀ h0
    · intro w' h' x hx hs
      obtain ⟨w₀, h0, e1, _, e3, _⟩ := key w' h'
      apply hi.seen w₀ h0 x hx
      rw [e1] at hs
      rcases hs with hs | hs
      · exact Or.inl (e3 hs)
      · exact Or.inr hs
    · have := hi.closed; rw [hp] at this; exact this
    · have := hi.nc; rw [hp] at this; exact this
    · intro w' h' hw
      obtain ⟨w₀, h0, e1, _, _, e4⟩ := key w' h'
      have h5 := e4 hw
      have := hi.sleep w₀ h0 h5.1; rw [hp] at this
      rw [e1]; simp only [numNotified] at *; omega
    · intro g hg
      have h1 := hi.cons g hg
      have : (s.workers.map (wakeOn i)).map (fun w => g (held w)) = s.workers.map (fun w => g (held w)) := by
        rw [List.map_map]
        apply List.map_congr_left
        intro w _
        simp only [Function.comp, wakeOn]
        split
        · rename_i hc; simp [held, hc.1]
        · rfl
      unfold total at *
      rw [hp] at h1
      rw [this]; exact h1
  | pJoin i hp hl =>
    have hnc := hi.nc; rw [hp] at hnc; simp only [numClosed] at hnc
    have : i = cfg.numQueues := by have := hi.nq; omega
    subst this
    refine ⟨hi.nq, hi.ctl, hi.seen, ?_, by simp [numClosed], ?_, by simp [pend], by simp, ?_⟩
    · have := hi.closed; rw [hp] at this; exact this
    · have := hi.sleep; rw [hp] at this; exact this
    · intro g hg; have := hi.cons g hg; unfold total at *; rw [hp] at this; exact this
  | wTask i w qs qs' t hw hpc hq hd =>
    obtain ⟨e1, e2, _⟩ := deq_task hd
    have hdr : ∀ x, Drained s x → Drained { s with queues := s.queues.set w.ctl.target qs' } x := by
      intro x ⟨ys, h1, h2, h3⟩
      by_cases hx : x = w.ctl.target
      · subst hx; rw [hq] at h1; cases h1; rw [e1] at h3; cases h3
      · refine ⟨ys, ?_, h2, h3⟩
        rw [get_set hq]; simp [hx, h1]
    have hi' : ∀ g, Additive g → total g { s with queues := s.queues.set w.ctl.target qs' } + g [t] = total g s := by
      intro g hg
      have h2 := sum_set (fun q => g q.data) s.queues w.ctl.target qs qs' hq
      rw [e1, hg.cons] at h2
      unfold total; simp only at *; omega
    have hm := mem_of_get hw
    have hmem : ∀ x ∈ s.workers.set i { w with pc := .notify t }, x = { w with pc := .notify t } ∨ x ∈ s.workers :=
      fun x hx => mem_of_set hx
    refine ⟨by simpa using hi.nq, ?_, ?_, ?_, hi.nc, ?_, hi.pendq, hi.waitne, ?_⟩
    · intro x hx; rcases hmem x hx with rfl | hx
      · exact hi.ctl w hm
      · exact hi.ctl x hx
    · intro x hx q hq' hs
      apply hdr q
      rcases hmem x hx with rfl | hx
      · rcases hs with hs | hs
        · cases hs
        · exact hi.seen w hm q hq' (Or.inr hs)
      · exact hi.seen x hx q hq' hs
    · intro x xs hx
      rw [get_set hq] at hx
      split at hx
      · subst ‹x = _›; cases hx
        rw [e2]; exact hi.closed _ _ hq
      · exact hi.closed x xs hx
    · intro x hx hp; rcases hmem x hx with rfl | hx
      · cases hp
      · exact hi.sleep x hx hp
    · intro g hg
      have h1 := hi' g hg
      have h2 := hi.cons g hg
      have h3 := sum_set (fun w => g (held w)) s.workers i w { w with pc := .notify t } hw
      have e3 : g (held w) = 0 := by simp [held, hpc, hg.nil]
      have e4 : g (held { w with pc := WPC.notify t }) = g [t] := by simp [held]
      unfold total at *
      simp only at *
      omega
  | wWait i w qs hw hpc hq hd =>
    obtain ⟨e1, e2⟩ := deq_wait hd
    have hm := mem_of_get hw
    refine inv_set_worker (ex := s.executed) hi hw (hi.ctl w hm) ?_ ?_ ?_
    · intro q hq' hs
      rcases hs with hs | hs
      · cases hs
      · exact hi.seen w hm q hq' (Or.inr hs)
    · intro _
      have := hi.closed _ _ hq
      rw [e2] at this
      have hge : numClosed cfg.numQueues s.prod ≤ w.ctl.target := by
        by_cases hlt : w.ctl.target < numClosed cfg.numQueues s.prod
        · exact absurd (this.2 hlt) (by simp)
        · omega
      have : numNotified cfg.numQueues s.prod ≤ numClosed cfg.numQueues s.prod := by
        cases s.prod <;> simp [numNotified, numClosed]
      simp only; omega
    · intro g hg; simp [held, hpc]
  | wEof i w qs c hw hpc hq hd ha =>
    obtain ⟨e1, e2⟩ := deq_eof hd
    have hm := mem_of_get hw
    have hgood := afterEof_good ha (hi.ctl w hm) (Dr := Drained s)
      (fun q hq' hs => hi.seen w hm q hq' (Or.inr hs)) ⟨qs, hq, e2, e1⟩
    obtain ⟨g1, g2, g3, _⟩ := hgood
    refine inv_set_worker (ex := s.executed) hi hw g1 ?_ (by simp) ?_
    · intro q hq' hs
      rcases hs with hs | hs
      · cases hs
      · exact g2 q hq' hs
    · intro g hg; simp [held, hpc]
  | wEofDone i w qs hw hpc hq hd ha =>
    obtain ⟨e1, e2⟩ := deq_eof hd
    have hm := mem_of_get hw
    have hgood := afterEof_good ha (hi.ctl w hm) (Dr := Drained s)
      (fun q hq' hs => hi.seen w hm q hq' (Or.inr hs)) ⟨qs, hq, e2, e1⟩
    refine inv_set_worker (ex := s.executed) hi hw (hi.ctl w hm) ?_ (by simp) ?_
    · intro q hq' _; exact hgood q hq'
    · intro g hg; simp [held, hpc]
  | wNotify _ i w t hw hpc hn =>
    have hm := mem_of_get hw
    apply notifyOne_inv hn
    refine inv_set_worker (ex := s.executed) hi hw (hi.ctl w hm) ?_ (by simp) ?_
    · intro q hq' hs
      rcases hs with hs | hs
      · cases hs
      · exact hi.seen w hm q hq' (Or.inr hs)
    · intro g hg; simp [held, hpc]
  | wExec i w t c hw hpc ha =>
    have hm := mem_of_get hw
    obtain ⟨g1, g2, _⟩ := afterTask_good ha (hi.ctl w hm)
    refine inv_set_worker hi hw g1 ?_ (by simp) ?_
    · intro q hq' hs
      rcases hs with hs | hs
      · cases hs
      · exact hi.seen w hm q hq' (Or.inr (g2 q hs))
    · intro g hg; simp [held, hpc, hg.app, hg.nil]
  | wSpurious i w hw hpc =>
    have hm := mem_of_get hw
    refine inv_set_worker (ex := s.executed) hi hw (hi.ctl w hm) ?_ (by simp) ?_
    · intro q hq' hs
      rcases hs with hs | hs
      · cases hs
      · exact hi.seen w hm q hq' (Or.inr hs)
    · intro g hg; simp [held, hpc]
  | pSpurious rest hp =>
    refine ⟨hi.nq, hi.ctl, hi.seen, ?_, by simp [numClosed], ?_, ?_, by simp, ?_⟩
    · have := hi.closed; rw [hp] at this; exact this
    · have := hi.sleep; rw [hp] at this; exact this
    · have := hi.pendq; rw [hp] at this; exact this
    · intro g hg; have := hi.cons g hg; unfold total at *; rw [hp] at this; exact this

theorem inv_run {cfg : Cfg} {tasks : List (Nat × Nat)} {s s' : State} {k m : Nat} (h : Run cfg s k m s')
    (hi : Inv cfg tasks s) : Inv cfg tasks s' := by
  induction h with
  | refl => exact hi
  | step _ _ _ _ _ hs ih => exact inv_step hs ih
  | spurious _ _ _ _ _ hs ih => exact inv_step hs ih

end Verif.Queue
