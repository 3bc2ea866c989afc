import Verif.Queue.Measure
import Verif.Sched.Props
/-
  Properties C05 - C07: the task queue and the worker pool.
-/
namespace Verif.Queue

/-! ### C05: one queue, any number of producers and consumers -/

/-- The operations threads perform on one queue (each is one critical section; a blocked thread retries later). -/
inductive QOp where
  | enq (t : Nat)
  | deq
  | close
  deriving DecidableEq

/-- The queue together with its observable history: tasks accepted so far, tasks handed out so far, and, for every end marker
    handed out, the two histories at that moment and whether the input was closed. -/
structure QTrace where
  q : QState
  accepted : List Nat
  delivered : List Nat
  eofs : List (List Nat × List Nat × Bool)

/-- One operation on the queue, recorded. -/
def QTrace.step (s : QTrace) : QOp → QTrace
  | .enq t => match s.q.enq t with
    | some q' => { s with q := q', accepted := s.accepted ++ [t] }
    | none => s
  | .deq => match s.q.deq with
    | .task t q' => { s with q := q', delivered := s.delivered ++ [t] }
    | .eof => { s with eofs := s.eofs ++ [(s.accepted, s.delivered, s.q.closed)] }
    | .wait => s
  | .close => { s with q := s.q.close }

def QTrace.start (cap : Nat) : QTrace := ⟨⟨[], cap, false⟩, [], [], []⟩

/-- **C05**: after every sequence of operations (that is, under every interleaving of producers and consumers) the delivered tasks
    are a prefix of the accepted ones (FIFO, nothing lost, nothing twice), the difference is what is stored, never more than the
    capacity, and every end marker was handed out when the input was closed and everything accepted had been delivered. -/
theorem C05_fifo (cap : Nat) (ops : List QOp) :
    let s := ops.foldl QTrace.step (QTrace.start cap)
    s.accepted = s.delivered ++ s.q.data ∧ s.q.data.length ≤ cap ∧
    ∀ e ∈ s.eofs, e.1 = e.2.1 ∧ e.2.2 = true := by
  suffices h : ∀ s : QTrace, (s.accepted = s.delivered ++ s.q.data ∧ s.q.data.length ≤ cap ∧ s.q.cap = cap ∧
      ∀ e ∈ s.eofs, e.1 = e.2.1 ∧ e.2.2 = true) →
      (fun s : QTrace => s.accepted = s.delivered ++ s.q.data ∧ s.q.data.length ≤ cap ∧ s.q.cap = cap ∧
      ∀ e ∈ s.eofs, e.1 = e.2.1 ∧ e.2.2 = true) (ops.foldl QTrace.step s) by
    obtain ⟨h1, h2, _, h4⟩ := h (QTrace.start cap) ⟨rfl, Nat.zero_le _, rfl, by simp [QTrace.start]⟩
    exact ⟨h1, h2, h4⟩
  induction ops with
  | nil => intro s h; exact h
  | cons op ops ih =>
    intro s ⟨h1, h2, h3, h4⟩
    apply ih
    cases op with
    | enq t =>
      simp only [QTrace.step]
      split
      · rename_i q' he
        obtain ⟨e1, _, e3, e4⟩ := enq_some he
        refine ⟨?_, ?_, by rw [e4, h3], h4⟩
        · simp only [e1, h1, List.append_assoc]
        · simp only [e1, List.length_append, List.length_singleton]; omega
      · exact ⟨h1, h2, h3, h4⟩
    | deq =>
      simp only [QTrace.step]
      split
      · rename_i t q' hd
        obtain ⟨e1, _, e4⟩ := deq_task hd
        rw [e1] at h1 h2
        refine ⟨?_, ?_, by rw [e4, h3], h4⟩
        · simp only [h1, List.append_assoc, List.singleton_append]
        · simp only [List.length_cons] at h2; simp only; omega
      · rename_i hd
        obtain ⟨e1, e2⟩ := deq_eof hd
        refine ⟨h1, h2, h3, ?_⟩
        intro e he
        rcases List.mem_append.1 he with he | he
        · exact h4 e he
        · simp only [List.mem_singleton] at he; subst he
          rw [e1, List.append_nil] at h1
          exact ⟨h1, e2⟩
      · exact ⟨h1, h2, h3, h4⟩
    | close => exact ⟨h1, h2, h3, h4⟩

/-- **C05** (when a consumer is served): a dequeue returns a task exactly if one is stored (the oldest), the end marker exactly if
    the queue is empty and closed, and blocks exactly if it is empty and open. An enqueue blocks exactly if the queue is full. -/
theorem C05_outcomes (q : QState) (t : Nat) :
    (∀ ts, q.data = t :: ts → q.deq = .task t { q with data := ts }) ∧
    (q.deq = .eof ↔ q.data = [] ∧ q.closed = true) ∧
    (q.deq = .wait ↔ q.data = [] ∧ q.closed = false) ∧
    (q.enq t = none ↔ q.cap ≤ q.data.length) := by
  refine ⟨?_, ⟨deq_eof, ?_⟩, ⟨deq_wait, ?_⟩, ?_⟩
  · intro ts h; simp [QState.deq, h]
  · intro ⟨h1, h2⟩; simp [QState.deq, h1, h2]
  · intro ⟨h1, h2⟩; simp [QState.deq, h1, h2]
  · unfold QState.enq
    split
    · simp; omega
    · simp; omega

example : ([QOp.enq 7, .enq 8, .enq 9, .deq, .close, .deq, .deq].foldl QTrace.step (QTrace.start 2)).eofs = [([7, 8], [7, 8], true)] := by
  decide

/-! ### C06: every task is executed exactly once -/

/-- **C06**: for every queue layout, victim selection, topology, number of workers (at least one; worker `i` starts at any valid
    queue `starts[i]`), queue capacity, list of (task, queue) pairs to enqueue and every interleaving including spurious wake-ups:
    once all workers have terminated, the executed tasks are exactly the enqueued tasks, each as often as it was enqueued. -/
theorem C06_each_task_executed_once (cfg : Cfg) (cap : Nat) (starts : List Nat) (tasks : List (Nat × Nat))
    (hw : starts ≠ []) (hst : ∀ q ∈ starts, q < cfg.numQueues) (htk : ∀ p ∈ tasks, p.2 < cfg.numQueues)
    (k m : Nat) (s : State) (hr : Run cfg (init cfg cap starts tasks) k m s) (hdone : ∀ w ∈ s.workers, w.pc = .done) :
    s.executed.Perm (tasks.map Prod.fst) := by
  have hi := inv_run hr (inv_init cfg cap starts tasks hst htk)
  have hlen := (weight_run hr (inv_init cfg cap starts tasks hst htk)).2
  have hne : 0 < s.workers.length := by
    rw [hlen]; simp [init]
    exact List.length_pos_iff.2 hw
  have hempty : ∀ qs ∈ s.queues, qs.closed = true ∧ qs.data = [] := by
    intro qs hq
    obtain ⟨q, hq⟩ := List.getElem?_of_mem hq
    have hlt := (List.getElem?_eq_some_iff.1 hq).1
    rw [hi.nq] at hlt
    have hmem := List.getElem_mem hne
    obtain ⟨ys, h1, h2, h3⟩ := hi.seen _ hmem q hlt (Or.inl (hdone _ hmem))
    rw [hq] at h1; cases h1; exact ⟨h2, h3⟩
  -- some queue exists and is closed, hence the producer has nothing left to enqueue
  have hpend : pend s.prod = [] := by
    have hn : 0 < cfg.numQueues := by
      obtain ⟨q, hq⟩ := List.exists_mem_of_ne_nil _ hw
      have := hst q hq; omega
    have hl : 0 < s.queues.length := by rw [hi.nq]; exact hn
    have hcl := (hempty _ (List.getElem_mem hl)).1
    have := (hi.closed 0 s.queues[0] (List.getElem?_eq_getElem hl)).1 hcl
    cases hp : s.prod <;> rw [hp] at this <;> simp [numClosed] at this <;> rfl
  apply List.perm_iff_count.2
  intro t
  have hg : Additive (fun l => l.count t) := ⟨by simp, by intro a b; simp⟩
  have := hi.cons _ hg
  unfold total at this
  have e1 : (s.workers.map (fun w => (held w).count t)).sum = 0 :=
    sum_map_zero _ _ (fun w h => by simp [held, hdone w h])
  have e2 : (s.queues.map (fun q => q.data.count t)).sum = 0 :=
    sum_map_zero _ _ (fun q h => by simp [(hempty q h).2])
  rw [e1, e2, hpend] at this
  simpa using this

/-- **C06** (at any time): no task is ever executed more often than it was enqueued. -/
theorem C06_never_executed_twice (cfg : Cfg) (cap : Nat) (starts : List Nat) (tasks : List (Nat × Nat))
    (hst : ∀ q ∈ starts, q < cfg.numQueues) (htk : ∀ p ∈ tasks, p.2 < cfg.numQueues)
    (k m : Nat) (s : State) (hr : Run cfg (init cfg cap starts tasks) k m s) (t : Nat) :
    s.executed.count t ≤ (tasks.map Prod.fst).count t := by
  have hi := inv_run hr (inv_init cfg cap starts tasks hst htk)
  have hg : Additive (fun l => l.count t) := ⟨by simp, by intro a b; simp⟩
  have := hi.cons _ hg
  unfold total at this
  simp only at this
  omega

/-- Finding: with one queue per NUMA group the worker uses its *physical id* as queue index. If the ids are not `0..n-1`
    (here: two sockets with ids 0 and 2), a worker accesses the queue vector out of bounds. -/
theorem C06_pergroup_index_out_of_range :
    Res.IsUB (startQueue { numQueues := 2, mode := .perGroup, victim := .seq, phys := fun t => 2 * t } 1) := ⟨_, rfl⟩

/-- The starting queues are valid for the centralized layout, and for one queue per CPU with as many workers as queues. -/
theorem C06_starts_valid (cfg : Cfg) (i : Nat) (hn : 0 < cfg.numQueues)
    (h : cfg.mode = .centralized ∨ (cfg.mode = .perCpu ∧ i < cfg.numQueues) ∨
      (cfg.mode = .perGroup ∧ cfg.phys i < cfg.numQueues)) :
    Res.Ok (startQueue cfg i) (fun q => q < cfg.numQueues) := by
  rcases h with h | ⟨h, h'⟩ | ⟨h, h'⟩ <;> simp [startQueue, Res.Ok, *]

/-! ### C07: no deadlock, termination -/

/-- **C07** (no deadlock): if every queue's capacity is at least the number of tasks (the engine uses the number of rows, which by
    C01 is at least the number of tasks), then in every reachable state that is not final some thread can take a step that is not
    a spurious wake-up. -/
theorem C07_no_deadlock (cfg : Cfg) (cap : Nat) (starts : List Nat) (tasks : List (Nat × Nat))
    (hst : ∀ q ∈ starts, q < cfg.numQueues) (htk : ∀ p ∈ tasks, p.2 < cfg.numQueues) (hcap : tasks.length ≤ cap)
    (k m : Nat) (s : State) (hr : Run cfg (init cfg cap starts tasks) k m s) (hnf : ¬ s.Final) :
    ∃ s', Step cfg s false s' := by
  have hi := inv_run hr (inv_init cfg cap starts tasks hst htk)
  -- capacities never change; the producer never sleeps
  have hcapInv : (∀ qs ∈ s.queues, qs.cap = cap) ∧ (∀ r, s.prod ≠ .wait r) := by
    have hg : Additive List.length := ⟨rfl, by intro a b; simp⟩
    clear hnf hi
    induction hr with
    | refl => 
      refine ⟨?_, by simp [init]⟩
      intro qs h; simp only [init] at h; rw [(List.mem_replicate.1 h).2]
    | step s' s'' k m hr hs ih =>
      obtain ⟨c1, c2⟩ := ih
      have hi := inv_run hr (inv_init cfg cap starts tasks hst htk)
      cases hs with
      | pEnq t q rest qs qs' hp hq he =>
        refine ⟨?_, by simp⟩
        intro x hx; rcases mem_of_set hx with rfl | hx
        · rw [(enq_some he).2.2.2]; exact c1 qs (mem_of_get hq)
        · exact c1 x hx
      | pFull t q rest qs hp hq he =>
        exfalso
        have h1 := hi.cons _ hg
        have h2 := sum_set (fun q : QState => q.data.length) s'.queues q qs { qs with data := [] } hq
        simp only [List.length_nil] at h2
        unfold total at h1
        rw [hp] at h1
        simp only [pend, List.length_map, List.length_cons] at h1
        have h3 := ((C05_outcomes qs t).2.2.2).1 he
        rw [c1 qs (mem_of_get hq)] at h3
        omega
      | pNotify _ q rest hp hn =>
        cases hn with
        | none => exact ⟨c1, by simp⟩
        | worker i w hw hpc ht => exact ⟨c1, by simp⟩
        | prod t rest' hp' => cases hp'
      | pEnqDone hp => exact ⟨c1, by simp⟩
      | pClose i qs hp hq =>
        refine ⟨?_, by simp⟩
        intro x hx; rcases mem_of_set hx with rfl | hx
        · exact c1 qs (mem_of_get hq)
        · exact c1 x hx
      | pNotifyAll i hp => exact ⟨c1, by simp⟩
      | pJoin i hp hl => exact ⟨c1, by simp⟩
      | wTask i w qs qs' t hw hpc hq hd =>
        refine ⟨?_, c2⟩
        intro x hx; rcases mem_of_set hx with rfl | hx
        · rw [(deq_task hd).2.2]; exact c1 qs (mem_of_get hq)
        · exact c1 x hx
      | wWait i w qs hw hpc hq hd => exact ⟨c1, c2⟩
      | wEof i w qs c hw hpc hq hd ha => exact ⟨c1, c2⟩
      | wEofDone i w qs hw hpc hq hd ha => exact ⟨c1, c2⟩
      | wNotify _ i w t hw hpc hn =>
        cases hn with
        | none => exact ⟨c1, c2⟩
        | worker i w hw hpc ht => exact ⟨c1, c2⟩
        | prod t rest' hp' => exact absurd hp' (c2 _)
      | wExec i w t c hw hpc ha => exact ⟨c1, c2⟩
    | spurious s' s'' k m hr hs ih =>
      obtain ⟨c1, c2⟩ := ih
      cases hs with
      | wSpurious i w hw hpc => exact ⟨c1, c2⟩
      | pSpurious rest hp => exact absurd hp (c2 _)
  -- notify_one can always be executed
  have hnot : ∀ (q : Nat) (s₁ : State), ∃ s₂, NotifyOne q s₁ s₂ := by
    intro q s₁
    by_cases h1 : ∃ i, s₁.Sleeps i q
    · obtain ⟨i, w, hw, hpc, ht⟩ := h1; exact ⟨_, .worker s₁ i w hw hpc ht⟩
    · by_cases h2 : s₁.ProdSleeps q
      · obtain ⟨t, rest, hp⟩ := h2; exact ⟨_, .prod s₁ t rest hp⟩
      · exact ⟨_, .none s₁ (fun i h => h1 ⟨i, h⟩) h2⟩
  cases hp : s.prod with
  | enq r =>
    cases r with
    | nil => exact ⟨_, .pEnqDone s hp⟩
    | cons p rest =>
      obtain ⟨t, q⟩ := p
      have hq : q < s.queues.length := by rw [hi.nq]; exact hi.pendq (t, q) (by rw [hp]; simp [pend])
      cases he : s.queues[q].enq t with
      | none => exact ⟨_, .pFull s t q rest _ hp (List.getElem?_eq_getElem hq) he⟩
      | some qs' => exact ⟨_, .pEnq s t q rest _ qs' hp (List.getElem?_eq_getElem hq) he⟩
  | wait r => exact absurd hp (hcapInv.2 r)
  | notify q rest =>
    obtain ⟨s₂, h⟩ := hnot q { s with prod := .enq rest }
    exact ⟨s₂, .pNotify s s₂ q rest hp h⟩
  | closing i =>
    by_cases hl : i < s.queues.length
    · exact ⟨_, .pClose s i _ hp (List.getElem?_eq_getElem hl)⟩
    · exact ⟨_, .pJoin s i hp (by omega)⟩
  | notifyAll i => exact ⟨_, .pNotifyAll s i hp⟩
  | joining =>
    have : ∃ w ∈ s.workers, w.pc ≠ .done := by
      by_cases hex : ∃ w ∈ s.workers, w.pc ≠ .done
      · exact hex
      · exfalso; apply hnf; refine ⟨hp, fun w hw => ?_⟩
        by_cases hd : w.pc = .done
        · exact hd
        · exact absurd ⟨w, hw, hd⟩ hex
    obtain ⟨w, hwm, hnd⟩ := this
    obtain ⟨i, hw⟩ := List.getElem?_of_mem hwm
    have hctl := hi.ctl w hwm
    have hq : w.ctl.target < s.queues.length := by rw [hi.nq]; exact hctl.tgt
    have hqs := List.getElem?_eq_getElem hq
    cases hpc : w.pc with
    | done => exact absurd hpc hnd
    | waiting =>
      exfalso
      have := hi.sleep w hwm hpc
      rw [hp] at this; simp only [numNotified] at this
      have := hctl.tgt; omega
    | deq =>
      cases hd : s.queues[w.ctl.target].deq with
      | task t qs' => exact ⟨_, .wTask s i w _ qs' t hw hpc hqs hd⟩
      | wait => exact ⟨_, .wWait s i w _ hw hpc hqs hd⟩
      | eof =>
        obtain ⟨o, ho⟩ := afterEof_total cfg w.ctl hctl
        cases o with
        | none => exact ⟨_, .wEofDone s i w _ hw hpc hqs hd ho⟩
        | some c => exact ⟨_, .wEof s i w _ c hw hpc hqs hd ho⟩
    | notify t =>
      obtain ⟨s₂, h⟩ := hnot w.ctl.target { s with workers := s.workers.set i { w with pc := .exec t } }
      exact ⟨s₂, .wNotify s s₂ i w t hw hpc h⟩
    | exec t =>
      obtain ⟨c, hc⟩ := afterTask_total cfg w.ctl hctl
      exact ⟨_, .wExec s i w t c hw hpc hc⟩

/-- **C07** (termination): the number of ordinary steps of any execution is bounded by a number that depends only on the numbers of
    workers, queues and tasks, plus the number of spurious wake-ups - whatever the capacity and the scheduler do. Together with
    `C07_no_deadlock`: every execution with finitely many spurious wake-ups that keeps going as long as some step is possible
    reaches the final state. -/
theorem C07_bounded_executions (cfg : Cfg) (cap : Nat) (starts : List Nat) (tasks : List (Nat × Nat))
    (hst : ∀ q ∈ starts, q < cfg.numQueues) (htk : ∀ p ∈ tasks, p.2 < cfg.numQueues)
    (k m : Nat) (s : State) (hr : Run cfg (init cfg cap starts tasks) k m s) :
    k ≤ starts.length * (2 * cfg.numQueues + 3) + 7 * tasks.length + cfg.numQueues * (starts.length + 3) + 3 + m := by
  have h := (weight_run hr (inv_init cfg cap starts tasks hst htk)).1
  have hl : (init cfg cap starts tasks).workers.length = starts.length := by simp [init]
  rw [hl, weight_init] at h
  omega

/-- **C07** (end to end): from every reachable state, the final state can be reached, and there all tasks are executed. -/
theorem C07_final_reachable (cfg : Cfg) (cap : Nat) (starts : List Nat) (tasks : List (Nat × Nat))
    (hw : starts ≠ []) (hst : ∀ q ∈ starts, q < cfg.numQueues) (htk : ∀ p ∈ tasks, p.2 < cfg.numQueues)
    (hcap : tasks.length ≤ cap)
    (k m : Nat) (s : State) (hr : Run cfg (init cfg cap starts tasks) k m s) :
    ∃ k' s', Run cfg (init cfg cap starts tasks) k' m s' ∧ s'.Final ∧ s'.executed.Perm (tasks.map Prod.fst) := by
  generalize hB : starts.length * (2 * cfg.numQueues + 3) + 7 * tasks.length + cfg.numQueues * (starts.length + 3) + 3 + m = B
  have key : ∀ d k s, B - k ≤ d → Run cfg (init cfg cap starts tasks) k m s →
      ∃ k' s', Run cfg (init cfg cap starts tasks) k' m s' ∧ s'.Final := by
    intro d
    induction d with
    | zero =>
      intro k s hd hr
      by_cases hf : s.Final
      · exact ⟨k, s, hr, hf⟩
      · obtain ⟨s', hs⟩ := C07_no_deadlock cfg cap starts tasks hst htk hcap k m s hr hf
        have hr' := Run.step _ _ _ _ _ hr hs
        have := C07_bounded_executions cfg cap starts tasks hst htk _ _ _ hr'
        omega
    | succ d ih =>
      intro k s hd hr
      by_cases hf : s.Final
      · exact ⟨k, s, hr, hf⟩
      · obtain ⟨s', hs⟩ := C07_no_deadlock cfg cap starts tasks hst htk hcap k m s hr hf
        have hr' := Run.step _ _ _ _ _ hr hs
        have := C07_bounded_executions cfg cap starts tasks hst htk _ _ _ hr'
        exact ih (k + 1) s' (by omega) hr'
  obtain ⟨k', s', hr', hf⟩ := key B k s (by omega) hr
  exact ⟨k', s', hr', hf, C06_each_task_executed_once cfg cap starts tasks hw hst htk k' m s' hr' hf.2⟩

/-- The engine's configuration meets the capacity hypothesis: tasks built by the partitioner of C01 with capacity `len`. -/
theorem C07_engine_capacity (fl : Sched.FloatParts) (scheme : Sched.Scheme) (minimumTaskSize : Int)
    (len numThreads numQueues : Nat) (hw : 0 < numThreads) (hq : 0 < numQueues)
    (hfiss : scheme = .fiss → 2 ≤ fl.fissStages) :
    ∃ ts, Sched.produceAll Sched.LP.rawChunk fl scheme minimumTaskSize len numThreads numQueues len = .ok (some ts) ∧
      ∀ (ids : List Nat), ids.length = ts.length →
        (ids.zip (ts.map Sched.Task.queue)).length ≤ len ∧ ∀ p ∈ ids.zip (ts.map Sched.Task.queue), p.2 < numQueues := by
  obtain ⟨ts, h1, _, _, h4, h5, _⟩ :=
    Sched.C01_tasks_tile_rows fl scheme minimumTaskSize len numThreads numQueues len hw hfiss (Nat.le_refl _)
  refine ⟨ts, h1, fun ids hids => ⟨by simp; omega, ?_⟩⟩
  intro p hp
  have := (List.of_mem_zip hp).2
  simp only [List.mem_map] at this
  obtain ⟨t, ht, he⟩ := this
  obtain ⟨i, hi, rfl⟩ := List.getElem_of_mem ht
  rw [← he, h5 i hi]
  exact Nat.mod_lt _ hq

/-- Hypotheses are met by, e.g., 3 per-CPU queues, 3 workers and 4 tasks. -/
example : ∃ (cfg : Cfg) (starts : List Nat) (tasks : List (Nat × Nat)), cfg.numQueues = 3 ∧ starts ≠ [] ∧
    (∀ q ∈ starts, q < cfg.numQueues) ∧ (∀ p ∈ tasks, p.2 < cfg.numQueues) ∧ tasks.length ≤ 4 ∧ tasks.length = 4 :=
  ⟨⟨3, .perCpu, .randomPri, fun i => i % 2⟩, [0, 1, 2], [(10, 0), (11, 1), (12, 2), (13, 0)], rfl, by decide, by decide, by decide,
    by decide, rfl⟩

/-- Configuration of the deadlock witness: one central queue. -/
def dlCfg : Cfg := ⟨1, .centralized, .seq, fun _ => 0⟩
/-- A worker of the deadlock witness. -/
def dlW (pc : WPC) : Worker := ⟨⟨0, 0, 0, .own⟩, pc⟩

/-- Finding: the queue uses one condition variable and `notify_one` for both kinds of waiters. With a capacity below the number
    of tasks (1 here) a wake-up meant for the producer can be consumed by a worker: one producer and two workers reach a state in
    which all three sleep although a task has not been enqueued, let alone executed. (The engine never uses such a capacity.) -/
theorem C07_small_capacity_deadlock :
    ∃ k s, Run dlCfg (init dlCfg 1 [0, 0] [(1, 0), (2, 0)]) k 0 s ∧ ¬ s.Final ∧ s.executed = [1] ∧
      ∀ s', ¬ Step dlCfg s false s' := by
  let q0 : QState := ⟨[], 1, false⟩
  let q1 : QState := ⟨[1], 1, false⟩
  have r0 := Run.refl (cfg := dlCfg) (init dlCfg 1 [0, 0] [(1, 0), (2, 0)])
  have r1 := Run.step (s'' := ⟨[q0], .enq [(1, 0), (2, 0)], [dlW .waiting, dlW .deq], []⟩) _ _ _ _ r0
    (.wWait _ 0 (dlW .deq) q0 rfl rfl rfl rfl)
  have r2 := Run.step (s'' := ⟨[q0], .enq [(1, 0), (2, 0)], [dlW .waiting, dlW .waiting], []⟩) _ _ _ _ r1
    (.wWait _ 1 (dlW .deq) q0 rfl rfl rfl rfl)
  have r3 := Run.step (s'' := ⟨[q1], .notify 0 [(2, 0)], [dlW .waiting, dlW .waiting], []⟩) _ _ _ _ r2
    (.pEnq _ 1 0 [(2, 0)] q0 q1 rfl rfl rfl)
  have r4 := Run.step (s'' := ⟨[q1], .enq [(2, 0)], [dlW .deq, dlW .waiting], []⟩) _ _ _ _ r3
    (.pNotify _ _ 0 [(2, 0)] rfl (.worker _ 0 (dlW .waiting) rfl rfl rfl))
  have r5 := Run.step (s'' := ⟨[q1], .wait [(2, 0)], [dlW .deq, dlW .waiting], []⟩) _ _ _ _ r4
    (.pFull _ 2 0 [] q1 rfl rfl rfl)
  have r6 := Run.step (s'' := ⟨[q0], .wait [(2, 0)], [dlW (.notify 1), dlW .waiting], []⟩) _ _ _ _ r5
    (.wTask _ 0 (dlW .deq) q1 q0 1 rfl rfl rfl rfl)
  have r7 := Run.step (s'' := ⟨[q0], .wait [(2, 0)], [dlW (.exec 1), dlW .deq], []⟩) _ _ _ _ r6
    (.wNotify _ _ 0 (dlW (.notify 1)) 1 rfl rfl (.worker _ 1 (dlW .waiting) rfl rfl rfl))
  have r8 := Run.step (s'' := ⟨[q0], .wait [(2, 0)], [dlW (.exec 1), dlW .waiting], []⟩) _ _ _ _ r7
    (.wWait _ 1 (dlW .deq) q0 rfl rfl rfl rfl)
  have r9 := Run.step (s'' := ⟨[q0], .wait [(2, 0)], [dlW .deq, dlW .waiting], [1]⟩) _ _ _ _ r8
    (.wExec _ 0 (dlW (.exec 1)) 1 (dlW .deq).ctl rfl rfl (.same (Or.inl rfl)))
  have r10 := Run.step (s'' := ⟨[q0], .wait [(2, 0)], [dlW .waiting, dlW .waiting], [1]⟩) _ _ _ _ r9
    (.wWait _ 0 (dlW .deq) q0 rfl rfl rfl rfl)
  refine ⟨_, _, r10, by simp [State.Final], rfl, ?_⟩
  intro s' h
  have hwk : ∀ (i : Nat) (w : Worker), ([dlW .waiting, dlW .waiting] : List Worker)[i]? = some w → w.pc = .waiting := by
    intro i w hw
    have := mem_of_get hw
    simp at this; rw [this]; rfl
  cases h with
  | pEnq t q rest qs qs' hp => cases hp
  | pFull t q rest qs hp => cases hp
  | pNotify _ q rest hp => cases hp
  | pEnqDone hp => cases hp
  | pClose i qs hp => cases hp
  | pNotifyAll i hp => cases hp
  | pJoin i hp => cases hp
  | wTask i w qs qs' t hw hpc => rw [hwk i w hw] at hpc; cases hpc
  | wWait i w qs hw hpc => rw [hwk i w hw] at hpc; cases hpc
  | wEof i w qs c hw hpc => rw [hwk i w hw] at hpc; cases hpc
  | wEofDone i w qs hw hpc => rw [hwk i w hw] at hpc; cases hpc
  | wNotify _ i w t hw hpc => rw [hwk i w hw] at hpc; cases hpc
  | wExec i w t c hw hpc => rw [hwk i w hw] at hpc; cases hpc

end Verif.Queue
