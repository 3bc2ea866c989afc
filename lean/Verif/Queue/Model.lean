import Verif.Basic.Res
/-
  Model of the task queues, the CPU workers and the producing thread of the vectorized engine.
  Sources: src/runtime/local/vectorized/TaskQueues.h, WorkerCPU.h, Worker.h, MTWrapper.h, MTWrapper_dense.cpp.
  Threads are interleaved at the granularity of the mutex-protected regions; `notify_one`/`notify_all` is a separate step after
  the unlock, as in the code. Condition variables may wake up spuriously. Tasks are numbers (their identity).
-/
namespace Verif.Queue

/-- TaskQueues.h:38-45: fields of `BlockingTaskQueue` (the waiters of the condition variable are in the threads' states). -/
structure QState where
  data : List Nat
  cap : Nat
  closed : Bool
  deriving DecidableEq, Repr

/-- TaskQueues.h:52-63 `enqueueTask`, critical section: `none` = the thread goes to sleep on the condition variable. The closed
    flag is not checked. -/
def QState.enq (q : QState) (t : Nat) : Option QState :=
  if q.data.length + 1 > q.cap then none else some { q with data := q.data ++ [t] }

/-- Result of one pass through `dequeueTask`'s critical section. -/
inductive DeqRes where
  | task (t : Nat) (q : QState)
  | eof
  | wait
  deriving DecidableEq

/-- TaskQueues.h:74-90 `dequeueTask`, critical section. -/
def QState.deq (q : QState) : DeqRes :=
  match q.data with
  | [] => if q.closed then .eof else .wait
  | t :: ts => .task t { q with data := ts }

/-- TaskQueues.h:97-102 `closeInput`. -/
def QState.close (q : QState) : QState := { q with closed := true }

/-- `QueueTypeOption` -/
inductive Mode where
  | centralized | perGroup | perCpu
  deriving DecidableEq
/-- `VictimSelectionLogic` -/
inductive Victim where
  | seq | seqPri | random | randomPri
  deriving DecidableEq

/-- Configuration of the worker pool (MTWrapper.h:81-101, 175-190). `phys` is the topology's physical id per thread/queue. -/
structure Cfg where
  numQueues : Nat
  mode : Mode
  victim : Victim
  phys : Nat → Nat

/-- WorkerCPU.h:56-70: the worker's own queue; an index outside the queue vector is an out-of-bounds access at line 73. -/
def startQueue (cfg : Cfg) (threadID : Nat) : Res Nat :=
  let q := match cfg.mode with
    | .centralized => 0
    | .perGroup => cfg.phys threadID
    | .perCpu => threadID
  if q < cfg.numQueues then .ok q else .error (.ub "queue index out of range")

/-- Phases of `WorkerCPU::run` (WorkerCPU.h:73-195): draining the own queue (73-84), SEQ stealing (92-106), SEQPRI first and
    second loop (110-141), RANDOM (143-160), RANDOMPRI first and second loop (162-207). The list holds the indexes set in
    `eofWorkers`. -/
inductive Phase where
  | own | seq | pri1 | pri2 | rnd (eof : List Nat) | rpri1 (eof : List Nat) | rpri2 (eof : List Nat)
  deriving DecidableEq

/-- Local control state of a worker: `targetQueue`, `startingQueue`, `currentDomain`, phase. -/
structure Ctl where
  target : Nat
  start : Nat
  dom : Nat
  phase : Phase
  deriving DecidableEq

/-- WorkerCPU.h:114-128: SEQPRI, first loop: skip queues of other domains; `none` = the loop ends at the starting queue. -/
def skipOther (cfg : Cfg) (dom start : Nat) : Nat → Nat → Option Nat
  | 0, _ => none
  | fuel + 1, t => if t = start then none
                   else if cfg.phys t = dom then some t
                   else skipOther cfg dom start fuel ((t + 1) % cfg.numQueues)

/-- WorkerCPU.h:166-170: `queuesThisDomain`. -/
def queuesThisDomain (cfg : Cfg) (dom : Nat) : Nat :=
  (List.range cfg.numQueues).countP (fun i => cfg.phys i = dom)

/-- WorkerCPU.h:193-206: entering (or continuing) the last RANDOMPRI loop: either it ends, or some queue not yet at its end is
    drawn (draws that hit finished queues have no effect and are skipped). -/
inductive Rpri2 (cfg : Cfg) (c : Ctl) (eof : List Nat) : Option Ctl → Prop
  | stop : cfg.numQueues ≤ eof.length → Rpri2 cfg c eof none
  | draw (q : Nat) : eof.length < cfg.numQueues → q < cfg.numQueues → q ∉ eof →
      Rpri2 cfg c eof (some { c with target := q, phase := .rpri2 eof })

/-- WorkerCPU.h:171-187: first RANDOMPRI loop, then the second one. -/
inductive Rpri1 (cfg : Cfg) (c : Ctl) (eof : List Nat) : Option Ctl → Prop
  | leave (o : Option Ctl) : queuesThisDomain cfg c.dom ≤ eof.length → Rpri2 cfg c eof o → Rpri1 cfg c eof o
  | draw (q : Nat) : eof.length < queuesThisDomain cfg c.dom → q < cfg.numQueues → cfg.phys q = c.dom → q ∉ eof →
      Rpri1 cfg c eof (some { c with target := q, phase := .rpri1 eof })

/-- WorkerCPU.h:147-158: RANDOM loop. -/
inductive Rnd (cfg : Cfg) (c : Ctl) (eof : List Nat) : Option Ctl → Prop
  | stop : cfg.numQueues ≤ eof.length → Rnd cfg c eof none
  | draw (q : Nat) : eof.length < cfg.numQueues → q < cfg.numQueues → q ∉ eof →
      Rnd cfg c eof (some { c with target := q, phase := .rnd eof })

/-- A sequential loop at target `t`: it ends when `t` is the starting queue (WorkerCPU.h:97, 132). -/
def seqAt (c : Ctl) (ph : Phase) (t : Nat) : Option Ctl :=
  if t = c.start then none else some { c with target := t, phase := ph }

/-- WorkerCPU.h:130-141: entering the second SEQPRI loop from queue index `t`. -/
def enterPri2 (cfg : Cfg) (c : Ctl) (t : Nat) : Option Ctl := seqAt c .pri2 ((t + 1) % cfg.numQueues)

/-- WorkerCPU.h:112-128: the first SEQPRI loop at target `t`, falling through to the second one. -/
def pri1At (cfg : Cfg) (c : Ctl) (t : Nat) : Option Ctl :=
  match skipOther cfg c.dom c.start cfg.numQueues t with
  | some t' => some { c with target := t', phase := .pri1 }
  | none => enterPri2 cfg c c.start

/-- What the worker does after it received the end marker from its target queue; `none` = the worker terminates. -/
inductive AfterEof (cfg : Cfg) (c : Ctl) : Option Ctl → Prop
  /-- line 89: only one queue -/
  | ownSingle : c.phase = .own → ¬ 1 < cfg.numQueues → AfterEof cfg c none
  /-- lines 90-97 -/
  | ownSeq : c.phase = .own → 1 < cfg.numQueues → cfg.victim = .seq →
      AfterEof cfg c (seqAt c .seq ((c.target + 1) % cfg.numQueues))
  /-- line 101 -/
  | seqNext : c.phase = .seq → AfterEof cfg c (seqAt c .seq ((c.target + 1) % cfg.numQueues))
  /-- lines 110-114 -/
  | ownPri1 : c.phase = .own → 1 < cfg.numQueues → cfg.victim = .seqPri → cfg.mode = .perCpu →
      AfterEof cfg c (pri1At cfg c ((c.target + 1) % cfg.numQueues))
  | ownPri2 : c.phase = .own → 1 < cfg.numQueues → cfg.victim = .seqPri → cfg.mode ≠ .perCpu →
      AfterEof cfg c (enterPri2 cfg c c.target)
  /-- line 118 -/
  | pri1Next : c.phase = .pri1 → AfterEof cfg c (pri1At cfg c ((c.target + 1) % cfg.numQueues))
  /-- line 135 -/
  | pri2Next : c.phase = .pri2 → AfterEof cfg c (seqAt c .pri2 ((c.target + 1) % cfg.numQueues))
  /-- lines 143-147 -/
  | ownRnd (o : Option Ctl) : c.phase = .own → 1 < cfg.numQueues → cfg.victim = .random → Rnd cfg c [] o → AfterEof cfg c o
  /-- line 154 -/
  | rndNext (eof : List Nat) (o : Option Ctl) : c.phase = .rnd eof → Rnd cfg c (c.target :: eof) o → AfterEof cfg c o
  /-- lines 162-171 -/
  | ownRpri1 (o : Option Ctl) : c.phase = .own → 1 < cfg.numQueues → cfg.victim = .randomPri → cfg.mode = .perCpu →
      Rpri1 cfg c [] o → AfterEof cfg c o
  | ownRpri2 (o : Option Ctl) : c.phase = .own → 1 < cfg.numQueues → cfg.victim = .randomPri → cfg.mode ≠ .perCpu →
      Rpri2 cfg c [] o → AfterEof cfg c o
  /-- line 179 -/
  | rpri1Next (eof : List Nat) (o : Option Ctl) : c.phase = .rpri1 eof → Rpri1 cfg c (c.target :: eof) o → AfterEof cfg c o
  /-- line 201 -/
  | rpri2Next (eof : List Nat) (o : Option Ctl) : c.phase = .rpri2 eof → Rpri2 cfg c (c.target :: eof) o → AfterEof cfg c o

/-- Where the worker looks next after it executed a task: the same queue for the sequential phases, a new draw for the random ones. -/
inductive AfterTask (cfg : Cfg) (c : Ctl) : Ctl → Prop
  | same : (c.phase = .own ∨ c.phase = .seq ∨ c.phase = .pri1 ∨ c.phase = .pri2) → AfterTask cfg c c
  | rnd (eof : List Nat) (c' : Ctl) : c.phase = .rnd eof → Rnd cfg c eof (some c') → AfterTask cfg c c'
  | rpri1 (eof : List Nat) (c' : Ctl) : c.phase = .rpri1 eof → Rpri1 cfg c eof (some c') → AfterTask cfg c c'
  | rpri2 (eof : List Nat) (c' : Ctl) : c.phase = .rpri2 eof → Rpri2 cfg c eof (some c') → AfterTask cfg c c'

/-- Program counter of a worker: about to lock its target queue / asleep on its condition variable / has dequeued `t`, unlocked and
    is about to notify / executing `t` / terminated. -/
inductive WPC where
  | deq | waiting | notify (t : Nat) | exec (t : Nat) | done
  deriving DecidableEq

structure Worker where
  ctl : Ctl
  pc : WPC
  deriving DecidableEq

/-- Program counter of the producing thread (MTWrapper_dense.cpp:116-201): enqueueing the remaining (task, queue) pairs, asleep in
    `enqueueTask`, about to notify after an enqueue, closing queue `i`, about to notify all after closing queue `i`, joining. -/
inductive PPC where
  | enq (rest : List (Nat × Nat))
  | wait (rest : List (Nat × Nat))
  | notify (q : Nat) (rest : List (Nat × Nat))
  | closing (i : Nat)
  | notifyAll (i : Nat)
  | joining
  deriving DecidableEq

/-- Global state; `executed` is the history of executed tasks. -/
structure State where
  queues : List QState
  prod : PPC
  workers : List Worker
  executed : List Nat

/-- Worker `i` sleeps on queue `q`. -/
def State.Sleeps (s : State) (i q : Nat) : Prop :=
  ∃ w, s.workers[i]? = some w ∧ w.pc = .waiting ∧ w.ctl.target = q

/-- The producer sleeps on queue `q`. -/
def State.ProdSleeps (s : State) (q : Nat) : Prop := ∃ t rest, s.prod = .wait ((t, q) :: rest)

/-- `_cv.notify_one()` on queue `q`: wakes one sleeping thread if there is any (any one). -/
inductive NotifyOne (q : Nat) : State → State → Prop
  | none (s : State) : (∀ i, ¬ s.Sleeps i q) → ¬ s.ProdSleeps q → NotifyOne q s s
  | worker (s : State) (i : Nat) (w : Worker) : s.workers[i]? = some w → w.pc = .waiting → w.ctl.target = q →
      NotifyOne q s { s with workers := s.workers.set i { w with pc := .deq } }
  | prod (s : State) (t : Nat) (rest : List (Nat × Nat)) : s.prod = .wait ((t, q) :: rest) →
      NotifyOne q s { s with prod := .enq ((t, q) :: rest) }

/-- Waking one worker if it sleeps on queue `q`. -/
def wakeOn (q : Nat) (w : Worker) : Worker :=
  if w.pc = .waiting ∧ w.ctl.target = q then { w with pc := .deq } else w

/-- One atomic step of some thread. The flag is `true` for spurious wake-ups. -/
inductive Step (cfg : Cfg) : State → Bool → State → Prop
  -- producer: enqueueTask
  | pEnq (s : State) (t q : Nat) (rest : List (Nat × Nat)) (qs qs' : QState) :
      s.prod = .enq ((t, q) :: rest) → s.queues[q]? = some qs → qs.enq t = some qs' →
      Step cfg s false { s with queues := s.queues.set q qs', prod := .notify q rest }
  | pFull (s : State) (t q : Nat) (rest : List (Nat × Nat)) (qs : QState) :
      s.prod = .enq ((t, q) :: rest) → s.queues[q]? = some qs → qs.enq t = none →
      Step cfg s false { s with prod := .wait ((t, q) :: rest) }
  | pNotify (s s' : State) (q : Nat) (rest : List (Nat × Nat)) :
      s.prod = .notify q rest → NotifyOne q { s with prod := .enq rest } s' → Step cfg s false s'
  -- producer: closeInput on all queues, then joinAll
  | pEnqDone (s : State) : s.prod = .enq [] → Step cfg s false { s with prod := .closing 0 }
  | pClose (s : State) (i : Nat) (qs : QState) : s.prod = .closing i → s.queues[i]? = some qs →
      Step cfg s false { s with queues := s.queues.set i qs.close, prod := .notifyAll i }
  | pNotifyAll (s : State) (i : Nat) : s.prod = .notifyAll i →
      Step cfg s false { s with prod := .closing (i + 1), workers := s.workers.map (wakeOn i) }
  | pJoin (s : State) (i : Nat) : s.prod = .closing i → s.queues.length ≤ i → Step cfg s false { s with prod := .joining }
  -- worker: dequeueTask
  | wTask (s : State) (i : Nat) (w : Worker) (qs qs' : QState) (t : Nat) :
      s.workers[i]? = some w → w.pc = .deq → s.queues[w.ctl.target]? = some qs → qs.deq = .task t qs' →
      Step cfg s false { s with queues := s.queues.set w.ctl.target qs',
                                workers := s.workers.set i { w with pc := .notify t } }
  | wWait (s : State) (i : Nat) (w : Worker) (qs : QState) :
      s.workers[i]? = some w → w.pc = .deq → s.queues[w.ctl.target]? = some qs → qs.deq = .wait →
      Step cfg s false { s with workers := s.workers.set i { w with pc := .waiting } }
  | wEof (s : State) (i : Nat) (w : Worker) (qs : QState) (c : Ctl) :
      s.workers[i]? = some w → w.pc = .deq → s.queues[w.ctl.target]? = some qs → qs.deq = .eof →
      AfterEof cfg w.ctl (some c) →
      Step cfg s false { s with workers := s.workers.set i { ctl := c, pc := .deq } }
  | wEofDone (s : State) (i : Nat) (w : Worker) (qs : QState) :
      s.workers[i]? = some w → w.pc = .deq → s.queues[w.ctl.target]? = some qs → qs.deq = .eof →
      AfterEof cfg w.ctl none →
      Step cfg s false { s with workers := s.workers.set i { w with pc := .done } }
  | wNotify (s s' : State) (i : Nat) (w : Worker) (t : Nat) :
      s.workers[i]? = some w → w.pc = .notify t →
      NotifyOne w.ctl.target { s with workers := s.workers.set i { w with pc := .exec t } } s' →
      Step cfg s false s'
  -- worker: t->execute(...); delete t;
  | wExec (s : State) (i : Nat) (w : Worker) (t : Nat) (c : Ctl) :
      s.workers[i]? = some w → w.pc = .exec t → AfterTask cfg w.ctl c →
      Step cfg s false { s with executed := s.executed ++ [t], workers := s.workers.set i { ctl := c, pc := .deq } }
  -- spurious wake-ups
  | wSpurious (s : State) (i : Nat) (w : Worker) :
      s.workers[i]? = some w → w.pc = .waiting →
      Step cfg s true { s with workers := s.workers.set i { w with pc := .deq } }
  | pSpurious (s : State) (rest : List (Nat × Nat)) :
      s.prod = .wait rest → Step cfg s true { s with prod := .enq rest }

/-- Initial state: empty queues of capacity `cap`; worker `i` starts at queue `starts[i]` in domain `phys i` (WorkerCPU.h:56-73);
    the producer has the (task, queue) list `tasks` to enqueue. -/
def init (cfg : Cfg) (cap : Nat) (starts : List Nat) (tasks : List (Nat × Nat)) : State :=
  { queues := List.replicate cfg.numQueues { data := [], cap := cap, closed := false }
    prod := .enq tasks
    workers := starts.zipIdx.map (fun (q, i) =>
      { ctl := { target := q, start := q, dom := cfg.phys i, phase := .own }, pc := .deq })
    executed := [] }

/-- Executions: `Run cfg s k m s'` = from `s`, `k` ordinary steps and `m` spurious wake-ups lead to `s'`. -/
inductive Run (cfg : Cfg) : State → Nat → Nat → State → Prop
  | refl (s : State) : Run cfg s 0 0 s
  | step (s s' s'' : State) (k m : Nat) : Run cfg s k m s' → Step cfg s' false s'' → Run cfg s (k + 1) m s''
  | spurious (s s' s'' : State) (k m : Nat) : Run cfg s k m s' → Step cfg s' true s'' → Run cfg s k (m + 1) s''

/-- All threads have finished. -/
def State.Final (s : State) : Prop := s.prod = .joining ∧ ∀ w ∈ s.workers, w.pc = .done

end Verif.Queue
