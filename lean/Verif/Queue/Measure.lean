import Verif.Queue.Inv
/-
  Progress measure of the worker pool: bounds the length of every execution.
-/
namespace Verif.Queue

def wWeight (cfg : Cfg) (w : Worker) : Nat :=
  match w.pc with
  | .done => 0
  | .waiting => base cfg w.ctl
  | .deq => base cfg w.ctl + 1
  | .exec _ => base cfg w.ctl + 2
  | .notify _ => base cfg w.ctl + 4

/-- `n` queues, `N` workers. -/
def pWeight (n N : Nat) : PPC → Nat
  | .enq r => 7 * r.length + n * (N + 3) + 3
  | .wait r => 7 * r.length + n * (N + 3) + 2
  | .notify _ r => 7 * r.length + n * (N + 3) + 5
  | .closing i => (n - i) * (N + 3) + 1
  | .notifyAll i => (n - i - 1) * (N + 3) + N + 2
  | .joining => 0

def weight (cfg : Cfg) (N : Nat) (s : State) : Nat :=
  (s.workers.map (wWeight cfg)).sum + (s.queues.map (fun q => 4 * q.data.length)).sum + pWeight cfg.numQueues N s.prod

theorem notifyOne_weight {cfg : Cfg} {N q : Nat} {s s' : State} (h : NotifyOne q s s') :
    weight cfg N s' ≤ weight cfg N s + 1 ∧ s'.workers.length = s.workers.length := by
  cases h with
  | none => simp
  | worker i w hw hpc ht =>
    have := sum_set (wWeight cfg) s.workers i w { w with pc := .deq } hw
    have e1 : wWeight cfg w = base cfg w.ctl := by simp [wWeight, hpc]
    have e2 : wWeight cfg { w with pc := .deq } = base cfg w.ctl + 1 := rfl
    refine ⟨?_, by simp⟩
    unfold weight; simp only at *; omega
  | prod t rest hp =>
    refine ⟨?_, rfl⟩
    unfold weight; rw [hp]; simp only [pWeight]; omega

theorem wake_weight (cfg : Cfg) (i : Nat) : ∀ (l : List Worker),
    ((l.map (wakeOn i)).map (wWeight cfg)).sum ≤ (l.map (wWeight cfg)).sum + l.length := by
  intro l
  induction l with
  | nil => simp
  | cons w l ih =>
    simp only [List.map_cons, List.sum_cons, List.length_cons]
    have : wWeight cfg (wakeOn i w) ≤ wWeight cfg w + 1 := by
      unfold wakeOn; split
      · rename_i h; simp [wWeight, h.1]
      · omega
    omega

theorem weight_step {cfg : Cfg} {tasks : List (Nat × Nat)} {s s' : State} {b : Bool} (h : Step cfg s b s')
    (hi : Inv cfg tasks s) :
    (if b then weight cfg s.workers.length s' ≤ weight cfg s.workers.length s + 1
     else weight cfg s.workers.length s' + 1 ≤ weight cfg s.workers.length s) ∧
    s'.workers.length = s.workers.length := by
  cases h with
  | pEnq t q rest qs qs' hp hq he =>
    obtain ⟨e1, _⟩ := enq_some he
    have h2 := sum_set (fun q : QState => 4 * q.data.length) s.queues q qs qs' hq
    simp only [e1, List.length_append, List.length_singleton] at h2
    refine ⟨?_, rfl⟩
    simp only [weight, hp, pWeight, List.length_cons, Bool.false_eq_true, if_false]; omega
  | pFull t q rest qs hp hq he =>
    refine ⟨?_, rfl⟩
    simp only [weight, hp, pWeight, List.length_cons, Bool.false_eq_true, if_false]; omega
  | pNotify _ q rest hp hn =>
    have h1 := notifyOne_weight (cfg := cfg) (N := s.workers.length) hn
    refine ⟨?_, h1.2⟩
    have h2 := h1.1
    simp only [weight, hp, pWeight, Bool.false_eq_true, if_false] at *; omega
  | pEnqDone hp =>
    refine ⟨?_, rfl⟩
    simp only [weight, hp, pWeight, List.length_nil, Bool.false_eq_true, if_false, Nat.sub_zero]; omega
  | pClose i qs hp hq =>
    have hlt : i < cfg.numQueues := by
      have := (List.getElem?_eq_some_iff.1 hq).1; rw [hi.nq] at this; exact this
    have h2 := sum_set (fun q : QState => 4 * q.data.length) s.queues i qs qs.close hq
    simp only [QState.close] at h2
    obtain ⟨d, hd⟩ : ∃ d, cfg.numQueues - i = d + 1 := ⟨cfg.numQueues - i - 1, by omega⟩
    refine ⟨?_, rfl⟩
    simp only [weight, hp, pWeight, QState.close, Bool.false_eq_true, if_false]
    rw [hd, Nat.add_sub_cancel, Nat.succ_mul]
    omega
  | pNotifyAll i hp =>
    have hw := wake_weight cfg i s.workers
    refine ⟨?_, by simp⟩
    simp only [weight, hp, pWeight, Bool.false_eq_true, if_false]
    rw [show cfg.numQueues - (i + 1) = cfg.numQueues - i - 1 by omega]
    omega
  | pJoin i hp hl =>
    refine ⟨?_, rfl⟩
    simp only [weight, hp, pWeight, Bool.false_eq_true, if_false]; omega
  | wTask i w qs qs' t hw hpc hq hd =>
    obtain ⟨e1, _⟩ := deq_task hd
    have h2 := sum_set (fun q : QState => 4 * q.data.length) s.queues w.ctl.target qs qs' hq
    have h3 := sum_set (wWeight cfg) s.workers i w { w with pc := .notify t } hw
    have w1 : wWeight cfg w = base cfg w.ctl + 1 := by simp [wWeight, hpc]
    have w2 : wWeight cfg { w with pc := .notify t } = base cfg w.ctl + 4 := rfl
    simp only [e1, List.length_cons] at h2
    refine ⟨?_, by simp⟩
    simp only [weight, Bool.false_eq_true, if_false]; omega
  | wWait i w qs hw hpc hq hd =>
    have h3 := sum_set (wWeight cfg) s.workers i w { w with pc := .waiting } hw
    have w1 : wWeight cfg w = base cfg w.ctl + 1 := by simp [wWeight, hpc]
    have w2 : wWeight cfg { w with pc := .waiting } = base cfg w.ctl := rfl
    refine ⟨?_, by simp⟩
    simp only [weight, Bool.false_eq_true, if_false]; omega
  | wEof i w qs c hw hpc hq hd ha =>
    obtain ⟨e1, e2⟩ := deq_eof hd
    have hm := mem_of_get hw
    have hgood := afterEof_good ha (hi.ctl w hm) (Dr := Drained s)
      (fun q hq' hs => hi.seen w hm q hq' (Or.inr hs)) ⟨qs, hq, e2, e1⟩
    obtain ⟨_, _, g3, _⟩ := hgood
    have h3 := sum_set (wWeight cfg) s.workers i w { ctl := c, pc := .deq } hw
    have w1 : wWeight cfg w = base cfg w.ctl + 1 := by simp [wWeight, hpc]
    have w2 : wWeight cfg { ctl := c, pc := .deq } = base cfg c + 1 := rfl
    refine ⟨?_, by simp⟩
    simp only [weight, Bool.false_eq_true, if_false]; omega
  | wEofDone i w qs hw hpc hq hd ha =>
    have h3 := sum_set (wWeight cfg) s.workers i w { w with pc := .done } hw
    have w1 : wWeight cfg w = base cfg w.ctl + 1 := by simp [wWeight, hpc]
    have w2 : wWeight cfg { w with pc := .done } = 0 := rfl
    refine ⟨?_, by simp⟩
    simp only [weight, Bool.false_eq_true, if_false]; omega
  | wNotify _ i w t hw hpc hn =>
    have h1 := notifyOne_weight (cfg := cfg) (N := s.workers.length) hn
    have h3 := sum_set (wWeight cfg) s.workers i w { w with pc := .exec t } hw
    have w1 : wWeight cfg w = base cfg w.ctl + 4 := by simp [wWeight, hpc]
    have w2 : wWeight cfg { w with pc := .exec t } = base cfg w.ctl + 2 := rfl
    refine ⟨?_, by simpa using h1.2⟩
    have h4 := h1.1
    simp only [weight, Bool.false_eq_true, if_false] at *; omega
  | wExec i w t c hw hpc ha =>
    have hm := mem_of_get hw
    obtain ⟨_, _, g3⟩ := afterTask_good ha (hi.ctl w hm)
    have h3 := sum_set (wWeight cfg) s.workers i w { ctl := c, pc := .deq } hw
    have w1 : wWeight cfg w = base cfg w.ctl + 2 := by simp [wWeight, hpc]
    have w2 : wWeight cfg { ctl := c, pc := .deq } = base cfg c + 1 := rfl
    refine ⟨?_, by simp⟩
    simp only [weight, Bool.false_eq_true, if_false]; omega
  | wSpurious i w hw hpc =>
    have h3 := sum_set (wWeight cfg) s.workers i w { w with pc := .deq } hw
    have w1 : wWeight cfg w = base cfg w.ctl := by simp [wWeight, hpc]
    have w2 : wWeight cfg { w with pc := .deq } = base cfg w.ctl + 1 := rfl
    refine ⟨?_, by simp⟩
    simp only [weight, if_true]; omega
  | pSpurious rest hp =>
    refine ⟨?_, rfl⟩
    simp only [weight, hp, pWeight, if_true]; omega

theorem weight_run {cfg : Cfg} {tasks : List (Nat × Nat)} {s s' : State} {k m : Nat} (h : Run cfg s k m s')
    (hi : Inv cfg tasks s) :
    k + weight cfg s.workers.length s' ≤ weight cfg s.workers.length s + m ∧ s'.workers.length = s.workers.length := by
  induction h with
  | refl => simp
  | step s' s'' k m hr hs ih =>
    have h1 := ih
    have h2 := weight_step hs (inv_run hr hi)
    simp only [Bool.false_eq_true, if_false] at h2
    rw [h1.2] at h2
    exact ⟨by omega, h2.2⟩
  | spurious s' s'' k m hr hs ih =>
    have h1 := ih
    have h2 := weight_step hs (inv_run hr hi)
    simp only [if_true] at h2
    rw [h1.2] at h2
    exact ⟨by omega, h2.2⟩

theorem weight_init (cfg : Cfg) (cap : Nat) (starts : List Nat) (tasks : List (Nat × Nat)) :
    weight cfg starts.length (init cfg cap starts tasks) =
      starts.length * (2 * cfg.numQueues + 3) + 7 * tasks.length + cfg.numQueues * (starts.length + 3) + 3 := by
  have h1 : ∀ (l : List (Nat × Nat)), (l.map (fun p => wWeight cfg
      { ctl := { target := p.1, start := p.1, dom := cfg.phys p.2, phase := .own }, pc := .deq })).sum =
      l.length * (2 * cfg.numQueues + 3) := by
    intro l
    induction l with
    | nil => simp
    | cons a l ih =>
      rw [List.map_cons, List.sum_cons, ih, List.length_cons, Nat.add_mul l.length 1]
      simp only [wWeight, base]; omega
  unfold weight init
  simp only [List.map_map, pWeight, List.map_replicate, List.length_nil, Nat.mul_zero, List.sum_replicate_nat]
  have := h1 starts.zipIdx
  rw [List.length_zipIdx] at this
  rw [← this]
  simp only [Function.comp_def]
  omega

end Verif.Queue
