import Verif.Queue.Model
import Mathlib.Tactic.Common
namespace Verif.Queue

/-! ### Lists -/

theorem sum_set {α : Type} (f : α → Nat) : ∀ (l : List α) (i : Nat) (a b : α), l[i]? = some a →
    ((l.set i b).map f).sum + f a = (l.map f).sum + f b
  | [], i, a, b, h => by simp at h
  | x :: l, 0, a, b, h => by
    simp at h; subst h; simp; omega
  | x :: l, i + 1, a, b, h => by
    simp at h
    have := sum_set f l i a b h
    simp only [List.set_cons_succ, List.map_cons, List.sum_cons]; omega

theorem sum_map_zero {α : Type} (f : α → Nat) : ∀ (l : List α), (∀ x ∈ l, f x = 0) → (l.map f).sum = 0
  | [], _ => rfl
  | a :: l, h => by
    rw [List.map_cons, List.sum_cons, h a (by simp), sum_map_zero f l (fun x hx => h x (by simp [hx]))]

theorem mem_of_set {α : Type} {l : List α} {i : Nat} {b x : α} (h : x ∈ l.set i b) : x = b ∨ x ∈ l := by
  rcases List.mem_or_eq_of_mem_set h with h | h
  · exact Or.inr h
  · exact Or.inl h

theorem mem_of_get {α : Type} {l : List α} {i : Nat} {a : α} (h : l[i]? = some a) : a ∈ l :=
  List.mem_of_getElem? h

theorem get_set {α : Type} {l : List α} {i j : Nat} {a b : α} (h : l[i]? = some a) :
    (l.set i b)[j]? = if j = i then some b else l[j]? := by
  obtain ⟨hi, _⟩ := List.getElem?_eq_some_iff.1 h
  rw [List.getElem?_set]
  by_cases hj : i = j
  · subst hj; simp [hi]
  · simp [hj, Ne.symm hj]

/-! ### Cyclic distance -/

/-- Steps from queue `start` forward (cyclically) to queue `t`. -/
def dist (n start t : Nat) : Nat := if start ≤ t then t - start else t + n - start

theorem dist_lt {n start t : Nat} (hs : start < n) (ht : t < n) : dist n start t < n := by
  unfold dist; split <;> omega

theorem next_eq {n t : Nat} (ht : t < n) : (t + 1) % n = if t + 1 = n then 0 else t + 1 := by
  split
  · rename_i h; rw [h]; exact Nat.mod_self n
  · exact Nat.mod_eq_of_lt (by omega)

theorem next_lt {n t : Nat} (ht : t < n) : (t + 1) % n < n := Nat.mod_lt _ (by omega)

theorem dist_next {n start t : Nat} (hs : start < n) (ht : t < n) (hne : (t + 1) % n ≠ start) :
    dist n start ((t + 1) % n) = dist n start t + 1 := by
  rw [next_eq ht] at *
  unfold dist; split at hne <;> split <;> split <;> split <;> omega

theorem dist_last {n start t : Nat} (hs : start < n) (ht : t < n) (he : (t + 1) % n = start) :
    dist n start t + 1 = n := by
  rw [next_eq ht] at he
  unfold dist; split at he <;> split <;> omega

theorem dist_inj {n start q t : Nat} (hs : start < n) (hq : q < n) (ht : t < n) (h : dist n start q = dist n start t) :
    q = t := by
  unfold dist at h; split at h <;> split at h <;> omega

theorem dist_start {n start : Nat} : dist n start start = 0 := by simp [dist]

theorem dist_pos {n start t : Nat} (hs : start < n) (hne : t ≠ start) (ht : t < n) : 1 ≤ dist n start t := by
  unfold dist; split <;> omega

/-! ### Control states -/

/-- Well-formed control states. -/
structure CtlWF (cfg : Cfg) (c : Ctl) : Prop where
  tgt : c.target < cfg.numQueues
  st : c.start < cfg.numQueues
  ph : match c.phase with
    | .own => c.target = c.start
    | .seq | .pri1 | .pri2 => c.target ≠ c.start
    | .rnd eof | .rpri2 eof => eof.Nodup ∧ (∀ q ∈ eof, q < cfg.numQueues) ∧ c.target ∉ eof
    | .rpri1 eof => eof.Nodup ∧ (∀ q ∈ eof, q < cfg.numQueues ∧ cfg.phys q = c.dom) ∧ c.target ∉ eof ∧ cfg.phys c.target = c.dom

/-- Queues the worker has seen drained. -/
def Seen (cfg : Cfg) (c : Ctl) (q : Nat) : Prop :=
  match c.phase with
  | .own => False
  | .seq | .pri2 => dist cfg.numQueues c.start q < dist cfg.numQueues c.start c.target
  | .pri1 => q = c.start
  | .rnd eof | .rpri1 eof | .rpri2 eof => q ∈ eof

/-- Bound on the number of end markers the worker still has to receive. -/
def base (cfg : Cfg) (c : Ctl) : Nat :=
  match c.phase with
  | .own => 2 * cfg.numQueues + 2
  | .seq | .pri2 => cfg.numQueues - dist cfg.numQueues c.start c.target
  | .pri1 => cfg.numQueues + 1 + (cfg.numQueues - dist cfg.numQueues c.start c.target)
  | .rnd eof | .rpri1 eof | .rpri2 eof => cfg.numQueues - eof.length

theorem nodup_length_le (l : List Nat) (n : Nat) (h : l.Nodup) (hl : ∀ q ∈ l, q < n) : l.length ≤ n := by
  have := h.length_le_of_subset (l₂ := List.range n) (fun q hq => by simpa using hl q hq)
  simpa using this

theorem nodup_full (l : List Nat) (n : Nat) (h : l.Nodup) (hl : ∀ q ∈ l, q < n) (hf : n ≤ l.length) :
    ∀ q, q < n → q ∈ l := by
  intro q hq
  by_cases hm : q ∈ l
  · exact hm
  · have : (q :: l).Nodup := List.nodup_cons.2 ⟨hm, h⟩
    have := nodup_length_le (q :: l) n this (by intro x hx; rcases List.mem_cons.1 hx with rfl | hx; exacts [hq, hl x hx])
    simp at this; omega

theorem nodup_missing (l m : List Nat) (h : l.Nodup) (hm : m.Nodup) (hlt : l.length < m.length) : ∃ q ∈ m, q ∉ l := by
  by_cases hex : ∃ q ∈ m, q ∉ l
  · exact hex
  · have : ∀ q ∈ m, q ∈ l := by
      intro q hq
      by_cases hl : q ∈ l
      · exact hl
      · exact absurd ⟨q, hq, hl⟩ hex
    have := hm.length_le_of_subset this
    omega

/-- What holds after an end marker from the target queue: `Dr` is "known drained", which holds of everything seen and of the
    target. Either the worker ends and everything is drained, or the new control state is fine and smaller. -/
def EofGood (cfg : Cfg) (c : Ctl) (Dr : Nat → Prop) : Option Ctl → Prop
  | none => ∀ q, q < cfg.numQueues → Dr q
  | some c' => CtlWF cfg c' ∧ (∀ q, q < cfg.numQueues → Seen cfg c' q → Dr q) ∧ base cfg c' < base cfg c ∧
      c'.dom = c.dom

theorem seqAt_good {cfg : Cfg} {c : Ctl} {Dr : Nat → Prop} {ph : Phase} {t : Nat} (hph : ph = .seq ∨ ph = .pri2)
    (ht : t < cfg.numQueues) (hs : c.start < cfg.numQueues)
    (hdr : ∀ q, q < cfg.numQueues → dist cfg.numQueues c.start q ≤ dist cfg.numQueues c.start t → Dr q)
    (hb : (t + 1) % cfg.numQueues ≠ c.start →
      cfg.numQueues - (dist cfg.numQueues c.start t + 1) < base cfg c) :
    EofGood cfg c Dr (seqAt c ph ((t + 1) % cfg.numQueues)) := by
  unfold seqAt
  split
  · rename_i he
    intro q hq
    apply hdr q hq
    have := dist_last hs ht he
    have := dist_lt hs hq
    omega
  · rename_i hne
    have hd := dist_next hs ht hne
    have hbb := hb hne
    refine ⟨⟨next_lt ht, hs, ?_⟩, ?_, ?_, rfl⟩
    · rcases hph with rfl | rfl <;> exact hne
    · intro q hq hsn
      apply hdr q hq
      have : dist cfg.numQueues c.start q < dist cfg.numQueues c.start ((t + 1) % cfg.numQueues) := by
        rcases hph with rfl | rfl <;> exact hsn
      omega
    · rw [← hd] at hbb
      rcases hph with rfl | rfl <;> simpa [base] using hbb

theorem skipOther_spec {cfg : Cfg} {dom start : Nat} (hs : start < cfg.numQueues) :
    ∀ (fuel t t' : Nat), t < cfg.numQueues → skipOther cfg dom start fuel t = some t' →
      t' < cfg.numQueues ∧ t' ≠ start ∧ dist cfg.numQueues start t ≤ dist cfg.numQueues start t' ∧ cfg.phys t' = dom := by
  intro fuel
  induction fuel with
  | zero => intro t t' _ h; simp [skipOther] at h
  | succ fuel ih =>
    intro t t' ht h
    unfold skipOther at h
    split at h
    · simp at h
    · split at h
      · simp at h; subst h; exact ⟨ht, ‹_›, Nat.le_refl _, ‹_›⟩
      · by_cases hne : (t + 1) % cfg.numQueues = start
        · -- next is start: the search ends there
          cases fuel with
          | zero => simp [skipOther] at h
          | succ f => unfold skipOther at h; simp [hne] at h
        · obtain ⟨h1, h2, h3, h4⟩ := ih _ t' (next_lt ht) h
          have := dist_next hs ht hne
          exact ⟨h1, h2, by omega, h4⟩

theorem pri1At_good {cfg : Cfg} {c : Ctl} {Dr : Nat → Prop} {t : Nat}
    (ht : t < cfg.numQueues) (hs : c.start < cfg.numQueues) (hdr : Dr c.start)
    (hne1 : 1 < cfg.numQueues)
    (hb : (t + 1) % cfg.numQueues ≠ c.start →
      cfg.numQueues + 1 + (cfg.numQueues - (dist cfg.numQueues c.start t + 1)) < base cfg c)
    (hb2 : cfg.numQueues < base cfg c) :
    EofGood cfg c Dr (pri1At cfg c ((t + 1) % cfg.numQueues)) := by
  unfold pri1At
  split
  · rename_i t' h
    obtain ⟨h1, h2, h3, h4⟩ := skipOther_spec hs _ _ _ (next_lt ht) h
    by_cases hne : (t + 1) % cfg.numQueues = c.start
    · exfalso
      cases hn : cfg.numQueues with
      | zero => omega
      | succ k => rw [hn] at h; unfold skipOther at h; rw [if_pos (by rw [← hn]; exact hne)] at h; simp at h
    · have hd := dist_next hs ht hne
      have hbb := hb hne
      refine ⟨⟨h1, hs, h2⟩, ?_, ?_, rfl⟩
      · intro q _ hsn
        simp only [Seen] at hsn; subst hsn; exact hdr
      · have e : base cfg { c with target := t', phase := .pri1 } =
            cfg.numQueues + 1 + (cfg.numQueues - dist cfg.numQueues c.start t') := rfl
        rw [e]; omega
  · apply seqAt_good (Or.inr rfl) hs hs
    · intro q hq hd
      rw [dist_start] at hd
      have : q = c.start := dist_inj hs hq hs (by rw [dist_start]; omega)
      subst this; exact hdr
    · intro _; omega

theorem rnd_good {cfg : Cfg} {c : Ctl} {Dr : Nat → Prop} {eof : List Nat} {o : Option Ctl} (h : Rnd cfg c eof o)
    (hs : c.start < cfg.numQueues)
    (hnd : eof.Nodup) (hlt : ∀ q ∈ eof, q < cfg.numQueues) (hdr : ∀ q ∈ eof, Dr q)
    (hb : cfg.numQueues - eof.length < base cfg c) : EofGood cfg c Dr o := by
  cases h with
  | stop hl => intro q hq; exact hdr q (nodup_full eof _ hnd hlt hl q hq)
  | draw q hl hq hne =>
    exact ⟨⟨hq, hs, ⟨hnd, hlt, hne⟩⟩, fun x _ hx => hdr x hx, hb, rfl⟩

theorem rpri2_good {cfg : Cfg} {c : Ctl} {Dr : Nat → Prop} {eof : List Nat} {o : Option Ctl} (h : Rpri2 cfg c eof o)
    (hs : c.start < cfg.numQueues)
    (hnd : eof.Nodup) (hlt : ∀ q ∈ eof, q < cfg.numQueues) (hdr : ∀ q ∈ eof, Dr q)
    (hb : cfg.numQueues - eof.length < base cfg c) : EofGood cfg c Dr o := by
  cases h with
  | stop hl => intro q hq; exact hdr q (nodup_full eof _ hnd hlt hl q hq)
  | draw q hl hq hne =>
    exact ⟨⟨hq, hs, ⟨hnd, hlt, hne⟩⟩, fun x _ hx => hdr x hx, hb, rfl⟩

theorem rpri1_good {cfg : Cfg} {c : Ctl} {Dr : Nat → Prop} {eof : List Nat} {o : Option Ctl} (h : Rpri1 cfg c eof o)
    (hs : c.start < cfg.numQueues)
    (hnd : eof.Nodup) (hlt : ∀ q ∈ eof, q < cfg.numQueues ∧ cfg.phys q = c.dom) (hdr : ∀ q ∈ eof, Dr q)
    (hb : cfg.numQueues - eof.length < base cfg c) : EofGood cfg c Dr o := by
  cases h with
  | leave _ _ h2 => exact rpri2_good h2 hs hnd (fun q hq => (hlt q hq).1) hdr hb
  | draw q hl hq hp hne =>
    exact ⟨⟨hq, hs, ⟨hnd, hlt, hne, hp⟩⟩, fun x _ hx => hdr x hx, hb, rfl⟩

theorem afterEof_good {cfg : Cfg} {c : Ctl} {Dr : Nat → Prop} {o : Option Ctl} (h : AfterEof cfg c o) (hwf : CtlWF cfg c)
    (hseen : ∀ q, q < cfg.numQueues → Seen cfg c q → Dr q) (htgt : Dr c.target) : EofGood cfg c Dr o := by
  obtain ⟨htl, hst, hph⟩ := hwf
  have hzero : ∀ q, q < cfg.numQueues → dist cfg.numQueues c.start q ≤ dist cfg.numQueues c.start c.start → q = c.start := by
    intro q hq hd
    rw [dist_start] at hd
    exact dist_inj hst hq hst (by rw [dist_start]; omega)
  cases h with
  | ownSingle hp hn =>
    rw [hp] at hph; simp only at hph
    intro q hq
    have : q = c.target := by omega
    subst this; exact htgt
  | ownSeq hp hn hv =>
    rw [hp] at hph; simp only at hph
    apply seqAt_good (Or.inl rfl) htl hst
    · intro q hq hd; rw [hph] at hd; rw [hzero q hq hd, ← hph]; exact htgt
    · intro _; simp only [base, hp]; omega
  | seqNext hp =>
    rw [hp] at hph; simp only at hph
    apply seqAt_good (Or.inl rfl) htl hst
    · intro q hq hd
      rcases Nat.lt_or_ge (dist cfg.numQueues c.start q) (dist cfg.numQueues c.start c.target) with h | h
      · exact hseen q hq (by simp only [Seen, hp]; exact h)
      · rw [dist_inj hst hq htl (by omega)]; exact htgt
    · intro hne; have := dist_next hst htl hne; have := dist_lt hst (next_lt htl)
      simp only [base, hp]; omega
  | ownPri1 hp hn hv hm =>
    rw [hp] at hph; simp only at hph
    apply pri1At_good htl hst (by rw [← hph]; exact htgt) hn
    · intro _; simp only [base, hp]; omega
    · simp only [base, hp]; omega
  | ownPri2 hp hn hv hm =>
    rw [hp] at hph; simp only at hph
    apply seqAt_good (Or.inr rfl) htl hst
    · intro q hq hd; rw [hph] at hd; rw [hzero q hq hd, ← hph]; exact htgt
    · intro _; simp only [base, hp]; omega
  | pri1Next hp =>
    rw [hp] at hph; simp only at hph
    have hd1 := dist_pos hst hph htl
    have hd2 := dist_lt hst htl
    apply pri1At_good htl hst (hseen _ hst (by simp only [Seen, hp])) (by omega)
    · intro _; simp only [base, hp]; omega
    · simp only [base, hp]; omega
  | pri2Next hp =>
    rw [hp] at hph; simp only at hph
    apply seqAt_good (Or.inr rfl) htl hst
    · intro q hq hd
      rcases Nat.lt_or_ge (dist cfg.numQueues c.start q) (dist cfg.numQueues c.start c.target) with h | h
      · exact hseen q hq (by simp only [Seen, hp]; exact h)
      · rw [dist_inj hst hq htl (by omega)]; exact htgt
    · intro hne; have := dist_next hst htl hne; have := dist_lt hst (next_lt htl)
      simp only [base, hp]; omega
  | ownRnd _ hp hn hv h =>
    exact rnd_good h hst List.nodup_nil (by simp) (by simp) (by simp only [base, hp]; simp; omega)
  | rndNext eof _ hp h =>
    rw [hp] at hph; obtain ⟨h1, h2, h3⟩ := hph
    have hle := nodup_length_le (c.target :: eof) _ (List.nodup_cons.2 ⟨h3, h1⟩)
      (by intro x hx; rcases List.mem_cons.1 hx with rfl | hx; exacts [htl, h2 x hx])
    refine rnd_good h hst (List.nodup_cons.2 ⟨h3, h1⟩) ?_ ?_ (by simp only [base, hp]; simp at hle ⊢; omega)
    · intro x hx; rcases List.mem_cons.1 hx with rfl | hx; exacts [htl, h2 x hx]
    · intro x hx; rcases List.mem_cons.1 hx with rfl | hx
      · exact htgt
      · exact hseen x (h2 x hx) (by simp only [Seen, hp]; exact hx)
  | ownRpri1 _ hp hn hv hm h =>
    exact rpri1_good h hst List.nodup_nil (by simp) (by simp) (by simp only [base, hp]; simp; omega)
  | ownRpri2 _ hp hn hv hm h =>
    exact rpri2_good h hst List.nodup_nil (by simp) (by simp) (by simp only [base, hp]; simp; omega)
  | rpri1Next eof _ hp h =>
    rw [hp] at hph; obtain ⟨h1, h2, h3, h4⟩ := hph
    have hle := nodup_length_le (c.target :: eof) _ (List.nodup_cons.2 ⟨h3, h1⟩)
      (by intro x hx; rcases List.mem_cons.1 hx with rfl | hx; exacts [htl, (h2 x hx).1])
    refine rpri1_good h hst (List.nodup_cons.2 ⟨h3, h1⟩) ?_ ?_ (by simp only [base, hp]; simp at hle ⊢; omega)
    · intro x hx; rcases List.mem_cons.1 hx with rfl | hx; exacts [⟨htl, h4⟩, h2 x hx]
    · intro x hx; rcases List.mem_cons.1 hx with rfl | hx
      · exact htgt
      · exact hseen x (h2 x hx).1 (by simp only [Seen, hp]; exact hx)
  | rpri2Next eof _ hp h =>
    rw [hp] at hph; obtain ⟨h1, h2, h3⟩ := hph
    have hle := nodup_length_le (c.target :: eof) _ (List.nodup_cons.2 ⟨h3, h1⟩)
      (by intro x hx; rcases List.mem_cons.1 hx with rfl | hx; exacts [htl, h2 x hx])
    refine rpri2_good h hst (List.nodup_cons.2 ⟨h3, h1⟩) ?_ ?_ (by simp only [base, hp]; simp at hle ⊢; omega)
    · intro x hx; rcases List.mem_cons.1 hx with rfl | hx; exacts [htl, h2 x hx]
    · intro x hx; rcases List.mem_cons.1 hx with rfl | hx
      · exact htgt
      · exact hseen x (h2 x hx) (by simp only [Seen, hp]; exact hx)

theorem afterTask_good {cfg : Cfg} {c c' : Ctl} (h : AfterTask cfg c c') (hwf : CtlWF cfg c) :
    CtlWF cfg c' ∧ (∀ q, Seen cfg c' q → Seen cfg c q) ∧ base cfg c' ≤ base cfg c := by
  cases h with
  | same => exact ⟨hwf, fun _ h => h, Nat.le_refl _⟩
  | rnd eof _ hp h =>
    obtain ⟨h1, h2, h3⟩ := hwf; rw [hp] at h3
    cases h with
    | draw q hl hq hne =>
      exact ⟨⟨hq, h2, ⟨h3.1, h3.2.1, hne⟩⟩, fun x hx => by simpa [Seen, hp] using hx, by simp [base, hp]⟩
  | rpri1 eof _ hp h =>
    obtain ⟨h1, h2, h3⟩ := hwf; rw [hp] at h3
    cases h with
    | leave _ hl h' =>
      cases h' with
      | draw q hl hq hne =>
        exact ⟨⟨hq, h2, ⟨h3.1, fun x hx => (h3.2.1 x hx).1, hne⟩⟩, fun x hx => by simpa [Seen, hp] using hx, by simp [base, hp]⟩
    | draw q hl hq hph hne =>
      exact ⟨⟨hq, h2, ⟨h3.1, h3.2.1, hne, hph⟩⟩, fun x hx => by simpa [Seen, hp] using hx, by simp [base, hp]⟩
  | rpri2 eof _ hp h =>
    obtain ⟨h1, h2, h3⟩ := hwf; rw [hp] at h3
    cases h with
    | draw q hl hq hne =>
      exact ⟨⟨hq, h2, ⟨h3.1, h3.2.1, hne⟩⟩, fun x hx => by simpa [Seen, hp] using hx, by simp [base, hp]⟩

/-! ### Totality of the control relations (for progress) -/

theorem rnd_total (cfg : Cfg) (c : Ctl) (eof : List Nat) (hnd : eof.Nodup) : ∃ o, Rnd cfg c eof o := by
  by_cases h : cfg.numQueues ≤ eof.length
  · exact ⟨_, .stop h⟩
  · obtain ⟨q, hq, hne⟩ := nodup_missing eof (List.range cfg.numQueues) hnd List.nodup_range (by simp; omega)
    exact ⟨_, .draw q (by omega) (by simpa using hq) hne⟩

theorem rpri2_total (cfg : Cfg) (c : Ctl) (eof : List Nat) (hnd : eof.Nodup) : ∃ o, Rpri2 cfg c eof o := by
  by_cases h : cfg.numQueues ≤ eof.length
  · exact ⟨_, .stop h⟩
  · obtain ⟨q, hq, hne⟩ := nodup_missing eof (List.range cfg.numQueues) hnd List.nodup_range (by simp; omega)
    exact ⟨_, .draw q (by omega) (by simpa using hq) hne⟩

theorem rpri1_total (cfg : Cfg) (c : Ctl) (eof : List Nat) (hnd : eof.Nodup) : ∃ o, Rpri1 cfg c eof o := by
  by_cases h : queuesThisDomain cfg c.dom ≤ eof.length
  · obtain ⟨o, ho⟩ := rpri2_total cfg c eof hnd
    exact ⟨o, .leave o h ho⟩
  · obtain ⟨q, hq, hne⟩ := nodup_missing eof ((List.range cfg.numQueues).filter (fun i => cfg.phys i = c.dom)) hnd
      (List.nodup_range.filter _) (by rw [← List.countP_eq_length_filter]; unfold queuesThisDomain at h; omega)
    have := List.mem_filter.1 hq
    exact ⟨_, .draw q (by omega) (by simpa using this.1) (by simpa using this.2) hne⟩

theorem afterEof_total (cfg : Cfg) (c : Ctl) (hwf : CtlWF cfg c) : ∃ o, AfterEof cfg c o := by
  obtain ⟨h1, h2, h3⟩ := hwf
  cases hp : c.phase with
  | own =>
    by_cases hn : 1 < cfg.numQueues
    · cases hv : cfg.victim with
      | seq => exact ⟨_, .ownSeq hp hn hv⟩
      | seqPri =>
        by_cases hm : cfg.mode = .perCpu
        · exact ⟨_, .ownPri1 hp hn hv hm⟩
        · exact ⟨_, .ownPri2 hp hn hv hm⟩
      | random => obtain ⟨o, ho⟩ := rnd_total cfg c [] List.nodup_nil; exact ⟨o, .ownRnd o hp hn hv ho⟩
      | randomPri =>
        by_cases hm : cfg.mode = .perCpu
        · obtain ⟨o, ho⟩ := rpri1_total cfg c [] List.nodup_nil; exact ⟨o, .ownRpri1 o hp hn hv hm ho⟩
        · obtain ⟨o, ho⟩ := rpri2_total cfg c [] List.nodup_nil; exact ⟨o, .ownRpri2 o hp hn hv hm ho⟩
    · exact ⟨_, .ownSingle hp hn⟩
  | seq => exact ⟨_, .seqNext hp⟩
  | pri1 => exact ⟨_, .pri1Next hp⟩
  | pri2 => exact ⟨_, .pri2Next hp⟩
  | rnd eof =>
    rw [hp] at h3
    obtain ⟨o, ho⟩ := rnd_total cfg c (c.target :: eof) (List.nodup_cons.2 ⟨h3.2.2, h3.1⟩); exact ⟨o, .rndNext eof o hp ho⟩
  | rpri1 eof =>
    rw [hp] at h3
    obtain ⟨o, ho⟩ := rpri1_total cfg c (c.target :: eof) (List.nodup_cons.2 ⟨h3.2.2.1, h3.1⟩)
    exact ⟨o, .rpri1Next eof o hp ho⟩
  | rpri2 eof =>
    rw [hp] at h3
    obtain ⟨o, ho⟩ := rpri2_total cfg c (c.target :: eof) (List.nodup_cons.2 ⟨h3.2.2, h3.1⟩); exact ⟨o, .rpri2Next eof o hp ho⟩

theorem afterTask_total (cfg : Cfg) (c : Ctl) (hwf : CtlWF cfg c) : ∃ c', AfterTask cfg c c' := by
  obtain ⟨h1, h2, h3⟩ := hwf
  have key : ∀ eof : List Nat, eof.Nodup → (∀ q ∈ eof, q < cfg.numQueues) → c.target ∉ eof → eof.length < cfg.numQueues := by
    intro eof ha hb hc
    have := nodup_length_le (c.target :: eof) cfg.numQueues (List.nodup_cons.2 ⟨hc, ha⟩)
      (by intro x hx; rcases List.mem_cons.1 hx with rfl | hx; exacts [h1, hb x hx])
    simp at this; omega
  cases hp : c.phase with
  | own => exact ⟨_, .same (Or.inl hp)⟩
  | seq => exact ⟨_, .same (Or.inr (Or.inl hp))⟩
  | pri1 => exact ⟨_, .same (Or.inr (Or.inr (Or.inl hp)))⟩
  | pri2 => exact ⟨_, .same (Or.inr (Or.inr (Or.inr hp)))⟩
  | rnd eof =>
    rw [hp] at h3
    exact ⟨_, .rnd eof _ hp (.draw c.target (key eof h3.1 h3.2.1 h3.2.2) h1 h3.2.2)⟩
  | rpri1 eof =>
    rw [hp] at h3
    by_cases hl : eof.length < queuesThisDomain cfg c.dom
    · exact ⟨_, .rpri1 eof _ hp (.draw c.target hl h1 h3.2.2.2 h3.2.2.1)⟩
    · exact ⟨_, .rpri1 eof _ hp (.leave _ (by omega) (.draw c.target
        (key eof h3.1 (fun q hq => (h3.2.1 q hq).1) h3.2.2.1) h1 h3.2.2.1))⟩
  | rpri2 eof =>
    rw [hp] at h3
    exact ⟨_, .rpri2 eof _ hp (.draw c.target (key eof h3.1 h3.2.1 h3.2.2) h1 h3.2.2)⟩

end Verif.Queue
