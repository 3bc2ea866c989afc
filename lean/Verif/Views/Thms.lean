/-
  What queries read: C348 (views registered outside of branches and loops), C349 (other registrations), C350 (several
  compilations in one process).
-/
import Verif.Views.Model

namespace Verif.Views

variable {F : Type}

/-- The table of the compiler describes the registered frames. -/
def Rel (t : Tables) (sc : List Nat) (s : St F) : Prop :=
  ∀ nm, (∀ v, t nm = some v → v ∈ sc ∧ s.views nm = some (s.env v)) ∧ (t nm = none → s.views nm = none)

theorem mapM_rel {t : Tables} {sc : List Nat} {s : St F} (h : Rel t sc s) :
    ∀ (ns : List String) (vs : List Nat), ns.mapM t = some vs → ns.mapM s.views = some (vs.map s.env)
  | [], vs, h1 => by
      simp at h1; subst h1; simp
  | n :: ns, vs, h1 => by
      simp only [List.mapM_cons, Option.bind_eq_bind, Option.bind_eq_some_iff] at h1
      obtain ⟨v, hv, vs', hvs, h1⟩ := h1
      simp only [Option.pure_def, Option.some.injEq] at h1
      subst h1
      have := mapM_rel h ns vs' hvs
      simp [List.mapM_cons, ((h n).1 v hv).2, this]

theorem mapM_rel_none {t : Tables} {sc : List Nat} {s : St F} (h : Rel t sc s) :
    ∀ (ns : List String), ns.mapM t = none → ns.mapM s.views = none
  | [], h1 => by simp at h1
  | n :: ns, h1 => by
      cases hv : t n with
      | none => simp [List.mapM_cons, (h n).2 hv]
      | some v =>
          cases hm : ns.mapM t with
          | none =>
              have := mapM_rel_none h ns hm
              simp [List.mapM_cons, this]
          | some vs => simp [List.mapM_cons, hv, hm] at h1

theorem Rel.env {t : Tables} {sc : List Nat} {s : St F} (h : Rel t sc s) {e : Nat → F} (he : ∀ x ∈ sc, e x = s.env x) :
    Rel t sc { s with env := e } := fun nm =>
  ⟨fun v hv => by
    obtain ⟨a, b⟩ := (h nm).1 v hv
    exact ⟨a, by simp [b, he v a]⟩, (h nm).2⟩

theorem Rel.mono {t : Tables} {sc sc' : List Nat} {s : St F} (h : Rel t sc s) (hs : ∀ x ∈ sc, x ∈ sc') : Rel t sc' s :=
  fun nm => ⟨fun v hv => ⟨hs _ ((h nm).1 v hv).1, ((h nm).1 v hv).2⟩, (h nm).2⟩

theorem noReg_rewrite : ∀ (p : Prog F) (t : Tables), NoReg p → ∀ c t', rewrite p t = some (c, t') → t' = t
  | .skip, t, _, c, t', h => by simp [rewrite] at h; exact h.2.symm
  | .seq p q, t, hn, c, t', h => by
      simp only [rewrite, Option.bind_eq_bind, Option.bind_eq_some_iff] at h
      obtain ⟨⟨p', t1⟩, h1, ⟨q', t2⟩, h2, h⟩ := h
      have e1 := noReg_rewrite p t hn.1 p' t1 h1
      have e2 := noReg_rewrite q t1 hn.2 q' t2 h2
      simp at h; rw [← h.2, e2, e1]
  | .op .., t, _, c, t', h => by simp [rewrite] at h; exact h.2.symm
  | .reg .., t, hn, c, t', h => hn.elim
  | .query .., t, _, c, t', h => by
      simp only [rewrite, Option.bind_eq_bind, Option.bind_eq_some_iff] at h
      obtain ⟨vs, _, h⟩ := h
      simp at h; exact h.2.symm
  | .ite _ p q, t, hn, c, t', h => by
      simp only [rewrite, Option.bind_eq_bind, Option.bind_eq_some_iff] at h
      obtain ⟨⟨p', t1⟩, h1, ⟨q', t2⟩, h2, h⟩ := h
      have e1 := noReg_rewrite p t hn.1 p' t1 h1
      have e2 := noReg_rewrite q t1 hn.2 q' t2 h2
      simp at h; rw [← h.2, e2, e1]
  | .loop _ p, t, hn, c, t', h => by
      simp only [rewrite, Option.bind_eq_bind, Option.bind_eq_some_iff] at h
      obtain ⟨⟨p', t1⟩, h1, h⟩ := h
      have e1 := noReg_rewrite p t hn p' t1 h1
      simp at h; rw [← h.2, e1]

/-- What one run establishes. -/
def Sim (p : Prog F) (c : Code F) (t' : Tables) (sc : List Nat) (s : St F) : Prop :=
  ∃ s', exec p s = some s' ∧ s'.env = c.run s.env ∧ Rel t' (defs p ++ sc) s' ∧ (∀ x ∈ sc, s'.env x = s.env x)

theorem sim_loop {p : Prog F} {c : Code F} {t : Tables} {sc : List Nat}
    (h : ∀ s, Rel t sc s → Sim p c t sc s ∧ ∀ s', exec p s = some s' → s'.views = s.views) :
    ∀ (n : Nat) (s : St F), Rel t sc s →
      ∃ s', times (exec p) n s = some s' ∧ s'.env = iter c.run n s.env ∧ Rel t sc s' ∧ (∀ x ∈ sc, s'.env x = s.env x)
  | 0, s, hr => ⟨s, rfl, rfl, hr, fun _ _ => rfl⟩
  | n + 1, s, hr => by
      obtain ⟨⟨s1, h1, h2, _, h4⟩, hv⟩ := h s hr
      have hv := hv s1 h1
      have hr1 : Rel t sc s1 := by
        have := Rel.env hr (e := s1.env) h4
        have e : ({ s with env := s1.env } : St F) = s1 := by
          cases s1; cases s; simp_all
        rwa [e] at this
      obtain ⟨s2, k1, k2, k3, k4⟩ := sim_loop h n s1 hr1
      exact ⟨s2, by simp [times, h1, k1], by simp [iter, k2, h2], k3, fun x hx => by rw [k4 x hx, h4 x hx]⟩

theorem times_views {p : Prog F} (h : ∀ s s', exec p s = some s' → s'.views = s.views) :
    ∀ (n : Nat) (s s' : St F), times (exec p) n s = some s' → s'.views = s.views
  | 0, s, s', h1 => by simp [times] at h1; rw [h1]
  | n + 1, s, s', h1 => by
      simp only [times, Option.bind_eq_some_iff] at h1
      obtain ⟨s1, h2, h3⟩ := h1
      rw [times_views h n s1 s' h3, h s s1 h2]

theorem noReg_views : ∀ (p : Prog F), NoReg p → ∀ s s', exec p s = some s' → s'.views = s.views
  | .skip, _, s, s', h => by simp [exec] at h; rw [h]
  | .seq p q, hn, s, s', h => by
      simp only [exec, Option.bind_eq_some_iff] at h
      obtain ⟨s1, h1, h2⟩ := h
      rw [noReg_views q hn.2 s1 s' h2, noReg_views p hn.1 s s1 h1]
  | .op .., _, s, s', h => by simp [exec] at h; rw [← h]
  | .reg .., hn, s, s', h => hn.elim
  | .query .., _, s, s', h => by
      simp only [exec, Option.map_eq_some_iff] at h
      obtain ⟨fs, _, h⟩ := h
      rw [← h]
  | .ite c p q, hn, s, s', h => by
      simp only [exec] at h
      split at h
      · exact noReg_views p hn.1 s s' h
      · exact noReg_views q hn.2 s s' h
  | .loop n p, hn, s, s', h => times_views (noReg_views p hn) _ s s' h

theorem noReg_top : ∀ (p : Prog F), NoReg p → TopReg p
  | .skip, _ => trivial
  | .seq p q, h => ⟨noReg_top p h.1, noReg_top q h.2⟩
  | .op .., _ => trivial
  | .reg .., h => h.elim
  | .query .., _ => trivial
  | .ite _ _ _, h => h
  | .loop _ _, h => h

theorem sim : ∀ (p : Prog F) (t : Tables) (sc : List Nat) (c : Code F) (t' : Tables), TopReg p → SSA sc p →
    rewrite p t = some (c, t') → ∀ s : St F, Rel t sc s → Sim p c t' sc s
  | .skip, t, sc, c, t', _, _, h, s, hr => by
      simp [rewrite] at h; obtain ⟨rfl, rfl⟩ := h
      exact ⟨s, rfl, rfl, by simpa [defs] using hr, fun _ _ => rfl⟩
  | .seq p q, t, sc, c, t', ht, hs, h, s, hr => by
      simp only [rewrite, Option.bind_eq_bind, Option.bind_eq_some_iff] at h
      obtain ⟨⟨p', t1⟩, h1, ⟨q', t2⟩, h2, h⟩ := h
      simp at h; obtain ⟨rfl, rfl⟩ := h
      obtain ⟨s1, a1, a2, a3, a4⟩ := sim p t sc p' t1 ht.1 hs.1 h1 s hr
      obtain ⟨s2, b1, b2, b3, b4⟩ := sim q t1 (defs p ++ sc) q' t2 ht.2 hs.2 h2 s1 a3
      refine ⟨s2, by simp [exec, a1, b1], by rw [b2, a2]; rfl, b3.mono (fun x hx => ?_), fun x hx => ?_⟩
      · simp only [defs, List.mem_append] at hx ⊢; grind
      · rw [b4 x (by simp [hx]), a4 x hx]
  | .op d f, t, sc, c, t', _, hs, h, s, hr => by
      simp [rewrite] at h; obtain ⟨rfl, rfl⟩ := h
      have he : ∀ x ∈ sc, (if x = d then f s.env else s.env x) = s.env x := fun x hx => by
        have : x ≠ d := fun e => hs (e ▸ hx)
        simp [this]
      exact ⟨_, rfl, rfl, (hr.env he).mono (fun x hx => by simp [hx]), he⟩
  | .reg nm v, t, sc, c, t', _, hs, h, s, hr => by
      simp [rewrite] at h; obtain ⟨rfl, rfl⟩ := h
      refine ⟨_, rfl, rfl, fun n => ?_, fun _ _ => rfl⟩
      by_cases e : n = nm
      · simp only [SSA] at hs
        subst e; simp [defs, hs]
      · simpa [e, defs] using hr n
  | .query d ns f, t, sc, c, t', _, hs, h, s, hr => by
      simp only [rewrite, Option.bind_eq_bind, Option.bind_eq_some_iff] at h
      obtain ⟨vs, h1, h⟩ := h
      simp at h; obtain ⟨rfl, rfl⟩ := h
      have he : ∀ x ∈ sc, (if x = d then f (vs.map s.env) else s.env x) = s.env x := fun x hx => by
        have : x ≠ d := fun e => hs (e ▸ hx)
        simp [this]
      exact ⟨_, by simp only [exec, mapM_rel hr ns vs h1, Option.map_some], rfl, (hr.env he).mono (fun x hx => by simp [hx]), he⟩
  | .ite b p q, t, sc, c, t', ht, hs, h, s, hr => by
      simp only [rewrite, Option.bind_eq_bind, Option.bind_eq_some_iff] at h
      obtain ⟨⟨p', t1⟩, h1, ⟨q', t2⟩, h2, h⟩ := h
      simp at h; obtain ⟨rfl, rfl⟩ := h
      have e1 := noReg_rewrite p t ht.1 p' t1 h1
      subst e1
      have e2 := noReg_rewrite q t1 ht.2 q' t2 h2
      subst e2
      obtain ⟨s1, a1, a2, a3, a4⟩ := sim p t2 sc p' t2 (noReg_top p ht.1) hs.1 h1 s hr
      obtain ⟨s2, b1, b2, b3, b4⟩ := sim q t2 sc q' t2 (noReg_top q ht.2) hs.2 h2 s hr
      by_cases hb : b s.env = true
      · refine ⟨s1, by simp [exec, hb, a1], by simp [Code.run, hb, a2], a3.mono (fun x hx => ?_), a4⟩
        simp only [defs, List.mem_append] at hx ⊢; grind
      · refine ⟨s2, by simp [exec, hb, b1], by simp [Code.run, hb, b2], b3.mono (fun x hx => ?_), b4⟩
        simp only [defs, List.mem_append] at hx ⊢; grind
  | .loop n p, t, sc, c, t', ht, hs, h, s, hr => by
      simp only [rewrite, Option.bind_eq_bind, Option.bind_eq_some_iff] at h
      obtain ⟨⟨p', t1⟩, h1, h⟩ := h
      simp at h; obtain ⟨rfl, rfl⟩ := h
      have e1 := noReg_rewrite p t ht p' t1 h1
      subst e1
      obtain ⟨s', a1, a2, a3, a4⟩ := sim_loop (c := p') (fun s hr =>
        ⟨sim p t1 sc p' t1 (noReg_top p ht) hs h1 s hr, fun s' h => noReg_views p ht s s' h⟩) (n s.env) s hr
      exact ⟨s', a1, a2, a3.mono (fun x hx => by simp [hx]), a4⟩

/-- **C348.** A program that registers views outside of branches and loops and is accepted by a fresh process computes
what the text says: execution never meets an unknown view, and afterwards all variables, in particular the results of
all queries wherever they are, have the values that result from reading the frames registered last. -/
theorem C348_views (p : Prog F) (c : Code F) (t' : Tables) (sc : List Nat) (e : Nat → F) (ht : TopReg p) (hs : SSA sc p)
    (h : compile p (fun _ => none) = some (c, t')) :
    ∃ s', exec p ⟨e, fun _ => none⟩ = some s' ∧ s'.env = c.run e := by
  obtain ⟨s', a, b, _⟩ := sim p _ sc c t' ht hs h ⟨e, fun _ => none⟩ (fun nm => ⟨fun v hv => by simp at hv, fun _ => rfl⟩)
  exact ⟨s', a, b⟩

/-- Straight-line programs. -/
def Straight : Prog F → Prop
  | .seq p q => Straight p ∧ Straight q
  | .ite _ _ _ => False
  | .loop _ _ => False
  | _ => True

theorem straight_top : ∀ (p : Prog F), Straight p → TopReg p
  | .skip, _ => trivial
  | .seq p q, h => ⟨straight_top p h.1, straight_top q h.2⟩
  | .op .., _ => trivial
  | .reg .., _ => trivial
  | .query .., _ => trivial
  | .ite _ _ _, h => h.elim
  | .loop _ _, h => h.elim

theorem reject : ∀ (p : Prog F) (t : Tables) (sc : List Nat), Straight p → SSA sc p → rewrite p t = none →
    ∀ s : St F, Rel t sc s → exec p s = none
  | .skip, t, sc, _, _, h, s, hr => by simp [rewrite] at h
  | .seq p q, t, sc, ht, hs, h, s, hr => by
      cases h1 : rewrite p t with
      | none => simp [exec, reject p t sc ht.1 hs.1 h1 s hr]
      | some x =>
          obtain ⟨p', t1⟩ := x
          obtain ⟨s1, a1, a2, a3, a4⟩ := sim p t sc p' t1 (straight_top p ht.1) hs.1 h1 s hr
          cases h2 : rewrite q t1 with
          | none => simp [exec, a1, reject q t1 _ ht.2 hs.2 h2 s1 a3]
          | some y => simp [rewrite, h1, h2] at h
  | .op d f, t, sc, _, hs, h, s, hr => by simp [rewrite] at h
  | .reg nm v, t, sc, _, hs, h, s, hr => by simp [rewrite] at h
  | .query d ns f, t, sc, _, hs, h, s, hr => by
      have : ns.mapM t = none := by
        cases h1 : ns.mapM t with
        | none => rfl
        | some vs => simp [rewrite, h1] at h
      simp [exec, mapM_rel_none hr ns this]
  | .ite b p q, t, sc, ht, hs, h, s, hr => ht.elim
  | .loop n p, t, sc, ht, hs, h, s, hr => ht.elim

/-- **C348.** A program without branches and loops is rejected by a fresh process only if its execution would come to a
query of a view that is not registered. -/
theorem C348_rejected (p : Prog F) (sc : List Nat) (e : Nat → F) (ht : Straight p) (hs : SSA sc p)
    (h : compile p (fun _ => none) = none) : exec p ⟨e, fun _ => none⟩ = none :=
  reject p _ sc ht hs h _ (fun nm => ⟨fun v hv => by simp at hv, fun _ => rfl⟩)

/-- A program with two registrations of one name at top level and queries in a loop and a branch. -/
def demo : Prog Nat :=
  .seq (.op 0 fun _ => 10) <| .seq (.reg "t" 0) <| .seq (.loop (fun _ => 2) (.query 1 ["t"] fun l => l.sum + 1)) <|
  .seq (.op 2 fun e => e 1 + 100) <| .seq (.reg "t" 2) (.ite (fun e => e 1 == 11) (.query 3 ["t", "t"] List.sum) .skip)

example : TopReg demo ∧ SSA [] demo := by simp [demo, TopReg, NoReg, SSA, defs]
example : ((compile demo fun _ => none).map fun x => (x.1.run (fun _ => 0)) 3) = some 222 := by decide

/-- **C349 (refuted).** A query in a loop that comes before a registration in the same loop does not see the frame that
the previous iteration has registered; a query after a branch reads the frame of a registration that was not executed; and
a query of a view that is registered only in a branch that is not taken is accepted. For all frames. -/
theorem C349_control_flow_partial :
    (∀ a b : F, ∃ (p : Prog F) (c : Code F) (t' : Tables), SSA [0, 1] p ∧ compile p (fun _ => none) = some (c, t') ∧
      ∃ s', exec p ⟨fun v => if v = 0 then a else b, fun _ => none⟩ = some s' ∧ s'.env 2 = b ∧
        c.run (fun v => if v = 0 then a else b) 2 = a) ∧
    (∀ a b : F, ∃ (p : Prog F) (c : Code F) (t' : Tables), SSA [0, 1] p ∧ compile p (fun _ => none) = some (c, t') ∧
      ∃ s', exec p ⟨fun v => if v = 0 then a else b, fun _ => none⟩ = some s' ∧ s'.env 2 = a ∧
        c.run (fun v => if v = 0 then a else b) 2 = b) ∧
    (∀ a : F, ∃ (p : Prog F) (c : Code F) (t' : Tables), SSA [0] p ∧ compile p (fun _ => none) = some (c, t') ∧
      c.run (fun _ => a) 2 = a ∧ ∀ e, exec p ⟨e, fun _ => none⟩ = none) := by
  refine ⟨fun a b => ?_, fun a b => ?_, fun a => ?_⟩
  · refine ⟨.seq (.reg "t" 0) (.loop (fun _ => 2) (.seq (.query 2 ["t"] fun l => l.headD a) (.reg "t" 1))), _, _, ?_, rfl,
      _, rfl, ?_, ?_⟩
    · simp [SSA, defs]
    · simp
    · simp [Code.run, iter]
  · refine ⟨.seq (.reg "t" 0) (.seq (.ite (fun _ => false) (.reg "t" 1) .skip) (.query 2 ["t"] fun l => l.headD a)), _, _,
      ?_, rfl, _, rfl, ?_, ?_⟩
    · simp [SSA, defs]
    · simp
    · simp [Code.run]
  · refine ⟨.seq (.ite (fun _ => false) (.reg "t" 0) .skip) (.query 2 ["t"] fun l => l.headD a), _, _, ?_, rfl, ?_,
      fun e => ?_⟩
    · simp [SSA, defs]
    · simp [Code.run]
    · simp [exec]

/-- **C350 (refuted).** A process that compiles several programs, such as a Python process using DaphneLib, keeps the
registrations of earlier programs: a program that registers no view is accepted although its query mentions a view that is
unknown in it (executed on its own it would fail, and a fresh process rejects it), and the query reads a variable of the
earlier program. -/
theorem C350_second_program_partial [Inhabited F] :
    ∃ (p1 p2 : Prog F) (c1 c2 : Code F) (t1 t2 : Tables), SSA [0] p1 ∧ SSA [] p2 ∧ NoReg p2 ∧
      compile p1 (fun _ => none) = some (c1, t1) ∧ compile p2 t1 = some (c2, t2) ∧ compile p2 (fun _ => none) = none ∧
      (∀ e, exec p2 ⟨e, fun _ => none⟩ = none) ∧ (∀ e, c2.run e 7 = e 0) := by
  refine ⟨.reg "t" 0, .query 7 ["t"] fun l => l.headD default, _, _, _, _, ?_, ?_, trivial, rfl, rfl, rfl, fun e => ?_,
    fun e => ?_⟩
  · simp [SSA]
  · simp [SSA]
  · simp [exec]
  · simp [Code.run]

end Verif.Views
