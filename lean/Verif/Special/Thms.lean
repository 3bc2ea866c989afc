/-
  C249 - C251: specialisation of functions for the arguments of their calls.
-/
import Verif.Special.Walk

namespace Verif.Special
variable {V F W : Type}

/-! ### The whole pass -/

/-- What holds between the visits of entry functions. -/
structure Run (sem : Sem V F W) (P : String → Option (Func V F)) (cfg : Cfg V F) : Prop where
  inv : Inv sem P cfg
  done : ∀ x ∈ cfg.visited, Done cfg x
  called : ∀ x ∈ cfg.called, x ∈ cfg.visited

theorem inv_canon {sem : Sem V F W} {env : Env V F} {P : String → Option (Func V F)} {cfg : Cfg V F} (hs : Sound sem env) (hi : Inv sem P cfg) {f : String} {Fn : Func V F} (hf : cfg.funcs f = some Fn) :
    Inv sem P { cfg with funcs := upd cfg.funcs f { Fn with body := env.canon Fn.preset Fn.body } } := by
  have hself : upd cfg.funcs f { Fn with body := env.canon Fn.preset Fn.body } f = _ := upd_self _ _ _
  have hne : ∀ {x}, x ≠ f → upd cfg.funcs f { Fn with body := env.canon Fn.preset Fn.body } x = cfg.funcs x := fun hx => upd_ne _ _ hx
  have hold : ∀ {x X}, cfg.funcs x = some X → ∃ X', upd cfg.funcs f { Fn with body := env.canon Fn.preset Fn.body } x = some X' ∧ X'.preset = X.preset ∧ X'.tys = X.tys := by
    intro x X hx
    by_cases he : x = f
    · subst he
      obtain rfl := Option.some.inj (hf.symm.trans hx)
      exact ⟨_, hself, rfl, rfl⟩
    · exact ⟨X, by rw [hne he]; exact hx, rfl, rfl⟩
  constructor
  · intro x Gx hx
    obtain ⟨X, h1, h2, h3⟩ := hi.dom x Gx hx
    obtain ⟨X', h4, h5, h6⟩ := hold h1
    exact ⟨X', h4, h6.trans h2, h5.trans h3⟩
  · intro x X hx
    simp only at hx
    by_cases he : x = f
    · subst he
      rw [hself] at hx
      obtain rfl := Option.some.inj hx
      obtain ⟨F0, h1, h2, h3⟩ := hi.func x Fn hf
      refine ⟨F0, h1, h2, fun co hco vs w hl ha => ?_⟩
      simp only at hl ha ⊢
      rw [hs.eval co _ _ _ _ hl.symm ha]
      exact h3 co hco vs w hl ha
    · rw [hne he] at hx
      exact hi.func x X hx
  · intro x X hx h' cs' hm
    simp only at hx
    have : 1 ≤ dashes h' ∧ ∃ H, cfg.funcs h' = some H ∧ Sub H.preset cs' := by
      by_cases he : x = f
      · subst he
        rw [hself] at hx
        obtain rfl := Option.some.inj hx
        obtain ⟨cs1, hm1, hs1⟩ := hs.calls _ _ _ _ hm
        obtain ⟨h1, H, h2, h3⟩ := hi.call x Fn hf h' cs1 hm1
        exact ⟨h1, H, h2, h3.trans hs1⟩
      · rw [hne he] at hx
        exact hi.call x X hx h' cs' hm
    obtain ⟨h1, H', h2, h3⟩ := this
    obtain ⟨X', h4, h5, h6⟩ := hold h2
    exact ⟨h1, X', h4, by rw [h5]; exact h3⟩
  · intro x h' hm
    obtain ⟨h1, h2, X, H', h3, h4, h5⟩ := hi.spec x h' hm
    obtain ⟨X', h6, h7, h8⟩ := hold h3
    obtain ⟨H'', h9, h10, h11⟩ := hold h4
    exact ⟨h1, h2, X', H'', h6, h9, by rw [h10, h7, h5]⟩
  · intro x X hx
    simp only at hx
    by_cases he : x = f
    · subst he
      exact hi.fresh x Fn hf
    · rw [hne he] at hx
      exact hi.fresh x X hx
  · exact hi.tmpl

theorem entry_spec {sem : Sem V F W} {env : Env V F} {P : String → Option (Func V F)} (hs : Sound sem env) {n : Nat} {cfg cfg' : Cfg V F} {f : String} (h : entry env n cfg f = .ok cfg')
    (hr : Run sem P cfg) : Run sem P cfg' ∧ (∀ x ∈ cfg.visited, x ∈ cfg'.visited) ∧
      (f ∈ cfg'.visited ∨ f ∈ cfg.templates ∨ ∃ Fn, cfg.funcs f = some Fn ∧ isTemplate Fn = true) := by
  unfold entry at h
  split at h
  · cases h
  · next Fn hf =>
    split at h
    · next hc =>
      cases h
      refine ⟨hr, fun _ h => h, ?_⟩
      simp only [Bool.or_eq_true, List.contains_iff_mem] at hc
      rcases hc with (hc | hc) | hc
      · exact .inr (.inr ⟨Fn, hf, hc⟩)
      · exact .inl hc
      · exact .inr (.inl hc)
    · next hc =>
      simp only [Bool.or_eq_true, List.contains_iff_mem, not_or] at hc
      obtain ⟨hp, hv⟩ := (step_spec (P := P) hs n).1 f _ cfg' h (inv_canon hs hr.inv hf)
      have hold : ∀ x ∈ cfg.visited, ∀ X, cfg.funcs x = some X → cfg'.funcs x = some X := by
        intro x hx X hX
        refine hp.old x hx (fun h => h) X ?_
        show upd _ _ _ x = _
        rw [upd_ne _ _ (by rintro rfl; exact hc.1.2 hx)]
        exact hX
      refine ⟨⟨hp.inv, ?_, ?_⟩, hp.visited, .inl hv⟩
      · intro x hx
        rcases hp.new x hx with hx | hx
        · exact (hr.done x hx).mono (hold x hx) hp.called
        · exact hx
      · intro x hx
        rcases hp.called' x hx with hx | hx
        · exact hp.visited x (hr.called x hx)
        · exact hx

theorem run_spec {sem : Sem V F W} {env : Env V F} {P : String → Option (Func V F)} (hs : Sound sem env) {n : Nat} : ∀ {names : List String} {cfg cfg' : Cfg V F},
    names.foldlM (entry env n) cfg = .ok cfg' → Run sem P cfg → Run sem P cfg' ∧ (∀ x ∈ cfg.visited, x ∈ cfg'.visited) ∧
      ∀ f ∈ names, dashes f = 0 → (∀ Fn, P f = some Fn → isTemplate Fn = false) → (P f).isSome → f ∈ cfg'.visited
  | [], cfg, cfg', h, hr => by
    cases h
    exact ⟨hr, fun _ h => h, fun f hf => by cases hf⟩
  | f0 :: names, cfg, cfg', h, hr => by
    rw [List.foldlM_cons] at h
    obtain ⟨c1, h1, h⟩ := Except.bind_ok h
    obtain ⟨r1, v1, e1⟩ := entry_spec hs h1 hr
    obtain ⟨r2, v2, e2⟩ := run_spec hs h r1
    refine ⟨r2, fun x hx => v2 x (v1 x hx), ?_⟩
    intro f hf hd ht hsome
    rcases List.mem_cons.1 hf with rfl | hf
    · rcases e1 with e1 | e1 | ⟨Gn, e1, e1'⟩
      · exact v2 _ e1
      · have := hr.inv.tmpl f e1
        omega
      · obtain ⟨Fn, hFn⟩ := Option.isSome_iff_exists.1 hsome
        obtain ⟨G, g1, g2, g3⟩ := hr.inv.dom f Fn hFn
        obtain rfl := Option.some.inj (e1.symm.trans g1)
        have := ht Fn hFn
        unfold isTemplate at this e1'
        rw [g2] at e1'
        rw [e1'] at this
        cases this
    · exact e2 f hf hd ht hsome

theorem run_init (sem : Sem V F W) {P : String → Option (Func V F)} (hP : Prog P) : Run sem P (.init P) := by
  refine ⟨inv_init sem hP, ?_, ?_⟩ <;> intro x hx <;> simp [Cfg.init] at hx

/-! ### What is executed afterwards -/

theorem bindArgs_agree : ∀ {p : List (Option V)} {vs : List V}, vs.length = p.length → Agree p vs → bindArgs p vs = vs
  | [], [], _, _ => rfl
  | o :: p, v :: vs, hl, ha => by
    have ih : bindArgs p vs = vs := bindArgs_agree (by simpa using hl) fun i u hi => by simpa using ha (i + 1) u (by simpa using hi)
    unfold bindArgs at ih ⊢
    rw [List.zipWith_cons_cons, ih]
    congr 1
    cases o with
    | none => rfl
    | some u => simpa using (ha 0 u rfl).symm

theorem agree_none {p : List (Option V)} (h : ∀ o ∈ p, o = none) (vs : List V) : Agree p vs := by
  intro i v hi
  have := h _ (List.mem_of_getElem? hi)
  cases this

theorem run_eval {sem : Sem V F W} {P : String → Option (Func V F)} (hP : Prog P) {cfg : Cfg V F} (hr : Run sem P cfg) (hm : "main" ∈ cfg.visited)
    (hk : ∀ f G, kept cfg f = true → cfg.funcs f = some G → ∀ h cs, (h, cs) ∈ calls G.body G.preset → h ∉ cfg.templates) : ∀ (m : Nat) (x : String) (X : Func V F) (args : List V) (w : W),
    (x = "main" ∨ (x ∈ cfg.called ∧ x ∉ cfg.templates)) → cfg.funcs x = some X → Agree X.preset args → evalF sem cfg.result m x args w = evalF sem P m (origin x) args w
  | 0, _, _, _, _, _, _, _ => rfl
  | m + 1, x, X, args, w, hx, hX, ha => by
    have hkx : kept cfg x = true := by
      unfold kept
      rcases hx with rfl | ⟨h1, h2⟩
      · simp
      · simp [List.contains_iff_mem, h1, h2]
    have hres : cfg.result x = some X := by unfold Cfg.result; rw [if_pos hkx, hX]
    have hxv : x ∈ cfg.visited := by
      rcases hx with rfl | ⟨h1, -⟩
      · exact hm
      · exact hr.called x h1
    obtain ⟨X', hX', hcalls⟩ := hr.done x hxv
    obtain rfl := Option.some.inj (hX.symm.trans hX')
    obtain ⟨Fn, hFn, hlen, hsame⟩ := hr.inv.func x X hX
    simp only [evalF, hres, hFn, Option.bind_some, hlen]
    split
    · next hl =>
      rw [bindArgs_agree (by omega) ha, bindArgs_agree hl (agree_none (hP.plain _ _ hFn) args)]
      have e1 : evalC sem (evalF sem cfg.result m) X.body args w = evalC sem (fun y => evalF sem P m (origin y)) X.body args w := by
        refine eval_congr sem _ _ _ X.preset args w (by omega) ha ?_
        intro g cs hg vs hvs w'
        obtain ⟨-, H, hH, hHs⟩ := hr.inv.call x X hX g cs hg
        exact run_eval hP hr hm hk m g H vs w' (.inr ⟨hcalls g cs hg, hk x X hkx hX g cs hg⟩) hH (hHs.agree hvs)
      have e2 := hsame (fun y => evalF sem P m (origin y)) (fun y => by simp only [origin_idem]) args w (by omega) ha
      have e3 : evalC sem (fun y => evalF sem P m (origin y)) Fn.body args w = evalC sem (evalF sem P m) Fn.body args w := by
        refine eval_congr sem _ _ _ Fn.preset args w (by omega) (agree_none (hP.plain _ _ hFn) args) ?_
        intro g cs hg vs _ w'
        obtain ⟨-, hs⟩ := hP.calls _ _ hFn g cs hg
        obtain ⟨H, hH⟩ := Option.isSome_iff_exists.1 hs
        simp only [origin_eq (hP.names g H hH)]
      rw [e1, e2, e3]
    · rfl

/-- A program that has a function `main` with no unknown types. -/
structure HasMain (P : String → Option (Func V F)) (names : List String) : Prop where
  mem : "main" ∈ names
  typed : ∃ M, P "main" = some M ∧ isTemplate M = false
  names : ∀ f ∈ names, (P f).isSome

/-- **C249** (functions keep their meaning). For every program, every canonicalisation that preserves the meaning of code, every inference of types, with and without propagation of constants into
functions, and every order of the functions: if the pass ends and no function that is left calls one that was replaced, then the program does what it did before, for all inputs, results, effects and numbers
of nested calls. -/
theorem C249_specialisation {sem : Sem V F W} {env : Env V F} {P : String → Option (Func V F)} (hs : Sound sem env) (hP : Prog P) {names : List String} (hmain : HasMain P names) {n : Nat} {cfg : Cfg V F}
    (h : runPass env n P names = .ok cfg) (hk : ∀ f G, kept cfg f = true → cfg.funcs f = some G → ∀ g cs, (g, cs) ∈ calls G.body G.preset → g ∉ cfg.templates) (m : Nat) (args : List V) (w : W) :
    evalF sem cfg.result m "main" args w = evalF sem P m "main" args w := by
  obtain ⟨M, hM, ht⟩ := hmain.typed
  obtain ⟨hr, -, hv⟩ := run_spec hs h (run_init sem hP)
  have hmv := hv "main" hmain.mem (by decide) (fun Fn hFn => by rw [Option.some.inj (hFn.symm.trans hM)]; exact ht) (by rw [hM]; rfl)
  obtain ⟨X, hX, -, hpre⟩ := hr.inv.dom "main" M hM
  have := run_eval hP hr hmv hk m "main" X args w (.inl rfl) hX (by rw [hpre]; exact agree_none (hP.plain _ _ hM) args)
  rwa [origin_eq (by decide)] at this

/-! ### Programs whose functions all have parameters without a type -/

/-- What holds if all functions but `main` are templates: copies are called, originals are replaced. -/
structure Tpl (P : String → Option (Func V F)) (cfg : Cfg V F) : Prop where
  tmpl : ∀ g ∈ cfg.templates, (P g).isSome
  called : ∀ g ∈ cfg.called, P g = none
  unvisited : ∀ g G, g ∉ cfg.visited → cfg.funcs g = some G → ∀ h cs, (h, cs) ∈ calls G.body G.preset → (P h).isSome
  visited : ∀ g ∈ cfg.visited, g = "main" ∨ P g = none

theorem step_tpl {sem : Sem V F W} {env : Env V F} {P : String → Option (Func V F)} (hs : Sound sem env) (hP : Prog P) (hT : ∀ g Fn, P g = some Fn → g ≠ "main" → isTemplate Fn = true) : ∀ n,
    (∀ f cfg cfg', step env n (.visit f) cfg = .ok cfg' → Inv sem P cfg → Tpl P cfg → (f = "main" ∨ P f = none) → Tpl P cfg') ∧
    (∀ f i cfg cfg' Fn, step env n (.walk f i) cfg = .ok cfg' → Inv sem P cfg → Tpl P cfg → f ∈ cfg.visited → cfg.funcs f = some Fn →
      (∀ (j : Nat) h cs, i ≤ j → (calls Fn.body Fn.preset)[j]? = some (h, cs) → (P h).isSome) → Tpl P cfg') := by
  intro n
  induction n with
  | zero => exact ⟨fun f cfg cfg' h => (by cases h), fun f i cfg cfg' Fn h => (by cases h)⟩
  | succ n ih =>
    obtain ⟨ihv, ihw⟩ := ih
    refine ⟨?_, ?_⟩
    · intro f cfg cfg' h hi ht hf
      simp only [step] at h
      split at h
      · cases h
        exact ht
      · next hv =>
        have hfn : ∃ Fn, cfg.funcs f = some Fn := by
          cases hf : cfg.funcs f with
          | some Fn => exact ⟨Fn, rfl⟩
          | none =>
            exfalso
            cases n with
            | zero => simp [step] at h
            | succ n => simp [step, hf] at h
        obtain ⟨Fn, hfn⟩ := hfn
        refine ihw f 0 _ cfg' Fn h (inv_other hi _ _) ⟨ht.tmpl, ht.called, ?_, ?_⟩ List.mem_cons_self hfn ?_
        · intro g G hg
          exact ht.unvisited g G (fun hm => hg (List.mem_cons_of_mem _ hm))
        · intro g hg
          rcases List.mem_cons.1 hg with rfl | hg
          · exact hf
          · exact ht.visited g hg
        · intro j h cs _ hc
          exact ht.unvisited f Fn hv hfn h cs (List.mem_of_getElem? hc)
    · intro f i cfg cfg' Fn h hi ht hfv hf hu
      simp only [step, hf] at h
      split at h
      · cases h
        exact ht
      · next g cs hc =>
        obtain ⟨hd, G, hg, hsub⟩ := hi.call f Fn hf g cs (List.mem_of_getElem? hc)
        have hgP := hu i g cs (Nat.le_refl _) hc
        obtain ⟨G0, hG0⟩ := Option.isSome_iff_exists.1 hgP
        have hgm : g ≠ "main" := by
          rintro rfl
          revert hd
          decide
        have hgt : isTemplate G = true := by
          obtain ⟨G', g1, g2, -⟩ := hi.dom g G0 hG0
          obtain rfl := Option.some.inj (hg.symm.trans g1)
          have := hT g G0 hG0 hgm
          unfold isTemplate at this ⊢
          rw [g2]
          exact this
        have hgv : g ∉ cfg.visited := by
          intro hv
          rcases ht.visited g hv with h | h
          · exact hgm h
          · rw [hG0] at h
            cases h
        simp only [hg, hgt, Bool.true_or, if_true] at h
        obtain ⟨r, hr, h⟩ := Except.bind_ok h
        obtain ⟨c2, hc2, h⟩ := Except.bind_ok h
        obtain ⟨h1, h2, h3, ⟨H, h4, h5⟩, h6, h7, h8, h9, h10⟩ := createOrReuse_spec hs hi hg hd hsub hr
        have hnone : P r.1 = none := by
          cases hp : P r.1 with
          | none => rfl
          | some R =>
            have := hP.names _ _ hp
            omega
        have hi2 := inv_redirect h1 (h6 f Fn hf) hc h4 h5 h2 (by omega)
        have ht2 : Tpl P (redirect r.2 f Fn i r.1) := by
          refine ⟨?_, ?_, ?_, ?_⟩
          · intro x hx
            rw [show (redirect r.2 f Fn i r.1).templates = _ from h10] at hx
            rcases List.mem_cons.1 hx with rfl | hx
            · exact hgP
            · exact ht.tmpl x hx
          · intro x hx
            rw [show (redirect r.2 f Fn i r.1).called = _ from h9] at hx
            exact ht.called x hx
          · intro x X hxv hx h' cs' hm
            rw [show (redirect r.2 f Fn i r.1).visited = _ from h8] at hxv
            have hx : upd _ _ _ x = some X := hx
            rw [upd_ne _ _ (by rintro rfl; exact hxv hfv)] at hx
            rcases h7 x X hx with hx | ⟨-, hx⟩
            · exact ht.unvisited x X hxv hx h' cs' hm
            · obtain ⟨cs0, hm0⟩ := hx h' cs' hm
              exact ht.unvisited g G hgv hg h' cs0 hm0
          · intro x hx
            rw [show (redirect r.2 f Fn i r.1).visited = _ from h8] at hx
            exact ht.visited x hx
        have ht3 := ihv _ _ _ hc2 hi2 ht2 (.inr hnone)
        obtain ⟨p1, hrv⟩ := (step_spec (P := P) hs n).1 _ _ _ hc2 hi2
        have hfv2 : f ∈ (redirect r.2 f Fn i r.1).visited := by
          rw [show (redirect r.2 f Fn i r.1).visited = _ from h8]
          exact hfv
        have hf2 : c2.funcs f = some { Fn with body := setCall r.1 Fn.body i } := p1.old f hfv2 (fun h => h) _ (upd_self _ _ _)
        refine ihw f (i + 1) _ cfg' _ h (inv_other p1.inv _ _) ⟨ht3.tmpl, ?_, ht3.unvisited, ht3.visited⟩ (p1.visited f hfv2) hf2 ?_
        · intro x hx
          rcases List.mem_cons.1 hx with rfl | hx
          · exact hnone
          · exact ht3.called x hx
        · intro j h' cs' hj hcj
          simp only at hcj
          rw [calls_setCall _ _ _ i hc, List.getElem?_set_ne (by omega)] at hcj
          exact hu j h' cs' (by omega) hcj

theorem run_tpl {sem : Sem V F W} {env : Env V F} {P : String → Option (Func V F)} (hs : Sound sem env) (hP : Prog P) (hT : ∀ g Fn, P g = some Fn → g ≠ "main" → isTemplate Fn = true) {n : Nat} :
    ∀ {names : List String} {cfg cfg' : Cfg V F}, (∀ f ∈ names, (P f).isSome) → names.foldlM (entry env n) cfg = .ok cfg' → Run sem P cfg → Tpl P cfg → Tpl P cfg'
  | [], cfg, cfg', _, h, hr, ht => by
    cases h
    exact ht
  | f :: names, cfg, cfg', hn, h, hr, ht => by
    rw [List.foldlM_cons] at h
    obtain ⟨c1, h1, h⟩ := Except.bind_ok h
    obtain ⟨r1, -, -⟩ := entry_spec hs h1 hr
    refine run_tpl hs hP hT (fun f hf => hn f (List.mem_cons_of_mem _ hf)) h r1 ?_
    unfold entry at h1
    split at h1
    · cases h1
    · next Fn hf =>
      split at h1
      · cases h1
        exact ht
      · next hc =>
        simp only [Bool.or_eq_true, List.contains_iff_mem, not_or] at hc
        refine (step_tpl (P := P) hs hP hT n).1 f _ c1 h1 (inv_canon hs hr.inv hf) ⟨ht.tmpl, ht.called, ?_, ht.visited⟩ ?_
        · intro x X hxv hx h' cs' hm
          by_cases he : x = f
          · subst he
            have hx : upd _ _ _ _ = some X := hx
            rw [upd_self] at hx
            cases hx
            obtain ⟨cs1, hm1, -⟩ := hs.calls _ _ _ _ hm
            exact ht.unvisited x Fn hxv hf h' cs1 hm1
          · have hx : upd _ _ _ x = some X := hx
            rw [upd_ne _ _ he] at hx
            exact ht.unvisited x X hxv hx h' cs' hm
        · left
          by_contra hne
          obtain ⟨F0, hF0⟩ := Option.isSome_iff_exists.1 (hn f List.mem_cons_self)
          obtain ⟨G, g1, g2, -⟩ := hr.inv.dom f F0 hF0
          obtain rfl := Option.some.inj (hf.symm.trans g1)
          have := hT f F0 hF0 hne
          apply hc.1.1
          unfold isTemplate at this ⊢
          rw [g2]
          exact this

/-- **C249**, for programs whose functions (other than `main`) each have a parameter without a type, or a matrix parameter without a value type or without a shape: if the pass ends, the program does what it
did before, without any further condition on what is left. -/
theorem C249_untyped_functions {sem : Sem V F W} {env : Env V F} {P : String → Option (Func V F)} (hs : Sound sem env) (hP : Prog P) {names : List String} (hmain : HasMain P names)
    (hT : ∀ g Fn, P g = some Fn → g ≠ "main" → isTemplate Fn = true) {n : Nat} {cfg : Cfg V F} (h : runPass env n P names = .ok cfg) (hdist : P "dist" = none) (m : Nat) (args : List V) (w : W) :
    evalF sem cfg.result m "main" args w = evalF sem P m "main" args w := by
  have ht : Tpl P cfg := run_tpl hs hP hT hmain.names h (run_init sem hP) (by
    refine ⟨?_, ?_, ?_, ?_⟩
    · intro x hx; simp [Cfg.init] at hx
    · intro x hx; simp [Cfg.init] at hx
    · intro g G _ hg h' cs hm
      exact (hP.calls g G hg h' cs hm).2
    · intro x hx; simp [Cfg.init] at hx)
  obtain ⟨M, hM, hMt⟩ := hmain.typed
  obtain ⟨hr, -, hv⟩ := run_spec hs h (run_init sem hP)
  have hmv := hv "main" hmain.mem (by decide) (fun Fn hFn => by rw [Option.some.inj (hFn.symm.trans hM)]; exact hMt) (by rw [hM]; rfl)
  refine C249_specialisation hs hP hmain h ?_ m args w
  intro f G hk hf g cs hm
  intro hg
  have hfv : f ∈ cfg.visited := by
    unfold kept at hk
    simp only [Bool.or_eq_true, beq_iff_eq, Bool.and_eq_true, List.contains_iff_mem] at hk
    rcases hk with (rfl | rfl) | ⟨hk, -⟩
    · exact hmv
    · obtain ⟨Fn, hFn, -⟩ := hr.inv.func _ _ hf
      rw [origin_eq (by decide), hdist] at hFn
      cases hFn
    · exact hr.called f hk
  obtain ⟨G', hG', hcalls⟩ := hr.done f hfv
  obtain rfl := Option.some.inj (hf.symm.trans hG')
  have h1 := ht.called g (hcalls g cs hm)
  have h2 := ht.tmpl g hg
  rw [h1] at h2
  cases h2

/-! ### No access to a missing function -/

theorem step_no_ub {sem : Sem V F W} {env : Env V F} {P : String → Option (Func V F)} (hs : Sound sem env) : ∀ n,
    (∀ f cfg, Inv sem P cfg → (cfg.funcs f).isSome → step env n (.visit f) cfg ≠ .error .ub) ∧
    (∀ f i cfg, Inv sem P cfg → (cfg.funcs f).isSome → f ∈ cfg.visited → step env n (.walk f i) cfg ≠ .error .ub) := by
  intro n
  induction n with
  | zero => exact ⟨fun f cfg _ _ h => (by cases h), fun f i cfg _ _ _ h => (by cases h)⟩
  | succ n ih =>
    obtain ⟨ihv, ihw⟩ := ih
    have hbind : ∀ {α β : Type} {x : Out α} {k : α → Out β}, x ≠ .error .ub → (∀ a, x = .ok a → k a ≠ .error .ub) → (x >>= k) ≠ .error .ub := by
      intro α β x k h1 h2
      cases x with
      | error e => exact fun h => h1 (by cases h; rfl)
      | ok a => exact h2 a rfl
    refine ⟨?_, ?_⟩
    · intro f cfg hi hf
      simp only [step]
      split
      · intro h; cases h
      · exact ihw f 0 _ (inv_other hi _ _) hf List.mem_cons_self
    · intro f i cfg hi hf hfv
      obtain ⟨Fn, hf⟩ := Option.isSome_iff_exists.1 hf
      simp only [step, hf]
      split
      · intro h; cases h
      · next g cs hc =>
        obtain ⟨hd, G, hg, hsub⟩ := hi.call f Fn hf g cs (List.mem_of_getElem? hc)
        simp only [hg]
        split
        · refine hbind ?_ fun r hr => ?_
          · unfold createOrReuse
            split
            · intro h; cases h
            · split <;> intro h <;> cases h
          · obtain ⟨h1, h2, h3, ⟨H, h4, h5⟩, h6, -, h8, h9, -⟩ := createOrReuse_spec hs hi hg hd hsub hr
            have hfr := h6 f Fn hf
            have hi2 := inv_redirect h1 hfr hc h4 h5 h2 (by omega)
            have hfv2 : f ∈ (redirect r.2 f Fn i r.1).visited := by
              rw [show (redirect r.2 f Fn i r.1).visited = _ from h8]
              exact hfv
            refine hbind (ihv _ _ hi2 ?_) fun c2 hc2 => ?_
            · show (upd _ _ _ _).isSome
              by_cases he : r.1 = f
              · rw [he, upd_self]; rfl
              · rw [upd_ne _ _ he, h4]; rfl
            · obtain ⟨p1, -⟩ := (step_spec (P := P) hs n).1 _ _ _ hc2 hi2
              refine ihw f (i + 1) _ (inv_other p1.inv _ _) ?_ (p1.visited f hfv2)
              show (c2.funcs f).isSome
              rw [p1.old f hfv2 (fun h => h) _ (upd_self _ _ _)]
              rfl
        · refine hbind (ihv _ _ hi (by rw [hg]; rfl)) fun c2 hc2 => ?_
          obtain ⟨p1, -⟩ := (step_spec (P := P) hs n).1 _ _ _ hc2 hi
          refine ihw f (i + 1) _ (inv_other p1.inv _ _) ?_ (p1.visited f hfv)
          show (c2.funcs f).isSome
          rw [p1.old f hfv (fun h => h) _ hf]
          rfl

theorem run_no_ub {sem : Sem V F W} {env : Env V F} {P : String → Option (Func V F)} (hs : Sound sem env) {n : Nat} : ∀ {names : List String} {cfg : Cfg V F}, (∀ f ∈ names, (P f).isSome) → Run sem P cfg →
    names.foldlM (entry env n) cfg ≠ .error .ub
  | [], _, _, _ => by
    intro h
    cases h
  | f :: names, cfg, hn, hr => by
    rw [List.foldlM_cons]
    obtain ⟨F0, hF0⟩ := Option.isSome_iff_exists.1 (hn f List.mem_cons_self)
    obtain ⟨G, g1, -, -⟩ := hr.inv.dom f F0 hF0
    have h1 : entry env n cfg f ≠ .error .ub := by
      unfold entry
      simp only [g1]
      split
      · intro h; cases h
      · exact (step_no_ub (P := P) hs n).1 f _ (inv_canon hs hr.inv g1) (by show (upd _ _ _ _).isSome; rw [upd_self]; rfl)
    cases h2 : entry env n cfg f with
    | error e =>
      intro h
      rw [h2] at h1
      cases h
      exact h1 rfl
    | ok c1 => exact run_no_ub hs (fun f hf => hn f (List.mem_cons_of_mem _ hf)) (entry_spec hs h2 hr).1

/-- **C249**: the pass does not use a function that does not exist. -/
theorem C249_no_missing_function {sem : Sem V F W} {env : Env V F} {P : String → Option (Func V F)} (hs : Sound sem env) (hP : Prog P) {names : List String} (hmain : HasMain P names) (n : Nat) :
    runPass env n P names ≠ .error .ub := run_no_ub hs hmain.names (run_init sem hP)

/-- **C249**: the function that a call is redirected to has the types of the operands as types of its parameters; a copy is made only if they fit the types in the definition. -/
theorem C249_argument_types {env : Env V F} {cfg : Cfg V F} {g : String} {G : Func V F} {ts : List Ty} {cs : List (Option V)} {r : String × Cfg V F} (h : createOrReuse env cfg g G ts cs = .ok r) :
    ∃ H, r.2.funcs r.1 = some H ∧ (∀ (i : Nat) a b, H.tys[i]? = some a → ts[i]? = some b → a = b) ∧
      (cfg.funcs r.1 = some H ∨ ∀ (i : Nat) a b, G.tys[i]? = some a → ts[i]? = some b → a ≠ b → a = .unknown ∨
        ∃ e e' r c s, a = .mat e r c s ∧ (∃ r' c' s', b = .mat e' r' c' s') ∧ (e = none ∨ (e = e' ∧ r = none ∧ c = none ∧ s = none))) := by
  have hzip : ∀ {l1 l2 : List Ty} {i : Nat} {a b : Ty}, l1[i]? = some a → l2[i]? = some b → (a, b) ∈ l1.zip l2 := by
    intro l1 l2 i a b h1 h2
    exact List.mem_of_getElem? (i := i) (by rw [List.getElem?_zip_eq_some]; exact ⟨h1, h2⟩)
  unfold createOrReuse at h
  split at h
  · next h0 hr =>
    cases h
    unfold reuse at hr
    split at hr
    · cases hr
    · rw [Option.map_eq_some_iff] at hr
      obtain ⟨⟨g', h'⟩, hf, rfl⟩ := hr
      have hp := List.find?_some hf
      simp only [Bool.and_eq_true, decide_eq_true_eq] at hp
      obtain ⟨-, hp⟩ := hp
      cases hH : cfg.funcs h' with
      | none => rw [hH] at hp; cases hp
      | some H =>
        rw [hH] at hp
        simp only [Option.any_some, typesMatch, List.all_eq_true, decide_eq_true_eq] at hp
        exact ⟨H, rfl, fun i a b h1 h2 => hp (a, b) (hzip h1 h2), .inl rfl⟩
  · split at h
    · next hall =>
      cases h
      refine ⟨_, upd_self _ _ _, ?_, .inr ?_⟩
      · intro i a b h1 h2
        have h1 : ts[i]? = some a := h1
        rw [h1] at h2
        exact Option.some.inj h2
      · intro i a b h1 h2 hne
        have := List.all_eq_true.1 hall (a, b) (hzip h1 h2)
        revert this
        show tyOk a b = true → _
        unfold tyOk
        split
        · intro _
          exact .inl rfl
        · intro _
          exact .inr ⟨_, _, _, _, _, rfl, ⟨_, _, _, rfl⟩, .inl rfl⟩
        · intro he
          exact .inr ⟨_, _, _, _, _, rfl, ⟨_, _, _, rfl⟩, .inr ⟨by simpa using he, rfl, rfl, rfl⟩⟩
        · intro he
          exact absurd (by simpa using he) hne
    · cases h

/-! ### Examples and counterexamples -/

/-- Values are numbers; operation `true` reads a number from outside, `false` is the predecessor. -/
def exSem : Sem Nat Bool (List Nat) where
  op f vs w := if f then (w.headD 0, w.tail) else (vs.headD 0 - 1, w)
  truthy v := v != 0

def exEnv (ipa : Bool) (t : Nat → List Ty) : Env Nat Bool := ⟨ipa, fun _ _ i => t i, fun _ c => c⟩

theorem exSound (ipa : Bool) (t : Nat → List Ty) : Sound (W := List Nat) exSem (exEnv ipa t) := ⟨fun _ _ _ _ _ _ _ => rfl, fun _ _ g cs h => ⟨cs, h, .refl _⟩⟩

def si64 : Ty := .other "si64"

/-- `def f(x) { return x - 1; }` with `f(read()); f(3)`. -/
def exMain : Code Nat Bool := .op true [] (.call "f-1" [0] (.const 3 (.call "f-1" [2] (.ret 3))))
def exProg (t : Ty) : String → Option (Func Nat Bool)
  | "main" => some (.plain [] exMain)
  | "f-1" => some (.plain [t] (.op false [0] (.ret 1)))
  | _ => none

theorem exProg_ok (t : Ty) : Prog (exProg t) := by
  refine ⟨?_, ?_, ?_⟩
  · intro g G h
    unfold exProg at h
    split at h <;> first | (cases h; done) | decide
  · intro g G h
    unfold exProg at h
    split at h <;> cases h <;> simp [Func.plain]
  · intro g G h
    unfold exProg at h
    split at h
    · cases h
      intro h' cs hm
      simp only [exMain, Func.plain, calls, List.mem_cons, Prod.mk.injEq, List.not_mem_nil, or_false] at hm
      rcases hm with ⟨rfl, -⟩ | ⟨rfl, -⟩ <;> exact ⟨by decide, rfl⟩
    · cases h
      intro h' cs hm
      simp [Func.plain, calls] at hm
    · cases h

theorem exProg_main (t : Ty) : HasMain (exProg t) ["f-1", "main"] := by
  refine ⟨by decide, ⟨_, rfl, rfl⟩, ?_⟩
  intro f hf
  simp only [List.mem_cons, List.not_mem_nil, or_false] at hf
  rcases hf with rfl | rfl <;> rfl

/-- With an untyped parameter there are two copies (the second for the constant), and the original is gone. -/
example : ((runPass (exEnv true fun _ => [si64]) 10 (exProg .unknown) ["f-1", "main"]).toOption.map fun c =>
    (c.called, c.templates, (c.result "f-1").isSome, (c.result "f-1-1").isSome, (c.result "f-1-2").isSome)) = some (["f-1-2", "f-1-1"], ["f-1", "f-1"], false, true, true) := by decide +kernel

example : evalF exSem (exProg .unknown) 3 "main" [] [7] = some (2, []) := by decide +kernel

/-- **C250** (refuted): a function with typed parameters that is called both with a constant and with a value that is not constant is removed although the second call still refers to it. -/
theorem C250_typed_functions_partial : Prog (exProg si64) ∧ Sound (W := List Nat) exSem (exEnv true fun _ => [si64]) ∧ HasMain (exProg si64) ["f-1", "main"] ∧
    (∀ w : List Nat, evalF exSem (exProg si64) 2 "main" [] w = some (2, w.tail)) ∧
    ∃ cfg, runPass (exEnv true fun _ => [si64]) 10 (exProg si64) ["f-1", "main"] = .ok cfg ∧ ∀ m w, evalF exSem cfg.result m "main" [] w = none := by
  refine ⟨exProg_ok _, exSound _ _, exProg_main _, fun w => rfl, ?_⟩
  have h : ∃ cfg, runPass (exEnv true fun _ => [si64]) 10 (exProg si64) ["f-1", "main"] = .ok cfg ∧ cfg.result "f-1" = none ∧
      ∃ M h, cfg.result "main" = some M ∧ M.preset = [] ∧ M.body = .op true [] (.call "f-1" [0] (.const 3 (.call h [2] (.ret 3)))) := ⟨_, rfl, rfl, _, _, rfl, rfl, rfl⟩
  obtain ⟨cfg, h1, h2, M, h, hM, h4, h5⟩ := h
  refine ⟨cfg, h1, ?_⟩
  intro m w
  cases m with
  | zero => rfl
  | succ m =>
    have h6 : ∀ vs w, evalF exSem cfg.result m "f-1" vs w = none := by
      intro vs w
      cases m with
      | zero => rfl
      | succ m => simp [evalF, h2]
    simp [evalF, hM, h4, h5, evalC, bindArgs, h6]

/-! ### Recursion with a constant -/

/-- `def f(n: si64, b: si64) -> si64 { if (n) return f(n - 1, 1); else return b; }`, where the call may have been redirected. -/
def recBody (g : String) : Code Nat Bool := .op false [0] (.ite 0 (.const 1 (.call g [2, 3] (.ret 4))) (.ret 1) (.ret 3))
/-- `f(5, 2)` -/
def recMain (g : String) : Code Nat Bool := .const 5 (.const 2 (.call g [0, 1] (.ret 2)))

def recProg : String → Option (Func Nat Bool)
  | "main" => some (.plain [] (recMain "f-1"))
  | "f-1" => some (.plain [si64, si64] (recBody "f-1"))
  | _ => none

/-- The states the pass goes through: every function calls a copy of `f`, with a constant. -/
structure Rec (cfg : Cfg Nat Bool) : Prop where
  funcs : ∀ x X, cfg.funcs x = some X → ∃ g, 1 ≤ dashes g ∧ (∃ g' p q, cfg.funcs g = some ⟨[si64, si64], [p, q], recBody g'⟩) ∧ ((∃ p q, X = ⟨[si64, si64], [p, q], recBody g⟩) ∨ X = ⟨[], [], recMain g⟩)
  fresh : ∀ x, ((cfg.funcs x).isSome ∨ x ∈ cfg.visited) → ∀ g n, 1 ≤ dashes g → cfg.next ≤ n → x ≠ uniqueName g n

theorem rec_calls {x : String} {X : Func Nat Bool} {g : String} (h : (∃ p q, X = ⟨[si64, si64], [p, q], recBody g⟩) ∨ X = ⟨[], [], recMain g⟩) :
    ∃ cs, (calls X.body X.preset)[0]? = some (g, cs) ∧ cs.any (·.isSome) = true := by
  rcases h with ⟨p, q, rfl⟩ | rfl
  · exact ⟨[none, some 1], rfl, rfl⟩
  · exact ⟨[some 5, some 2], rfl, rfl⟩

theorem rec_step : ∀ n (x : String) (cfg : Cfg Nat Bool), Rec cfg → (cfg.funcs x).isSome → x ∉ cfg.visited → step (exEnv true fun _ => [si64, si64]) n (.visit x) cfg = .error .running
  | 0, _, _, _, _, _ => rfl
  | 1, x, cfg, _, _, hv => by simp [step, hv]
  | n + 2, x, cfg, hr, hx, hv => by
    obtain ⟨X, hX⟩ := Option.isSome_iff_exists.1 hx
    obtain ⟨g, hgd, ⟨g', p, q, hg⟩, hshape⟩ := hr.funcs x X hX
    obtain ⟨cs, hc, hany⟩ := rec_calls (x := x) hshape
    have hreuse : ∀ (c : Cfg Nat Bool) ts, reuse (exEnv true fun _ => [si64, si64]) c g ts cs = none := by
      intro c ts
      unfold reuse
      rw [if_pos (by simp [exEnv, hany])]
    simp only [step, hv, if_false, hX, hc, hg, hany, Bool.or_true, if_true]
    have hcr : ∀ c : Cfg Nat Bool, createOrReuse (exEnv true fun _ => [si64, si64]) c g ⟨[si64, si64], [p, q], recBody g'⟩ [si64, si64] cs =
        .ok ((create (exEnv true fun _ => [si64, si64]) c g ⟨[si64, si64], [p, q], recBody g'⟩ [si64, si64] cs).1,
          { (create (exEnv true fun _ => [si64, si64]) c g ⟨[si64, si64], [p, q], recBody g'⟩ [si64, si64] cs).2 with templates := g :: c.templates }) := by
      intro c
      unfold createOrReuse
      rw [hreuse]
      rfl
    rw [show (exEnv true fun _ => [si64, si64]).types { cfg with visited := x :: cfg.visited } x 0 = [si64, si64] from rfl, hcr]
    simp only [bind, Except.bind]
    have hfr : ∀ y, ((cfg.funcs y).isSome ∨ y ∈ cfg.visited) → y ≠ uniqueName g cfg.next := fun y hy => hr.fresh y hy g cfg.next hgd (Nat.le_refl _)
    have hxh := hfr x (.inl hx)
    obtain ⟨p', q', hpre⟩ : ∃ p' q', newPreset (exEnv true fun _ => [si64, si64]) ⟨[si64, si64], [p, q], recBody g'⟩ cs = [p', q'] := by
      have hl := newPreset_length (exEnv true fun _ => [si64, si64]) ⟨[si64, si64], [p, q], recBody g'⟩ cs
      match hq : newPreset (exEnv true fun _ => [si64, si64]) ⟨[si64, si64], [p, q], recBody g'⟩ cs, hl with
      | [p', q'], _ => exact ⟨p', q', rfl⟩
    rw [rec_step n _ _ ?_ ?_ ?_]
    · have hself : ∀ Y, upd (upd cfg.funcs (uniqueName g cfg.next) ⟨[si64, si64], [p', q'], recBody g'⟩) x Y x = some Y := fun Y => upd_self _ _ _
      have hnew : ∀ Y, upd (upd cfg.funcs (uniqueName g cfg.next) ⟨[si64, si64], [p', q'], recBody g'⟩) x Y (uniqueName g cfg.next) = some ⟨[si64, si64], [p', q'], recBody g'⟩ := by
        intro Y
        rw [upd_ne _ _ hxh.symm, upd_self]
      have hshape' : (∃ p q, ({ X with body := setCall (uniqueName g cfg.next) X.body 0 } : Func Nat Bool) = ⟨[si64, si64], [p, q], recBody (uniqueName g cfg.next)⟩) ∨
          ({ X with body := setCall (uniqueName g cfg.next) X.body 0 } : Func Nat Bool) = ⟨[], [], recMain (uniqueName g cfg.next)⟩ := by
        rcases hshape with ⟨p, q, rfl⟩ | rfl
        · exact .inl ⟨p, q, rfl⟩
        · exact .inr rfl
      have hkeep : ∀ t, (∃ g'' p q, cfg.funcs t = some ⟨[si64, si64], [p, q], recBody g''⟩) →
          ∃ g'' p q, upd (upd cfg.funcs (uniqueName g cfg.next) ⟨[si64, si64], [p', q'], recBody g'⟩) x { X with body := setCall (uniqueName g cfg.next) X.body 0 } t = some ⟨[si64, si64], [p, q], recBody g''⟩ := by
        rintro t ⟨g'', p0, q0, ht⟩
        by_cases h1 : t = x
        · subst h1
          rcases hshape' with ⟨p1, q1, h2⟩ | h2
          · exact ⟨_, p1, q1, by rw [hself, h2]⟩
          · obtain rfl := Option.some.inj (hX.symm.trans ht)
            cases h2
        · exact ⟨g'', p0, q0, by rw [upd_ne _ _ h1, upd_ne _ _ (hfr t (.inl (by rw [ht]; rfl)))]; exact ht⟩
      refine ⟨?_, ?_⟩
      · intro y Y hy
        have hy : upd (upd cfg.funcs (uniqueName g cfg.next) ⟨[si64, si64], newPreset (exEnv true fun _ => [si64, si64]) ⟨[si64, si64], [p, q], recBody g'⟩ cs, recBody g'⟩) x
          { X with body := setCall (uniqueName g cfg.next) X.body 0 } y = some Y := hy
        show ∃ t, 1 ≤ dashes t ∧ (∃ g'' p0 q0, upd (upd cfg.funcs (uniqueName g cfg.next) ⟨[si64, si64], newPreset (exEnv true fun _ => [si64, si64]) ⟨[si64, si64], [p, q], recBody g'⟩ cs, recBody g'⟩) x
          { X with body := setCall (uniqueName g cfg.next) X.body 0 } t = some ⟨[si64, si64], [p0, q0], recBody g''⟩) ∧ _
        rw [hpre] at hy ⊢
        by_cases h1 : y = x
        · subst h1
          rw [hself] at hy
          obtain rfl := Option.some.inj hy
          exact ⟨_, by rw [dashes_uniqueName]; omega, ⟨_, _, _, hnew _⟩, hshape'⟩
        · by_cases h2 : y = uniqueName g cfg.next
          · subst h2
            rw [hnew] at hy
            obtain rfl := Option.some.inj hy
            obtain ⟨g2, hd2, h3, h4⟩ := hr.funcs g _ hg
            have h5 : g2 = g' := by
              rcases h4 with ⟨_, _, h4⟩ | h4
              · simp only [Func.mk.injEq, recBody, Code.op.injEq, Code.ite.injEq, Code.const.injEq, Code.call.injEq] at h4
                exact h4.2.2.2.2.2.1.2.1.symm
              · cases h4
            subst h5
            exact ⟨g2, hd2, hkeep g2 h3, .inl ⟨_, _, rfl⟩⟩
          · rw [upd_ne _ _ h1, upd_ne _ _ h2] at hy
            obtain ⟨g2, hd2, h3, h4⟩ := hr.funcs y Y hy
            exact ⟨g2, hd2, hkeep g2 h3, h4⟩
      · intro y hy g2 m hgd2 hm
        have hm : cfg.next + 1 ≤ m := hm
        have hy : (upd (upd cfg.funcs (uniqueName g cfg.next) ⟨[si64, si64], newPreset (exEnv true fun _ => [si64, si64]) ⟨[si64, si64], [p, q], recBody g'⟩ cs, recBody g'⟩) x
          { X with body := setCall (uniqueName g cfg.next) X.body 0 } y).isSome ∨ y ∈ x :: cfg.visited := hy
        by_cases h1 : y = x
        · subst h1
          exact hr.fresh y (.inl hx) g2 m hgd2 (by omega)
        · by_cases h2 : y = uniqueName g cfg.next
          · subst h2
            intro h3
            have := (uniqueName_inj h3).2
            omega
          · rw [upd_ne _ _ h1, upd_ne _ _ h2, List.mem_cons] at hy
            refine hr.fresh y ?_ g2 m hgd2 (by omega)
            rcases hy with hy | hy | hy
            · exact .inl hy
            · exact absurd hy h1
            · exact .inr hy
    · show (upd (upd cfg.funcs (uniqueName g cfg.next) _) x _ (uniqueName g cfg.next)).isSome
      rw [upd_ne _ _ hxh.symm, upd_self]
      rfl
    · show uniqueName g cfg.next ∉ x :: cfg.visited
      rw [List.mem_cons, not_or]
      exact ⟨hxh.symm, fun h => hfr _ (.inr h) rfl⟩

/-- **C251** (refuted): with propagation of constants (the default), a recursive function whose recursive call has a constant argument is copied without end, although the program itself ends. -/
theorem C251_recursion_partial : Prog recProg ∧ Sound (W := List Nat) exSem (exEnv true fun _ => [si64, si64]) ∧ HasMain recProg ["main", "f-1"] ∧ (∀ w : List Nat, evalF exSem recProg 7 "main" [] w = some (1, w)) ∧
    ∀ n, runPass (exEnv true fun _ => [si64, si64]) n recProg ["main", "f-1"] = .error .running ∧ runPass (exEnv true fun _ => [si64, si64]) n recProg ["f-1", "main"] = .error .running := by
  have hrec : Rec (Cfg.init recProg) := by
    refine ⟨?_, ?_⟩
    · intro x X hx
      have hx : recProg x = some X := hx
      unfold recProg at hx
      split at hx
      · cases hx
        exact ⟨"f-1", by decide, ⟨"f-1", none, none, rfl⟩, .inr rfl⟩
      · cases hx
        exact ⟨"f-1", by decide, ⟨"f-1", none, none, rfl⟩, .inl ⟨none, none, rfl⟩⟩
      · cases hx
    · intro x hx g n hgd hn hxn
      have hd : dashes x ≤ 1 := by
        rcases hx with hx | hx
        · have hx : (recProg x).isSome = true := hx
          unfold recProg at hx
          split at hx
          · decide
          · decide
          · cases hx
        · simp [Cfg.init] at hx
      rw [hxn, dashes_uniqueName] at hd
      omega
  have hsame : ∀ f Fn, recProg f = some Fn → upd recProg f { Fn with body := (exEnv true fun _ => [si64, si64]).canon Fn.preset Fn.body } = recProg := by
    intro f Fn hf
    funext x
    by_cases h : x = f
    · subst h
      rw [upd_self, hf]
      rfl
    · rw [upd_ne _ _ h]
  have hentry : ∀ n f Fn, recProg f = some Fn → isTemplate Fn = false → entry (exEnv true fun _ => [si64, si64]) n (.init recProg) f = .error .running := by
    intro n f Fn hf ht
    have hf' : (Cfg.init recProg).funcs f = some Fn := hf
    unfold entry
    simp only [hf', ht]
    rw [if_neg (by simp [Cfg.init])]
    show step _ n _ ⟨upd recProg f _, [], [], [], [], 1⟩ = _
    rw [hsame f Fn hf]
    exact rec_step n f _ hrec (by show (recProg f).isSome = true; rw [hf]; rfl) (by simp)
  refine ⟨?_, exSound _ _, ?_, fun w => rfl, fun n => ⟨?_, ?_⟩⟩
  · refine ⟨?_, ?_, ?_⟩
    · intro g G h
      unfold recProg at h
      split at h <;> first | (cases h; done) | decide
    · intro g G h
      unfold recProg at h
      split at h <;> cases h <;> simp [Func.plain]
    · intro g G h
      unfold recProg at h
      split at h
      · cases h
        intro h' cs hm
        simp only [recMain, Func.plain, calls, List.mem_cons, Prod.mk.injEq, List.not_mem_nil, or_false] at hm
        obtain ⟨rfl, -⟩ := hm
        exact ⟨by decide, rfl⟩
      · cases h
        intro h' cs hm
        simp only [recBody, Func.plain, calls, List.mem_cons, Prod.mk.injEq, List.not_mem_nil, or_false, List.nil_append, List.append_nil] at hm
        obtain ⟨rfl, -⟩ := hm
        exact ⟨by decide, rfl⟩
      · cases h
  · refine ⟨by decide, ⟨_, rfl, rfl⟩, ?_⟩
    intro f hf
    simp only [List.mem_cons, List.not_mem_nil, or_false] at hf
    rcases hf with rfl | rfl <;> rfl
  · show (entry _ n _ "main" >>= _) = _
    rw [hentry n "main" _ rfl rfl]
    rfl
  · show (entry _ n _ "f-1" >>= _) = _
    rw [hentry n "f-1" _ rfl rfl]
    rfl

end Verif.Special
