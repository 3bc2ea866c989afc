/-
  The walk over the calls: every function that is visited has all its calls recorded, and keeps its code.
-/
import Verif.Special.Inv

namespace Verif.Special
variable {V F W : Type}

/-- All functions that `x` calls have been recorded. -/
def Done (cfg : Cfg V F) (x : String) : Prop := ∃ G, cfg.funcs x = some G ∧ ∀ h cs, (h, cs) ∈ calls G.body G.preset → h ∈ cfg.called

/-- What visiting functions leaves. `ex`: the function whose calls are being walked, if any. -/
structure Post (sem : Sem V F W) (P : String → Option (Func V F)) (ex : String → Prop) (cfg cfg' : Cfg V F) : Prop where
  inv : Inv sem P cfg'
  visited : ∀ x ∈ cfg.visited, x ∈ cfg'.visited
  called : ∀ x ∈ cfg.called, x ∈ cfg'.called
  old : ∀ x ∈ cfg.visited, ¬ ex x → ∀ X, cfg.funcs x = some X → cfg'.funcs x = some X
  new : ∀ x ∈ cfg'.visited, x ∈ cfg.visited ∨ Done cfg' x
  called' : ∀ x ∈ cfg'.called, x ∈ cfg.called ∨ x ∈ cfg'.visited

theorem Done.mono {cfg cfg' : Cfg V F} {x : String} (h : Done cfg x) (he : ∀ X, cfg.funcs x = some X → cfg'.funcs x = some X) (hc : ∀ x ∈ cfg.called, x ∈ cfg'.called) : Done cfg' x := by
  obtain ⟨G, h1, h2⟩ := h
  exact ⟨G, he G h1, fun h cs hm => hc h (h2 h cs hm)⟩

/-- A visit inside a walk of `f`, then the rest of the walk. -/
theorem Post.walk {sem : Sem V F W} {P : String → Option (Func V F)} {f g : String} {c0 c1 c2 c3 : Cfg V F} (h0v : c1.visited = c0.visited) (h0c : c1.called = c0.called)
    (h0f : ∀ x ∈ c0.visited, x ≠ f → ∀ X, c0.funcs x = some X → c1.funcs x = some X) (hf : f ∈ c0.visited) (h1 : Post sem P (fun _ => False) c1 c2) (hg : g ∈ c2.visited)
    (h2 : Post sem P (· = f) { c2 with called := g :: c2.called } c3) : Post sem P (· = f) c0 c3 := by
  have hvis : ∀ x ∈ c0.visited, x ∈ c2.visited := fun x hx => h1.visited x (h0v ▸ hx)
  refine ⟨h2.inv, fun x hx => h2.visited x (hvis x hx), fun x hx => h2.called x (List.mem_cons_of_mem _ (h1.called x (h0c ▸ hx))), ?_, ?_, ?_⟩
  · intro x hx hne X hX
    exact h2.old x (hvis x hx) hne X (h1.old x (h0v ▸ hx) (fun h => h) X (h0f x hx hne X hX))
  · intro x hx
    rcases h2.new x hx with hx' | hd
    · rcases h1.new x hx' with hx' | hd
      · exact .inl (h0v ▸ hx')
      · by_cases hxf : x = f
        · subst hxf
          exact .inl hf
        · exact .inr (hd.mono (h2.old x hx' hxf) fun y hy => h2.called y (List.mem_cons_of_mem _ hy))
    · exact .inr hd
  · intro x hx
    rcases h2.called' x hx with hx | hx
    · rcases List.mem_cons.1 hx with rfl | hx
      · exact .inr (h2.visited _ hg)
      · rcases h1.called' x hx with hx | hx
        · exact .inl (h0c ▸ hx)
        · exact .inr (h2.visited _ hx)
    · exact .inr hx

theorem Except.bind_ok {α β : Type} {x : Out α} {f : α → Out β} {b : β} (h : (x >>= f) = .ok b) : ∃ a, x = .ok a ∧ f a = .ok b := by
  cases x with
  | error e => cases h
  | ok a => exact ⟨a, rfl, h⟩

/-- The calls before the `i`-th have been recorded. -/
def Upto (cfg : Cfg V F) (Fn : Func V F) (i : Nat) : Prop := ∀ (j : Nat) h cs, j < i → (calls Fn.body Fn.preset)[j]? = some (h, cs) → h ∈ cfg.called

theorem step_spec {sem : Sem V F W} {env : Env V F} {P : String → Option (Func V F)} (hs : Sound sem env) : ∀ n,
    (∀ f cfg cfg', step env n (.visit f) cfg = .ok cfg' → Inv sem P cfg → Post sem P (fun _ => False) cfg cfg' ∧ f ∈ cfg'.visited) ∧
    (∀ f i cfg cfg' Fn, step env n (.walk f i) cfg = .ok cfg' → Inv sem P cfg → f ∈ cfg.visited → cfg.funcs f = some Fn → Upto cfg Fn i → Post sem P (· = f) cfg cfg' ∧ Done cfg' f) := by
  intro n
  induction n with
  | zero => exact ⟨fun f cfg cfg' h => (by cases h), fun f i cfg cfg' Fn h => (by cases h)⟩
  | succ n ih =>
    obtain ⟨ihv, ihw⟩ := ih
    refine ⟨?_, ?_⟩
    · intro f cfg cfg' h hi
      simp only [step] at h
      split at h
      · next hv =>
        cases h
        exact ⟨⟨hi, fun _ h => h, fun _ h => h, fun _ _ _ _ h => h, fun _ h => .inl h, fun _ h => .inl h⟩, hv⟩
      · next hv =>
        have hfn : ∃ Fn, cfg.funcs f = some Fn := by
          cases hf : cfg.funcs f with
          | some Fn => exact ⟨Fn, rfl⟩
          | none =>
            exfalso
            cases n with
            | zero => simp [step] at h
            | succ n => simp [step, hf] at h
        obtain ⟨Fn, hf⟩ := hfn
        obtain ⟨hp, hd⟩ := ihw f 0 _ cfg' Fn h (inv_other hi _ _) List.mem_cons_self hf (fun j _ _ hj => by omega)
        refine ⟨⟨hp.inv, fun x hx => hp.visited x (List.mem_cons_of_mem _ hx), hp.called, ?_, ?_, hp.called'⟩, hp.visited f List.mem_cons_self⟩
        · intro x hx _ X hX
          exact hp.old x (List.mem_cons_of_mem _ hx) (by rintro rfl; exact hv hx) X hX
        · intro x hx
          rcases hp.new x hx with hx | hx
          · rcases List.mem_cons.1 hx with rfl | hx
            · exact .inr hd
            · exact .inl hx
          · exact .inr hx
    · intro f i cfg cfg' Fn h hi hfv hf hu
      simp only [step, hf] at h
      split at h
      · next hn =>
        cases h
        refine ⟨⟨hi, fun _ h => h, fun _ h => h, fun _ _ _ _ h => h, fun _ h => .inl h, fun _ h => .inl h⟩, Fn, hf, ?_⟩
        intro g cs hm
        obtain ⟨j, hj, hg⟩ := List.getElem_of_mem hm
        exact hu j g cs (by have := List.getElem?_eq_none_iff.1 hn; omega) (by rw [List.getElem?_eq_getElem hj, hg])
      · next g cs hc =>
        obtain ⟨hd, G, hg, hsub⟩ := hi.call f Fn hf g cs (List.mem_of_getElem? hc)
        simp only [hg] at h
        split at h
        · obtain ⟨r, hr, h⟩ := Except.bind_ok h
          obtain ⟨c2, hc2, h⟩ := Except.bind_ok h
          obtain ⟨h1, h2, h3, ⟨H, h4, h5⟩, h6, -, h8, h9, -⟩ := createOrReuse_spec hs hi hg hd hsub hr
          have hfr := h6 f Fn hf
          have hi2 := inv_redirect h1 hfr hc h4 h5 h2 (by omega)
          obtain ⟨p1, hrv⟩ := ihv _ _ _ hc2 hi2
          have hf2 : c2.funcs f = some { Fn with body := setCall r.1 Fn.body i } := by
            exact p1.old f (by rw [show (redirect r.2 f Fn i r.1).visited = _ from h8]; exact hfv) (fun h => h) _ (upd_self _ _ _)
          have hu2 : Upto { c2 with called := r.1 :: c2.called } { Fn with body := setCall r.1 Fn.body i } (i + 1) := by
            intro j h cs' hj hcj
            simp only at hcj
            rw [calls_setCall _ _ _ i hc] at hcj
            rcases Nat.lt_or_eq_of_le (Nat.le_of_lt_succ hj) with hlt | rfl
            · rw [List.getElem?_set_ne (by omega)] at hcj
              exact List.mem_cons_of_mem _ (p1.called _ (by rw [show (redirect r.2 f Fn i r.1).called = _ from h9]; exact hu j h cs' hlt hcj))
            · rw [List.getElem?_set_self (List.getElem?_eq_some_iff.1 hc).1] at hcj
              cases hcj
              exact List.mem_cons_self
          obtain ⟨p2, hdone⟩ := ihw f (i + 1) _ cfg' _ h (inv_other p1.inv _ _) (p1.visited f (by rw [show (redirect r.2 f Fn i r.1).visited = _ from h8]; exact hfv)) hf2 hu2
          refine ⟨Post.walk (c1 := redirect r.2 f Fn i r.1) h8 h9 ?_ hfv p1 hrv p2, hdone⟩
          intro x hx hne X hX
          show upd _ _ _ x = _
          rw [upd_ne _ _ hne]
          exact h6 x X hX
        · obtain ⟨c2, hc2, h⟩ := Except.bind_ok h
          obtain ⟨p1, hgv⟩ := ihv _ _ _ hc2 hi
          have hf2 : c2.funcs f = some Fn := p1.old f hfv (fun h => h) _ hf
          have hu2 : Upto { c2 with called := g :: c2.called } Fn (i + 1) := by
            intro j h cs' hj hcj
            rcases Nat.lt_or_eq_of_le (Nat.le_of_lt_succ hj) with hlt | rfl
            · exact List.mem_cons_of_mem _ (p1.called _ (hu j h cs' hlt hcj))
            · rw [hc] at hcj
              cases hcj
              exact List.mem_cons_self
          obtain ⟨p2, hdone⟩ := ihw f (i + 1) _ cfg' _ h (inv_other p1.inv _ _) (p1.visited f hfv) hf2 hu2
          exact ⟨Post.walk rfl rfl (fun _ _ _ _ h => h) hfv p1 hgv p2, hdone⟩

end Verif.Special
