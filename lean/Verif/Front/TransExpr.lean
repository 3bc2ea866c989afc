/-
  Correctness of the translation of expressions and assignments.
-/
import Verif.Front.TransLemmas

namespace Verif.Front

theorem except_bind_ok {ε α β : Type} {m : Except ε α} {f : α → Except ε β} {b : β} (h : (m >>= f) = .ok b) :
    ∃ a, m = .ok a ∧ f a = .ok b := by
  cases m with
  | error e => cases h
  | ok a => exact ⟨a, rfl, h⟩

section
variable {ν F Val W : Type} [DecidableEq ν] {S : Sem F Val W}

/-- The SSA values the symbol table gives for the visible names hold the values of the variables of the script; exactly the visible names
are variables. -/
def Rel (s : Syms ν) (ρ : Env Val) (σ : Vars ν Val) : Prop :=
  (∀ n i, s.look n = some i → ∃ v, ρ i.value = some v ∧ σ n = some v) ∧ ∀ n, s.look n = none → σ n = none

theorem Rel.frame {s : Syms ν} {ρ ρ' : Env Val} {σ : Vars ν Val} {nx : Nat} (h : Rel s ρ σ) (hi : Inv s nx) (hf : ∀ v, v < nx → ρ' v = ρ v) :
    Rel s ρ' σ :=
  ⟨fun n i hl => by rw [hf _ (hi.look_lt hl)]; exact h.1 n i hl, h.2⟩

theorem Rel.push {s : Syms ν} {ρ : Env Val} {σ : Vars ν Val} (h : Rel s ρ σ) : Rel s.push ρ σ :=
  ⟨fun n i hl => h.1 n i (by rwa [look_push] at hl), fun n hl => h.2 n (by rwa [look_push] at hl)⟩

theorem Rel.isSome {s : Syms ν} {ρ : Env Val} {σ : Vars ν Val} (h : Rel s ρ σ) (n : ν) : (σ n).isSome = (s.look n).isSome := by
  cases hl : s.look n with
  | none => simp [h.2 n hl]
  | some i => obtain ⟨v, _, hv⟩ := h.1 n i hl; simp [hv]

theorem frame_lt {c : Code F} {nx fuel : Nat} {ρ : Env Val} {w : W} {p : Env Val × W} (hd : ∀ d ∈ c.allDefs, nx ≤ d)
    (h : c.exec S fuel ρ w = .ok p) (v : Nat) (hv : v < nx) : p.1 v = ρ v := by
  refine exec_frame (ρ' := p.1) (w' := p.2) h v fun hm => ?_
  have := hd v (defs_subset c v hm)
  omega

/-- What the translation of an expression guarantees. -/
structure EOk (S : Sem F Val W) (e : Expr ν F) (nx : Nat) (s : Syms ν) (c : Code F) (v nx' : Nat) : Prop where
  le : nx ≤ nx'
  lt : v < nx'
  defs : ∀ d ∈ c.allDefs, nx ≤ d ∧ d < nx'
  sim : ∀ fuel ρ σ w, Rel s ρ σ →
    RunRel (fun p q => q.1 v = some p.1 ∧ q.2 = p.2) (e.eval S σ w) (c.exec S fuel ρ w)

/-- The same for a list of arguments. -/
structure AOk (S : Sem F Val W) (as : Args ν F) (nx : Nat) (s : Syms ν) (c : Code F) (vs : List Nat) (nx' : Nat) : Prop where
  le : nx ≤ nx'
  lt : ∀ v ∈ vs, v < nx'
  defs : ∀ d ∈ c.allDefs, nx ≤ d ∧ d < nx'
  sim : ∀ fuel ρ σ w, Rel s ρ σ →
    RunRel (fun p q => vs.map q.1 = p.1.map some ∧ q.2 = p.2) (as.eval S σ w) (c.exec S fuel ρ w)

mutual
theorem transE_ok (e : Expr ν F) (nx : Nat) (s : Syms ν) (hi : Inv s nx) (c : Code F) (v nx' : Nat)
    (h : transE e nx s = .ok (c, v, nx')) : EOk S e nx s c v nx' := by
  match e with
  | .var n =>
    simp only [transE] at h
    obtain ⟨i, h1, h⟩ := except_bind_ok h
    cases h
    have hl := get_ok.1 h1
    refine ⟨Nat.le_refl _, hi.look_lt hl, by simp [Code.allDefs], fun fuel ρ σ w hr => ?_⟩
    obtain ⟨x, hx, hs⟩ := hr.1 n i hl
    simp only [Expr.eval, Vars.get, hs, Run.ok_bind, Code.exec]
    exact RunRel.ok ⟨hx, rfl⟩
  | .app f as =>
    simp only [transE] at h
    obtain ⟨⟨c1, vs, nx1⟩, h1, h⟩ := except_bind_ok h
    dsimp only at h
    cases h
    have ha := transA_ok as nx s hi c1 vs v h1
    refine ⟨Nat.le_succ_of_le ha.le, Nat.lt_succ_self _, ?_, fun fuel ρ σ w hr => ?_⟩
    · intro d hd
      simp only [allDefs_app, Code.allDefs, List.mem_append, List.mem_singleton, List.append_nil] at hd
      have := ha.le
      rcases hd with hd | rfl
      · have := ha.defs d hd; omega
      · omega
    · rw [exec_app]
      simp only [Expr.eval]
      refine (ha.sim fuel ρ σ w hr).bind fun p q _ _ ⟨hp1, hp2⟩ => ?_
      simp only [Code.exec]
      rw [getAll_eq.2 hp1, Run.ok_bind, hp2]
      rcases hop : S.op f p.1 p.2 with ⟨ys, w'⟩
      match ys with
      | [] => simp only [RunRel]
      | [y] =>
        simp only [Env.setAll, Run.ok_bind]
        exact RunRel.ok ⟨by simp [Env.upd], rfl⟩
      | _ :: _ :: _ => simp only [RunRel]
theorem transA_ok (as : Args ν F) (nx : Nat) (s : Syms ν) (hi : Inv s nx) (c : Code F) (vs : List Nat) (nx' : Nat)
    (h : transA as nx s = .ok (c, vs, nx')) : AOk S as nx s c vs nx' := by
  match as with
  | .nil =>
    simp only [transA] at h
    cases h
    exact ⟨Nat.le_refl _, by simp, by simp [Code.allDefs], fun fuel ρ σ w hr => RunRel.ok ⟨rfl, rfl⟩⟩
  | .cons e as =>
    simp only [transA] at h
    obtain ⟨⟨c1, v, nx1⟩, h1, h⟩ := except_bind_ok h
    obtain ⟨⟨c2, vs2, nx2⟩, h2, h⟩ := except_bind_ok h
    dsimp only at h
    cases h
    have he := transE_ok e nx s hi c1 v nx1 h1
    have ha := transA_ok as nx1 s (hi.mono he.le) c2 vs2 nx' h2
    have l1 := he.le
    have l2 := ha.le
    refine ⟨by omega, ?_, ?_, fun fuel ρ σ w hr => ?_⟩
    · intro x hx
      have := he.lt
      rcases List.mem_cons.1 hx with rfl | hx
      · omega
      · exact ha.lt x hx
    · intro d hd
      simp only [allDefs_app, List.mem_append] at hd
      rcases hd with hd | hd
      · have := he.defs d hd; omega
      · have := ha.defs d hd; omega
    · rw [exec_app]
      simp only [Args.eval]
      refine (he.sim fuel ρ σ w hr).bind fun p q _ hq ⟨hp1, hp2⟩ => ?_
      have hf := fun u hu => frame_lt (fun d hd => (he.defs d hd).1) hq u hu
      rw [← hp2]
      refine (ha.sim fuel q.1 σ q.2 (hr.frame hi hf)).bind_left fun p2 q2 _ hq2 ⟨g1, g2⟩ => ⟨_, rfl, ?_, g2⟩
      have hf2 := frame_lt (fun d hd => (ha.defs d hd).1) hq2 v he.lt
      simp [hf2, hp1, g1]
end

/-! ### Assignments -/

theorem Rel.set {t : Tab ν Nat} {s : Syms ν} {ρ : Env Val} {σ : Vars ν Val} (h : Rel (t :: s) ρ σ) (x : ν) (i : Info Nat) (v : Val)
    (hv : ρ i.value = some v) : Rel (t.assign x i :: s) ρ (σ.set x v) := by
  refine ⟨fun n j hl => ?_, fun n hl => ?_⟩
  · rw [look_put] at hl
    simp only [Vars.set]
    split at hl
    · next e => subst e; cases hl; exact ⟨v, hv, by simp⟩
    · next e => rw [if_neg (Ne.symm e)]; exact h.1 n j hl
  · rw [look_put] at hl
    simp only [Vars.set]
    split at hl
    · cases hl
    · next e => rw [if_neg (Ne.symm e)]; exact h.2 n hl

/-- What an assignment guarantees: `v` holds the value to be assigned. -/
structure PartOk (x : ν) (v nx : Nat) (s : Syms ν) (c : Code F) (nx' : Nat) (s' : Syms ν) (S : Sem F Val W) : Prop where
  le : nx ≤ nx'
  inv : Inv s' nx'
  tail : s'.drop 1 = s.drop 1
  dom : ∀ n, (s.look n).isSome → (s'.look n).isSome
  defs : ∀ d ∈ c.allDefs, nx ≤ d ∧ d < nx'
  sim : ∀ fuel ρ σ w y, Rel s ρ σ → ρ v = some y → ∃ ρ', c.exec S fuel ρ w = .ok (ρ', w) ∧ Rel s' ρ' (σ.set x y)

theorem assignPart_eq {x : ν} {v nx : Nat} {s : Syms ν} {r : Code F × Nat × Syms ν} (h : assignPart x v nx s = .ok r) :
    ∃ s', s.put x ⟨(renameIf (F := F) v nx s).2.1, false⟩ = .ok s' ∧ r = ((renameIf v nx s).1, (renameIf (F := F) v nx s).2.2, s') := by
  unfold assignPart at h
  split at h
  · obtain ⟨i, _, h⟩ := except_bind_ok h
    split at h
    · cases h
    · obtain ⟨s', h1, h⟩ := except_bind_ok h
      cases h; exact ⟨s', h1, rfl⟩
  · obtain ⟨s', h1, h⟩ := except_bind_ok h
    cases h; exact ⟨s', h1, rfl⟩

theorem assignPart_ok {x : ν} {v nx : Nat} {s : Syms ν} {c : Code F} {nx' : Nat} {s' : Syms ν} (hi : Inv s nx) (hv : v < nx)
    (h : assignPart x v nx s = .ok (c, nx', s')) : PartOk x v nx s c nx' s' S := by
  obtain ⟨s1, h1, e⟩ := assignPart_eq h
  simp only [Prod.mk.injEq] at e
  obtain ⟨rfl, rfl, rfl⟩ := e
  obtain ⟨t, s0, rfl⟩ : ∃ t s0, s = t :: s0 := by
    cases s with
    | nil => exact absurd rfl hi.ne
    | cons t s0 => exact ⟨t, s0, rfl⟩
  simp only [Scopes.put] at h1
  cases h1
  have hdom : ∀ (i : Info Nat) n, (Scopes.look (t :: s0) n).isSome → (Scopes.look (t.assign x i :: s0) n).isSome := by
    intro i n hn
    rw [look_put]; split
    · rfl
    · exact hn
  unfold renameIf
  by_cases hv' : Scopes.hasVal (t :: s0) v = true
  · simp only [hv', if_true]
    refine ⟨Nat.le_succ _, ?_, rfl, hdom _, ?_, ?_⟩
    · exact hi.put x _ (Nat.le_succ _) (Nat.lt_succ_self _) fun n j hl => Nat.ne_of_lt (hi.look_lt hl)
    · simp [Code.allDefs]
    · intro fuel ρ σ w y hr hy
      simp only [Code.exec, get_eq.2 hy, Run.ok_bind]
      refine ⟨_, rfl, Rel.set (hr.frame hi fun u hu => ?_) x _ y (by simp [Env.upd])⟩
      simp [Env.upd, Nat.ne_of_lt hu]
  · simp only [hv']
    have hv' : Scopes.hasVal (t :: s0) v = false := by simpa using hv'
    refine ⟨Nat.le_refl _, ?_, rfl, hdom _, by simp [Code.allDefs], ?_⟩
    · exact hi.put x _ (Nat.le_refl _) hv fun n j hl => not_hasVal hv' n j hl
    · intro fuel ρ σ w y hr hy
      exact ⟨ρ, rfl, hr.set x _ y hy⟩

theorem assignParts_ok {xs : List ν} {vs : List Nat} {nx : Nat} {s : Syms ν} {c : Code F} {nx' : Nat} {s' : Syms ν} (hi : Inv s nx)
    (hv : ∀ v ∈ vs, v < nx) (hl : xs.length = vs.length) (h : assignParts xs vs nx s = .ok (c, nx', s')) :
    nx ≤ nx' ∧ Inv s' nx' ∧ s'.drop 1 = s.drop 1 ∧ (∀ n, (s.look n).isSome → (s'.look n).isSome) ∧ (∀ d ∈ c.allDefs, nx ≤ d ∧ d < nx') ∧
    ∀ fuel ρ σ w ys, Rel s ρ σ → vs.map ρ = ys.map some →
      ∃ ρ' σ', c.exec S fuel ρ w = .ok (ρ', w) ∧ σ.setAll xs ys = .ok σ' ∧ Rel s' ρ' σ' := by
  induction xs generalizing vs nx s c with
  | nil =>
    cases vs with
    | cons => simp at hl
    | nil =>
      simp only [assignParts] at h
      cases h
      refine ⟨Nat.le_refl _, hi, rfl, fun _ h => h, by simp [Code.allDefs], fun fuel ρ σ w ys hr hy => ?_⟩
      cases ys with
      | nil => exact ⟨ρ, σ, rfl, rfl, hr⟩
      | cons => simp at hy
  | cons x xs ih =>
    cases vs with
    | nil => simp at hl
    | cons v vs =>
      simp only [assignParts] at h
      obtain ⟨⟨c1, nx1, s1⟩, h1, h⟩ := except_bind_ok h
      obtain ⟨⟨c2, nx2, s2⟩, h2, h⟩ := except_bind_ok h
      dsimp only at h
      cases h
      have hp := assignPart_ok (S := S) hi (hv v (by simp)) h1
      have l1 := hp.le
      obtain ⟨g1, g2, g3, g4, g5, g6⟩ := ih hp.inv (fun u hu => Nat.lt_of_lt_of_le (hv u (by simp [hu])) l1) (by simpa using hl) h2
      refine ⟨by omega, g2, by rw [g3, hp.tail], fun n hn => g4 n (hp.dom n hn), ?_, ?_⟩
      · intro d hd
        simp only [allDefs_app, List.mem_append] at hd
        rcases hd with hd | hd
        · have := hp.defs d hd; omega
        · have := g5 d hd; omega
      · intro fuel ρ σ w ys hr hy
        cases ys with
        | nil => simp at hy
        | cons y ys =>
          simp only [List.map_cons, List.cons.injEq] at hy
          obtain ⟨ρ1, e1, r1⟩ := hp.sim fuel ρ σ w y hr hy.1
          have hf := fun u hu => frame_lt (fun d hd => (hp.defs d hd).1) e1 u hu
          obtain ⟨ρ2, σ2, e2, e3, r2⟩ := g6 fuel ρ1 (σ.set x y) w ys r1 (by
            rw [← hy.2]
            exact List.map_congr_left fun u hu => hf u (hv u (by simp [hu])))
          exact ⟨ρ2, σ2, by rw [exec_app, e1]; exact e2, e3, r2⟩

end

end Verif.Front
