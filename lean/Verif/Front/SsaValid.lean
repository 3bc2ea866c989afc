/-
  The code generated for a script is valid SSA code: every value is defined once, and every operand is defined before it is used, in the
  same block or in a block around it (what MLIR's verifier demands).
-/
import Verif.Front.TransThms

namespace Verif.Front
open Verif

/-- Every operand is visible where it is used; `vis` are the values visible at the start of the block. -/
def Code.Scoped {F : Type} : Code F → (Nat → Prop) → Prop
  | .done, _ => True
  | .op r _ a k, vis => (∀ v ∈ a, vis v) ∧ k.Scoped fun v => vis v ∨ v ∈ r
  | .rename r a k, vis => vis a ∧ k.Scoped fun v => vis v ∨ v = r
  | .arith r _ a k, vis => (∀ v ∈ a, vis v) ∧ k.Scoped fun v => vis v ∨ v = r
  | .ite r c t ty e ey k, vis => vis c ∧ t.Scoped vis ∧ (∀ v ∈ ty, vis v ∨ v ∈ t.defs) ∧ e.Scoped vis ∧ (∀ v ∈ ey, vis v ∨ v ∈ e.defs) ∧
    k.Scoped fun v => vis v ∨ v ∈ r
  | .whil r i b bc c ca aa ac ay k, vis => (∀ v ∈ i, vis v) ∧ bc.Scoped (fun v => vis v ∨ v ∈ b) ∧
    (∀ v ∈ c :: ca, (vis v ∨ v ∈ b) ∨ v ∈ bc.defs) ∧ ac.Scoped (fun v => vis v ∨ v ∈ aa) ∧ (∀ v ∈ ay, (vis v ∨ v ∈ aa) ∨ v ∈ ac.defs) ∧
    k.Scoped fun v => vis v ∨ v ∈ r
  | .loop r l u s i iv it b y k, vis => (∀ v ∈ l :: u :: s :: i, vis v) ∧ b.Scoped (fun v => vis v ∨ v ∈ iv :: it) ∧
    (∀ v ∈ y, (vis v ∨ v ∈ iv :: it) ∨ v ∈ b.defs) ∧ k.Scoped fun v => vis v ∨ v ∈ r

/-- Valid SSA code that uses nothing from outside. -/
def Code.Valid {F : Type} (c : Code F) : Prop := c.allDefs.Nodup ∧ c.Scoped fun _ => False

section
variable {F : Type}

theorem Code.Scoped.mono {c : Code F} {vis vis' : Nat → Prop} (h : c.Scoped vis) (hv : ∀ v, vis v → vis' v) : c.Scoped vis' := by
  induction c generalizing vis vis' with
  | done => trivial
  | op r f a k ih => exact ⟨fun v hm => hv v (h.1 v hm), ih h.2 fun v => Or.imp_left (hv v)⟩
  | rename r a k ih => exact ⟨hv _ h.1, ih h.2 fun v => Or.imp_left (hv v)⟩
  | arith r f a k ih => exact ⟨fun v hm => hv v (h.1 v hm), ih h.2 fun v => Or.imp_left (hv v)⟩
  | ite r c t ty e ey k iht ihe ih =>
    obtain ⟨h1, h2, h3, h4, h5, h6⟩ := h
    exact ⟨hv _ h1, iht h2 hv, fun v hm => (h3 v hm).imp_left (hv v), ihe h4 hv, fun v hm => (h5 v hm).imp_left (hv v), ih h6 fun v => Or.imp_left (hv v)⟩
  | whil r i b bc c ca aa ac ay k ihb iha ih =>
    obtain ⟨h1, h2, h3, h4, h5, h6⟩ := h
    exact ⟨fun v hm => hv v (h1 v hm), ihb h2 fun v => Or.imp_left (hv v), fun v hm => (h3 v hm).imp_left (Or.imp_left (hv v)),
      iha h4 fun v => Or.imp_left (hv v), fun v hm => (h5 v hm).imp_left (Or.imp_left (hv v)), ih h6 fun v => Or.imp_left (hv v)⟩
  | loop r l u s i iv it b y k ihb ih =>
    obtain ⟨h1, h2, h3, h4⟩ := h
    exact ⟨fun v hm => hv v (h1 v hm), ihb h2 fun v => Or.imp_left (hv v), fun v hm => (h3 v hm).imp_left (Or.imp_left (hv v)),
      ih h4 fun v => Or.imp_left (hv v)⟩

theorem Code.scoped_app {c d : Code F} {vis : Nat → Prop} : (c.app d).Scoped vis ↔ c.Scoped vis ∧ d.Scoped fun v => vis v ∨ v ∈ c.defs := by
  induction c generalizing vis with
  | done => simp [Code.app, Code.Scoped, Code.defs]
  | op r f a k ih => simp only [Code.app, Code.Scoped, ih, Code.defs, List.mem_append, or_assoc, and_assoc]
  | rename r a k ih => simp only [Code.app, Code.Scoped, ih, Code.defs, List.mem_cons, or_assoc, and_assoc]
  | arith r f a k ih => simp only [Code.app, Code.Scoped, ih, Code.defs, List.mem_cons, or_assoc, and_assoc]
  | ite r c t ty e ey k _ _ ih => simp only [Code.app, Code.Scoped, ih, Code.defs, List.mem_append, or_assoc, and_assoc]
  | whil r i b bc c ca aa ac ay k _ _ ih => simp only [Code.app, Code.Scoped, ih, Code.defs, List.mem_append, or_assoc, and_assoc]
  | loop r l u s i iv it b y k _ ih => simp only [Code.app, Code.Scoped, ih, Code.defs, List.mem_append, or_assoc, and_assoc]

/-- Replacing uses: `g` must map visible values to visible values. -/
theorem Code.Scoped.mapUses {c : Code F} {g : Nat → Nat} {vis vis' : Nat → Prop} (h : c.Scoped vis) (hv : ∀ v, vis v → vis' (g v))
    (hk : ∀ d ∈ c.allDefs, g d = d ∨ vis' (g d)) : (c.mapUses g).Scoped vis' := by
  have ext : ∀ {P P' : Nat → Prop} {r ds : List Nat}, (∀ v, P v → P' (g v)) → (∀ d ∈ ds, g d = d ∨ P' (g d)) → (∀ v ∈ r, v ∈ ds) →
      ∀ v, (P v ∨ v ∈ r) → P' (g v) ∨ g v ∈ r := by
    intro P P' r ds h1 h2 h3 v hm
    rcases hm with hm | hm
    · exact .inl (h1 v hm)
    · rcases h2 v (h3 v hm) with e | e
      · exact .inr (by rw [e]; exact hm)
      · exact .inl e
  have ext1 : ∀ {P P' : Nat → Prop} {r : Nat} {ds : List Nat}, (∀ v, P v → P' (g v)) → (∀ d ∈ ds, g d = d ∨ P' (g d)) → r ∈ ds →
      ∀ v, (P v ∨ v = r) → P' (g v) ∨ g v = r := by
    intro P P' r ds h1 h2 h3 v hm
    have := ext (r := [r]) h1 h2 (by simpa using h3) v (by simpa using hm)
    simpa using this
  induction c generalizing vis vis' with
  | done => trivial
  | op r f a k ih =>
    refine ⟨fun v hm => ?_, ih h.2 (ext hv hk (by simp +contextual [Code.allDefs])) fun d hd => (hk d (by simp [Code.allDefs, hd])).imp_right .inl⟩
    obtain ⟨u, hu, rfl⟩ := List.mem_map.1 hm
    exact hv u (h.1 u hu)
  | rename r a k ih =>
    exact ⟨hv a h.1, ih h.2 (ext1 hv hk (by simp [Code.allDefs])) fun d hd => (hk d (by simp [Code.allDefs, hd])).imp_right .inl⟩
  | arith r f a k ih =>
    refine ⟨fun v hm => ?_, ih h.2 (ext1 hv hk (by simp [Code.allDefs])) fun d hd => (hk d (by simp [Code.allDefs, hd])).imp_right .inl⟩
    obtain ⟨u, hu, rfl⟩ := List.mem_map.1 hm
    exact hv u (h.1 u hu)
  | ite r c t ty e ey k iht ihe ih =>
    obtain ⟨h1, h2, h3, h4, h5, h6⟩ := h
    have kt : ∀ d ∈ t.allDefs, g d = d ∨ vis' (g d) := fun d hd => hk d (by simp [Code.allDefs, hd])
    have ke : ∀ d ∈ e.allDefs, g d = d ∨ vis' (g d) := fun d hd => hk d (by simp [Code.allDefs, hd])
    refine ⟨hv c h1, iht h2 hv kt, ?_, ihe h4 hv ke, ?_, ih h6 (ext hv hk (by simp +contextual [Code.allDefs]))
      fun d hd => (hk d (by simp [Code.allDefs, hd])).imp_right .inl⟩
    · intro v hm
      obtain ⟨u, hu, rfl⟩ := List.mem_map.1 hm
      rw [defs_mapUses]
      exact ext hv kt (defs_subset t) u (h3 u hu)
    · intro v hm
      obtain ⟨u, hu, rfl⟩ := List.mem_map.1 hm
      rw [defs_mapUses]
      exact ext hv ke (defs_subset e) u (h5 u hu)
  | whil r i b bc c ca aa ac ay k ihb iha ih =>
    obtain ⟨h1, h2, h3, h4, h5, h6⟩ := h
    have vb := ext (r := b) hv hk (by simp +contextual [Code.allDefs])
    have va := ext (r := aa) hv hk (by simp +contextual [Code.allDefs])
    have kb : ∀ d ∈ bc.allDefs, g d = d ∨ (vis' (g d) ∨ g d ∈ b) := fun d hd => (hk d (by simp [Code.allDefs, hd])).imp_right .inl
    have ka : ∀ d ∈ ac.allDefs, g d = d ∨ (vis' (g d) ∨ g d ∈ aa) := fun d hd => (hk d (by simp [Code.allDefs, hd])).imp_right .inl
    refine ⟨?_, ihb h2 vb kb, ?_, iha h4 va ka, ?_, ih h6 (ext hv hk (by simp +contextual [Code.allDefs]))
      fun d hd => (hk d (by simp [Code.allDefs, hd])).imp_right .inl⟩
    · intro v hm
      obtain ⟨u, hu, rfl⟩ := List.mem_map.1 hm
      exact hv u (h1 u hu)
    · intro v hm
      rw [← List.map_cons] at hm
      obtain ⟨u, hu, rfl⟩ := List.mem_map.1 hm
      rw [defs_mapUses]
      exact ext (P := fun v => vis v ∨ v ∈ b) (P' := fun v => vis' v ∨ v ∈ b) vb kb (defs_subset bc) u (h3 u hu)
    · intro v hm
      obtain ⟨u, hu, rfl⟩ := List.mem_map.1 hm
      rw [defs_mapUses]
      exact ext (P := fun v => vis v ∨ v ∈ aa) (P' := fun v => vis' v ∨ v ∈ aa) va ka (defs_subset ac) u (h5 u hu)
  | loop r l u s i iv it b y k ihb ih =>
    obtain ⟨h1, h2, h3, h4⟩ := h
    have vb := ext (r := iv :: it) hv hk (by intro v hm; simp only [Code.allDefs, List.mem_append]; exact .inl (.inl (.inr hm)))
    have kb : ∀ d ∈ b.allDefs, g d = d ∨ (vis' (g d) ∨ g d ∈ iv :: it) := fun d hd => (hk d (by simp [Code.allDefs, hd])).imp_right .inl
    refine ⟨?_, ihb h2 vb kb, ?_, ih h4 (ext hv hk (by simp +contextual [Code.allDefs]))
      fun d hd => (hk d (by simp [Code.allDefs, hd])).imp_right .inl⟩
    · intro v hm
      rw [← List.map_cons, ← List.map_cons, ← List.map_cons] at hm
      obtain ⟨u, hu, rfl⟩ := List.mem_map.1 hm
      exact hv u (h1 u hu)
    · intro v hm
      obtain ⟨u, hu, rfl⟩ := List.mem_map.1 hm
      rw [defs_mapUses]
      exact ext (P := fun v => vis v ∨ v ∈ iv :: it) (P' := fun v => vis' v ∨ v ∈ iv :: it) vb kb (defs_subset b) u (h3 u hu)

end


/-! ### The generated code is valid -/

section
variable {ν F : Type} [DecidableEq ν]

/-- All values in the table are visible. -/
def Seen (s : Syms ν) (vis : Nat → Prop) : Prop := ∀ n i, s.look n = some i → vis i.value

theorem Seen.push {s : Syms ν} {vis : Nat → Prop} (h : Seen s vis) : Seen s.push vis := fun n i hl => h n i (by rwa [look_push] at hl)

theorem Seen.mono {s : Syms ν} {vis vis' : Nat → Prop} (h : Seen s vis) (hv : ∀ v, vis v → vis' v) : Seen s vis' := fun n i hl => hv _ (h n i hl)

theorem nodup_app {c d : Code F} {a b m : Nat} (hc : c.allDefs.Nodup) (hd : d.allDefs.Nodup) (rc : ∀ v ∈ c.allDefs, a ≤ v ∧ v < m)
    (rd : ∀ v ∈ d.allDefs, m ≤ v ∧ v < b) : (c.app d).allDefs.Nodup := by
  rw [allDefs_app, List.nodup_append]
  refine ⟨hc, hd, fun x hx y hy e => ?_⟩
  subst e
  have := rc x hx
  have := rd x hy
  omega

mutual
theorem transE_valid (e : Expr ν F) (nx : Nat) (s : Syms ν) (hi : Inv s nx) (c : Code F) (v nx' : Nat) (h : transE e nx s = .ok (c, v, nx'))
    (vis : Nat → Prop) (hv : Seen s vis) : c.allDefs.Nodup ∧ c.Scoped vis ∧ (vis v ∨ v ∈ c.defs) := by
  match e with
  | .var n =>
    simp only [transE] at h
    obtain ⟨i, h1, h⟩ := except_bind_ok h
    cases h
    exact ⟨by simp [Code.allDefs], trivial, .inl (hv n i (get_ok.1 h1))⟩
  | .app f as =>
    simp only [transE] at h
    obtain ⟨⟨c1, vs, nx1⟩, h1, h⟩ := except_bind_ok h
    cases h
    obtain ⟨g1, g2, g3⟩ := transA_valid as nx s hi c1 vs _ h1 vis hv
    have ha := transA_ok (S := sem0 F) as nx s hi c1 vs _ h1
    refine ⟨nodup_app (b := nx1 + 1) g1 (by simp [Code.allDefs]) ha.defs (fun u hu => by simp [Code.allDefs] at hu; omega), ?_, ?_⟩
    · rw [Code.scoped_app]
      exact ⟨g2, g3, trivial⟩
    · rw [defs_app]
      simp [Code.defs]
theorem transA_valid (as : Args ν F) (nx : Nat) (s : Syms ν) (hi : Inv s nx) (c : Code F) (vs : List Nat) (nx' : Nat)
    (h : transA as nx s = .ok (c, vs, nx')) (vis : Nat → Prop) (hv : Seen s vis) :
    c.allDefs.Nodup ∧ c.Scoped vis ∧ ∀ v ∈ vs, vis v ∨ v ∈ c.defs := by
  match as with
  | .nil =>
    simp only [transA] at h
    cases h
    exact ⟨by simp [Code.allDefs], trivial, by simp⟩
  | .cons e as =>
    simp only [transA] at h
    obtain ⟨⟨c1, v, nx1⟩, h1, h⟩ := except_bind_ok h
    obtain ⟨⟨c2, us, nx2⟩, h2, h⟩ := except_bind_ok h
    cases h
    obtain ⟨g1, g2, g3⟩ := transE_valid e nx s hi c1 v nx1 h1 vis hv
    have he := transE_ok (S := sem0 F) e nx s hi c1 v nx1 h1
    obtain ⟨k1, k2, k3⟩ := transA_valid as nx1 s (hi.mono he.le) c2 us _ h2 vis hv
    have ha := transA_ok (S := sem0 F) as nx1 s (hi.mono he.le) c2 us _ h2
    refine ⟨nodup_app g1 k1 he.defs ha.defs, ?_, ?_⟩
    · rw [Code.scoped_app]
      exact ⟨g2, k2.mono fun v hv => .inl hv⟩
    · rw [defs_app]
      intro u hu
      rw [List.mem_append]
      rcases List.mem_cons.1 hu with rfl | hu
      · exact g3.imp_right .inl
      · exact (k3 u hu).imp_right .inr
end

theorem assignPart_valid {x : ν} {v nx : Nat} {s : Syms ν} {c : Code F} {nx' : Nat} {s' : Syms ν} (hne : s ≠ [])
    (h : assignPart x v nx s = .ok (c, nx', s')) (vis : Nat → Prop) (hv : Seen s vis) (hvv : vis v) :
    c.allDefs.Nodup ∧ c.Scoped vis ∧ Seen s' (fun u => vis u ∨ u ∈ c.defs) := by
  obtain ⟨s1, h1, e⟩ := assignPart_eq h
  simp only [Prod.mk.injEq] at e
  obtain ⟨rfl, rfl, rfl⟩ := e
  obtain ⟨t, s0, rfl⟩ : ∃ t s0, s = t :: s0 := by
    cases s with
    | nil => exact absurd rfl hne
    | cons t s0 => exact ⟨t, s0, rfl⟩
  simp only [Scopes.put] at h1
  cases h1
  have key : ∀ (P : Nat → Prop) (i : Info Nat), (∀ u, vis u → P u) → P i.value → Seen (t.assign x i :: s0) P := by
    intro P i h1 h2 n j hl
    rw [look_put] at hl
    split at hl
    · cases hl; exact h2
    · exact h1 _ (hv n j hl)
  unfold renameIf
  split
  · exact ⟨by simp [Code.allDefs], ⟨hvv, trivial⟩, key _ _ (fun u hu => .inl hu) (.inr (by simp [Code.defs]))⟩
  · exact ⟨by simp [Code.allDefs], trivial, key _ _ (fun u hu => .inl hu) (.inl hvv)⟩

theorem assignParts_valid {xs : List ν} {vs : List Nat} {nx : Nat} {s : Syms ν} {c : Code F} {nx' : Nat} {s' : Syms ν} (hi : Inv s nx)
    (hlt : ∀ v ∈ vs, v < nx) (h : assignParts xs vs nx s = .ok (c, nx', s')) (vis : Nat → Prop) (hv : Seen s vis) (hvv : ∀ v ∈ vs, vis v) :
    nx ≤ nx' ∧ (∀ d ∈ c.allDefs, nx ≤ d ∧ d < nx') ∧ c.allDefs.Nodup ∧ c.Scoped vis ∧ Seen s' (fun u => vis u ∨ u ∈ c.defs) := by
  have base : ∀ {c : Code F} {nx' : Nat} {s' : Syms ν}, (Except.ok (Code.done, nx, s) : Res (Code F × Nat × Syms ν)) = .ok (c, nx', s') →
      nx ≤ nx' ∧ (∀ d ∈ c.allDefs, nx ≤ d ∧ d < nx') ∧ c.allDefs.Nodup ∧ c.Scoped vis ∧ Seen s' (fun u => vis u ∨ u ∈ c.defs) := by
    intro c nx' s' h
    cases h
    exact ⟨Nat.le_refl _, by simp [Code.allDefs], by simp [Code.allDefs], trivial, hv.mono fun u hu => .inl hu⟩
  induction xs generalizing vs nx s c vis with
  | nil => exact base h
  | cons x xs ih =>
    cases vs with
    | nil => exact base h
    | cons v vs =>
      simp only [assignParts] at h
      obtain ⟨⟨c1, nx1, s1⟩, h1, h⟩ := except_bind_ok h
      obtain ⟨⟨c2, nx2, s2⟩, h2, h⟩ := except_bind_ok h
      cases h
      have hp := assignPart_ok (S := sem0 F) hi (hlt v (by simp)) h1
      have l1 := hp.le
      obtain ⟨g1, g2, g3⟩ := assignPart_valid hi.ne h1 vis hv (hvv v (by simp))
      obtain ⟨k1, k2, k3, k4, k5⟩ := ih hp.inv (fun u hu => Nat.lt_of_lt_of_le (hlt u (by simp [hu])) l1) h2 (fun u => vis u ∨ u ∈ c1.defs) g3
        (fun u hu => .inl (hvv u (by simp [hu]))) (fun {c nx' s'} h => by
          cases h
          exact ⟨Nat.le_refl _, by simp [Code.allDefs], by simp [Code.allDefs], trivial, g3.mono fun u hu => .inl hu⟩)
      refine ⟨Nat.le_trans l1 k1, fun d hd => ?_, nodup_app g1 k3 hp.defs k2, Code.scoped_app.2 ⟨g2, k4⟩, k5.mono fun u hu => ?_⟩
      · rw [allDefs_app] at hd
        rcases List.mem_append.1 hd with hd | hd
        · have := hp.defs d hd; omega
        · have := k2 d hd; omega
      · rw [defs_app, List.mem_append, ← or_assoc]; exact hu

/-- The values after binding results. -/
theorem putVals_seen {s s' : Syms ν} {nx a : Nat} {ns : List ν} (hi : Inv s nx) (hn : ns.Nodup) (h : putVals s ns (news a ns.length) = .ok s')
    {vis : Nat → Prop} (hv : Seen s vis) : Seen s' (fun u => vis u ∨ u ∈ news a ns.length) := by
  have hl : ns.length = (news a ns.length).length := (length_news _ _).symm
  obtain ⟨_, h2⟩ := putTab_top (t := newTab ns (news a ns.length)) hi.ne (newTab_uniq hn)
    (fun n i hf hr => by have := ((find_newTab hn n i).1 hf).2; rw [hr] at this; cases this) h
  intro n i hlk
  rw [h2] at hlk
  cases hf : (newTab ns (news a ns.length)).find n with
  | none => rw [hf] at hlk; exact .inl (hv n i hlk)
  | some j =>
    rw [hf] at hlk
    simp at hlk; subst hlk
    exact .inr (List.of_mem_zip ((find_newTab hn n _).1 hf).1).2

theorem valOf_seen {s : Syms ν} {vis : Nat → Prop} (hv : Seen s vis) {n : ν} (hn : (s.look n).isSome) : vis (valOf s n) := by
  obtain ⟨i, hi⟩ := Option.isSome_iff_exists.1 hn
  rw [valOf_eq hi]; exact hv n i hi

theorem valOfWith_seen {s s1 : Syms ν} {ow : Tab ν Nat} {vis : Nat → Prop} (ho : Ow s s1 ow) (hv : Seen s1 vis)
    {n : ν} (hn : (s.look n).isSome) : vis (valOfWith s ow n) := by
  have hl := ho.look n hn
  obtain ⟨i, hi⟩ := Option.isSome_iff_exists.1 hn
  unfold valOfWith
  rw [← hl]
  cases hx : s1.look n with
  | none => rw [hx, hi] at hl; cases hf : ow.find n <;> rw [hf] at hl <;> simp at hl
  | some j => exact hv n j hx

/-- The end of an if-statement. -/
theorem finishIf_valid {s s1 s2 : Syms ν} {v a nx0 nx1 nx2 nx nx' : Nat} {tc ec c : Code F} {owT owE : Tab ν Nat} {s' : Syms ν} (hi : Inv s nx0)
    (oT : Ow s s1 owT) (oE : Ow s s2 owE) (h : finishIf s v tc ec owT owE nx = .ok (c, nx', s')) {vis : Nat → Prop} (hv : Seen s vis) (hvv : vis v)
    (tv : tc.allDefs.Nodup ∧ tc.Scoped vis ∧ Seen s1 (fun u => vis u ∨ u ∈ tc.defs)) (tr : ∀ d ∈ tc.allDefs, nx1 ≤ d ∧ d < nx2)
    (ev : ec.allDefs.Nodup ∧ ec.Scoped vis ∧ Seen s2 (fun u => vis u ∨ u ∈ ec.defs)) (er : ∀ d ∈ ec.allDefs, nx2 ≤ d ∧ d < nx) (hle : nx1 ≤ nx2 ∧ nx2 ≤ nx) :
    c.allDefs.Nodup ∧ c.Scoped vis ∧ Seen s' (fun u => vis u ∨ u ∈ c.defs) ∧ ∀ d ∈ c.allDefs, nx1 ≤ d ∧ d < nx' := by
  have hns : ∀ n ∈ mergeSymbols owT owE, (s.look n).isSome := fun n hn => (mem_mergeSymbols.1 hn).elim (oT.dom n) (oE.dom n)
  have hnd := mergeSymbols_nodup oT.uniq oE.uniq
  simp only [finishIf, getValsWith_ok hns, Res.ok_bind] at h
  obtain ⟨s3, h1, h⟩ := except_bind_ok h
  cases h
  refine ⟨?_, ⟨hvv, tv.2.1, ?_, ev.2.1, ?_, trivial⟩, ?_, ?_⟩
  · simp only [Code.allDefs, List.append_nil]
    rw [List.nodup_append, List.nodup_append]
    refine ⟨⟨nodup_news _ _, tv.1, ?_⟩, ev.1, ?_⟩
    · rintro p hp q hq rfl
      have := mem_news.1 hp; have := tr p hq; omega
    · rintro p hp q hq rfl
      have := er p hq
      rcases List.mem_append.1 hp with hp | hp
      · have := mem_news.1 hp; omega
      · have := tr p hp; omega
  · intro u hu
    obtain ⟨n, hn, rfl⟩ := List.mem_map.1 hu
    exact valOfWith_seen oT tv.2.2 (hns n hn)
  · intro u hu
    obtain ⟨n, hn, rfl⟩ := List.mem_map.1 hu
    exact valOfWith_seen oE ev.2.2 (hns n hn)
  · simpa only [Code.defs, List.append_nil] using putVals_seen hi hnd h1 hv
  · intro d hd
    simp only [Code.allDefs, List.append_nil, List.mem_append, mem_news] at hd
    rcases hd with (hd | hd) | hd
    · omega
    · have := tr d hd; omega
    · have := er d hd; omega

theorem replAll_vis {os ns : List Nat} {vis : Nat → Prop} (v : Nat) (h : vis v) : vis (replAll os ns v) ∨ replAll os ns v ∈ ns := by
  rcases replAll_range os ns v with e | e
  · exact .inl (by rw [e]; exact h)
  · exact .inr e

/-- Code for a region, after the values of the updated variables have been replaced by the block arguments. -/
theorem repl_scoped {os ns : List Nat} {c : Code F} {vis : Nat → Prop} {a : Nat} (h : c.Scoped vis) (hos : ∀ o ∈ os, o < a) (hc : ∀ d ∈ c.allDefs, a ≤ d) :
    (replCode os ns c).Scoped (fun u => vis u ∨ u ∈ ns) ∧ ∀ v, (vis v ∨ v ∈ c.defs) → (vis (replAll os ns v) ∨ replAll os ns v ∈ ns) ∨ replAll os ns v ∈ (replCode os ns c).defs := by
  have hk : ∀ d ∈ c.allDefs, replAll os ns d = d := fun d hd => replAll_other os ns d fun hm => by have := hos d hm; have := hc d hd; omega
  rw [replCode_eq, defs_mapUses]
  refine ⟨h.mapUses (fun v hv => replAll_vis v hv) fun d hd => .inl (hk d hd), fun v hv => ?_⟩
  rcases hv with hv | hv
  · exact .inl (replAll_vis v hv)
  · exact .inr (by rw [hk v (defs_subset c v hv)]; exact hv)

theorem mem_ow {s s1 : Syms ν} {ow : Tab ν Nat} {P : Nat → Prop} (ho : Ow s s1 ow) (hv : Seen s1 P) : ∀ v ∈ ow.map (fun e => e.2.value), P v := by
  intro v hm
  rw [owVals_eq (s := s) ho.uniq] at hm
  obtain ⟨n, hn, rfl⟩ := List.mem_map.1 hm
  exact valOfWith_seen ho hv (ho.dom n hn)

/-- The end of a while- or do-while-loop. -/
theorem finishWhile_valid {isDo : Bool} {s s' : Syms ν} {v a b nx nx' : Nat} {bc ac c : Code F} {ow : Tab ν Nat} (hi : Inv s a)
    (hu : ow.Uniq) (hdom : ∀ n ∈ ow.map Prod.fst, (s.look n).isSome)
    (h : finishWhile isDo s bc v ac ow nx = .ok (c, nx', s')) {vis : Nat → Prop} (hv : Seen s vis)
    (bn : bc.allDefs.Nodup) (bs : bc.Scoped vis) (br : ∀ d ∈ bc.allDefs, a ≤ d ∧ d < b)
    (an : ac.allDefs.Nodup) (as : ac.Scoped vis) (ar : ∀ d ∈ ac.allDefs, b ≤ d ∧ d < nx) (hle : a ≤ b ∧ b ≤ nx)
    (hvv : vis v ∨ v ∈ bc.defs) (how : ∀ u ∈ ow.map (fun e => e.2.value), vis u ∨ u ∈ (if isDo then bc else ac).defs) :
    c.allDefs.Nodup ∧ c.Scoped vis ∧ Seen s' (fun u => vis u ∨ u ∈ c.defs) ∧ ∀ d ∈ c.allDefs, a ≤ d ∧ d < nx' := by
  simp only [finishWhile, getVals_ok hdom, Res.ok_bind] at h
  obtain ⟨s3, h1, h⟩ := except_bind_ok h
  cases h
  have hlt := vals_lt hi hdom
  obtain ⟨b1, b2⟩ := repl_scoped (ns := news nx ow.length) bs hlt fun d hd => (br d hd).1
  obtain ⟨a1, a2⟩ := repl_scoped (ns := news (nx + ow.length) ow.length) as (a := a) hlt fun d hd => by have := (ar d hd).1; omega
  have hnew : ∀ x, ∀ u ∈ news x ow.length, nx ≤ x → ∀ y, replAll ((ow.map Prod.fst).map (valOf s)) y u = u := fun x u hu' hx y =>
    replAll_other _ _ _ fun hm => by have := hlt u hm; have := mem_news.1 hu'; omega
  refine ⟨?_, ⟨?_, b1, ?_, a1, ?_, trivial⟩, ?_, ?_⟩
  · simp only [Code.allDefs, replCode_eq, allDefs_mapUses, List.append_nil]
    simp only [List.nodup_append, List.mem_append, mem_news]
    refine ⟨⟨⟨⟨nodup_news _ _, nodup_news _ _, ?_⟩, bn, ?_⟩, nodup_news _ _, ?_⟩, an, ?_⟩
    · rintro p hp q hq rfl; omega
    · rintro p hp q hq rfl; have := br p hq; omega
    · rintro p hp q hq rfl
      rcases hp with hp | hp
      · omega
      · have := br p hp; omega
    · rintro p hp q hq rfl
      have := ar p hq
      rcases hp with (hp | hp) | hp
      · omega
      · have := br p hp; omega
      · omega
  · intro u hu'
    obtain ⟨n, hn, rfl⟩ := List.mem_map.1 hu'
    exact valOf_seen hv (hdom n hn)
  · intro u hu'
    rcases List.mem_cons.1 hu' with rfl | hu'
    · exact b2 v hvv
    · obtain ⟨w, hw, rfl⟩ := List.mem_map.1 hu'
      cases isDo with
      | true => exact b2 w (how w hw)
      | false =>
        simp only [Bool.false_eq_true, if_false] at hw
        rw [hnew nx w hw (Nat.le_refl _)]
        exact .inl (.inr hw)
  · intro u hu'
    obtain ⟨w, hw, rfl⟩ := List.mem_map.1 hu'
    cases isDo with
    | true =>
      simp only [if_true] at hw
      rw [hnew _ w hw (by omega)]
      exact .inl (.inr hw)
    | false => exact a2 w (how w hw)
  · have hl : (ow.map Prod.fst).length = ow.length := by simp
    have := putVals_seen (a := nx + 2 * ow.length) hi hu (by rw [hl]; exact h1) hv
    rw [hl] at this
    simpa only [Code.defs, List.append_nil] using this
  · intro d hd
    simp only [Code.allDefs, replCode_eq, allDefs_mapUses, List.append_nil, List.mem_append, mem_news] at hd
    rcases hd with (((hd | hd) | hd) | hd) | hd
    · omega
    · omega
    · have := br d hd; omega
    · omega
    · have := ar d hd; omega

/-- The end of a for-loop. -/
theorem finishFor_valid {s s1 s' : Syms ν} {a ph dir nx nx' lb ub st : Nat} {c6 c : Code F} {ow : Tab ν Nat} (hi : Inv s a) (ho : Ow s s1 ow)
    (h : finishFor s lb ub st ph ((Code.arith ph (.const 123) [] (.arith (ph + 1) .mul [ph, dir] .done)).app c6) ow nx = .ok (c, nx', s'))
    {vis : Nat → Prop} (hv : Seen s vis) (hph : a ≤ ph ∧ ph + 2 ≤ nx) (hvv : vis lb ∧ vis ub ∧ vis st ∧ vis dir)
    (bn : c6.allDefs.Nodup) (bs : c6.Scoped fun u => vis u ∨ u = ph + 1) (br : ∀ d ∈ c6.allDefs, ph + 2 ≤ d ∧ d < nx)
    (hs1 : Seen s1 fun u => (vis u ∨ u = ph + 1) ∨ u ∈ c6.defs) :
    c.allDefs.Nodup ∧ c.Scoped vis ∧ Seen s' (fun u => vis u ∨ u ∈ c.defs) ∧ ∀ d ∈ c.allDefs, ph ≤ d ∧ d < nx' := by
  have hdom := ho.dom
  simp only [finishFor, getVals_ok hdom, Res.ok_bind] at h
  obtain ⟨s3, h1, h⟩ := except_bind_ok h
  cases h
  have hlt := vals_lt hi hdom
  generalize hbody : (Code.arith ph (.const 123) [] (.arith (ph + 1) .mul [ph, dir] .done)).app c6 = body
  have hdefs : body.defs = ph :: (ph + 1) :: c6.defs := by rw [← hbody, defs_app]; rfl
  have hall : body.allDefs = ph :: (ph + 1) :: c6.allDefs := by rw [← hbody, allDefs_app]; rfl
  have hsc : body.Scoped vis := by
    rw [← hbody]
    refine ⟨by simp, ?_, bs.mono fun v hv => ?_⟩
    · intro u hu
      simp only [List.mem_cons, List.not_mem_nil, or_false] at hu
      rcases hu with rfl | rfl
      · exact .inr rfl
      · exact .inl hvv.2.2.2
    · rcases hv with hv | hv
      · exact .inl (.inl hv)
      · exact .inr hv
  have hbr : ∀ d ∈ body.allDefs, ph ≤ d ∧ d < nx := by
    intro d hd
    rw [hall] at hd
    simp only [List.mem_cons] at hd
    rcases hd with rfl | rfl | hd
    · omega
    · omega
    · have := br d hd; omega
  have hbn : body.allDefs.Nodup := by
    rw [hall, List.nodup_cons, List.nodup_cons]
    refine ⟨fun hm => ?_, fun hm => ?_, bn⟩
    · rcases List.mem_cons.1 hm with e | hm
      · omega
      · have := br _ hm; omega
    · have := br _ hm; omega
  -- the placeholder
  have hrepl : ∀ d, repl ph nx d = d ∨ repl ph nx d = nx := fun d => by unfold repl; split <;> simp
  have hsc1 : (body.mapUses (repl ph nx)).Scoped fun u => vis u ∨ u = nx :=
    hsc.mapUses (fun v hv => by
      rcases hrepl v with e | e
      · exact .inl (by rw [e]; exact hv)
      · exact .inr e) fun d _ => (hrepl d).imp_right .inr
  obtain ⟨b1, b2⟩ := repl_scoped (ns := news (nx + 1) ow.length) hsc1 hlt fun d hd => by rw [allDefs_mapUses] at hd; have := (hbr d hd).1; omega
  refine ⟨?_, ⟨?_, ?_, ?_, trivial⟩, ?_, ?_⟩
  · simp only [Code.allDefs, replCode_eq, allDefs_mapUses, List.append_nil]
    rw [List.nodup_append, List.nodup_append, List.nodup_cons]
    refine ⟨⟨nodup_news _ _, ⟨fun hm => ?_, nodup_news _ _⟩, ?_⟩, hbn, ?_⟩
    · have := mem_news.1 hm; omega
    · rintro p hp q hq rfl
      have := mem_news.1 hp
      rcases List.mem_cons.1 hq with e | hq
      · omega
      · have := mem_news.1 hq; omega
    · rintro p hp q hq rfl
      have := hbr p hq
      rcases List.mem_append.1 hp with hp | hp
      · have := mem_news.1 hp; omega
      · rcases List.mem_cons.1 hp with e | hp
        · omega
        · have := mem_news.1 hp; omega
  · intro u hu'
    simp only [List.mem_cons] at hu'
    rcases hu' with rfl | rfl | rfl | hu'
    · exact hvv.1
    · exact hvv.2.1
    · exact hvv.2.2.1
    · obtain ⟨n, hn, rfl⟩ := List.mem_map.1 hu'
      exact valOf_seen hv (hdom n hn)
  · exact b1.mono fun u hu' => by simpa only [List.mem_cons, or_assoc] using hu'
  · intro u hu'
    obtain ⟨w, hw, rfl⟩ := List.mem_map.1 hu'
    obtain ⟨z, hz, rfl⟩ := List.mem_map.1 hw
    have hz' := mem_ow ho hs1 z hz
    have : (vis (repl ph nx z) ∨ repl ph nx z = nx) ∨ repl ph nx z ∈ (body.mapUses (repl ph nx)).defs := by
      rw [defs_mapUses, hdefs]
      rcases hrepl z with e | e
      · rw [e]
        rcases hz' with (hz' | hz') | hz'
        · exact .inl (.inl hz')
        · exact .inr (by simp [hz'])
        · exact .inr (by simp [hz'])
      · exact .inl (.inr e)
    have := b2 _ this
    simpa only [List.mem_cons, or_assoc] using this
  · have hl : (ow.map Prod.fst).length = ow.length := by simp
    have := putVals_seen (a := nx + 1 + ow.length) hi ho.uniq (by rw [hl]; exact h1) hv
    rw [hl] at this
    simpa only [Code.defs, List.append_nil] using this
  · intro d hd
    simp only [Code.allDefs, replCode_eq, allDefs_mapUses, List.append_nil, List.mem_append, List.mem_cons, mem_news] at hd
    rcases hd with (hd | hd | hd) | hd
    · omega
    · omega
    · omega
    · have := hbr d hd; omega

/-- The statement visitor generates valid code. -/
theorem transS_valid (st : Stmt ν F) (nx : Nat) (s : Syms ν) (hi : Inv s nx) (c : Code F) (nx' : Nat) (s' : Syms ν)
    (h : transS st nx s = .ok (c, nx', s')) (vis : Nat → Prop) (hv : Seen s vis) :
    c.allDefs.Nodup ∧ c.Scoped vis ∧ Seen s' (fun u => vis u ∨ u ∈ c.defs) := by
  induction st generalizing nx s c nx' s' vis with
  | skip =>
    simp only [transS] at h
    cases h
    exact ⟨by simp [Code.allDefs], trivial, hv.mono fun u hu => .inl hu⟩
  | seq a b iha ihb =>
    simp only [transS] at h
    obtain ⟨⟨c1, nx1, s1⟩, h1, h⟩ := except_bind_ok h
    obtain ⟨⟨c2, nx2, s2⟩, h2, h⟩ := except_bind_ok h
    cases h
    have ha := transS_ok sem0_lawful a nx s hi c1 nx1 s1 h1
    have hb := transS_ok sem0_lawful b nx1 s1 ha.inv c2 _ _ h2
    obtain ⟨g1, g2, g3⟩ := iha nx s hi c1 nx1 s1 h1 vis hv
    obtain ⟨k1, k2, k3⟩ := ihb nx1 s1 ha.inv c2 _ _ h2 _ g3
    refine ⟨nodup_app g1 k1 ha.defs hb.defs, Code.scoped_app.2 ⟨g2, k2⟩, k3.mono fun u hu => ?_⟩
    rw [defs_app, List.mem_append, ← or_assoc]; exact hu
  | expr e =>
    simp only [transS] at h
    obtain ⟨⟨c1, v, nx1⟩, h1, h⟩ := except_bind_ok h
    cases h
    obtain ⟨g1, g2, _⟩ := transE_valid e nx s hi c1 v _ h1 vis hv
    exact ⟨g1, g2, hv.mono fun u hu => .inl hu⟩
  | assign x e =>
    simp only [transS] at h
    obtain ⟨⟨c1, v, nx1⟩, h1, h⟩ := except_bind_ok h
    obtain ⟨⟨c2, nx2, s2⟩, h2, h⟩ := except_bind_ok h
    cases h
    have he := transE_ok (S := sem0 F) e nx s hi c1 v nx1 h1
    have hp := assignPart_ok (S := sem0 F) (hi.mono he.le) he.lt h2
    obtain ⟨g1, g2, g3⟩ := transE_valid e nx s hi c1 v _ h1 vis hv
    obtain ⟨k1, k2, k3⟩ := assignPart_valid hi.ne h2 (fun u => vis u ∨ u ∈ c1.defs) (hv.mono fun u hu => .inl hu) g3
    refine ⟨nodup_app g1 k1 he.defs hp.defs, Code.scoped_app.2 ⟨g2, k2⟩, k3.mono fun u hu => ?_⟩
    rw [defs_app, List.mem_append, ← or_assoc]; exact hu
  | assigns xs f as =>
    simp only [transS] at h
    obtain ⟨⟨c1, vs, nx1⟩, h1, h⟩ := except_bind_ok h
    obtain ⟨⟨c2, nx2, s2⟩, h2, h⟩ := except_bind_ok h
    cases h
    have he := transA_ok (S := sem0 F) as nx s hi c1 vs nx1 h1
    have hl := he.le
    obtain ⟨g1, g2, g3⟩ := transA_valid as nx s hi c1 vs _ h1 vis hv
    obtain ⟨k0, k1, k2, k3, k4⟩ := assignParts_valid (hi.mono (show nx ≤ nx1 + xs.length by omega)) (fun v hv => (mem_news.1 hv).2) h2
      (fun u => (vis u ∨ u ∈ c1.defs) ∨ u ∈ news nx1 xs.length) (hv.mono fun u hu => .inl (.inl hu)) fun u hu => .inr hu
    refine ⟨nodup_app (m := nx1) g1 ?_ he.defs (b := nx2) ?_, Code.scoped_app.2 ⟨g2, g3, k3⟩, k4.mono fun u hu => ?_⟩
    · simp only [Code.allDefs]
      rw [List.nodup_append]
      refine ⟨nodup_news _ _, k2, ?_⟩
      rintro p hp q hq rfl
      have := mem_news.1 hp; have := k1 p hq; omega
    · intro d hd
      simp only [Code.allDefs, List.mem_append, mem_news] at hd
      rcases hd with hd | hd
      · omega
      · have := k1 d hd; omega
    · rw [defs_app, Code.defs, List.mem_append, List.mem_append]
      rcases hu with ((hu | hu) | hu) | hu
      · exact .inl hu
      · exact .inr (.inl hu)
      · exact .inr (.inr (.inl hu))
      · exact .inr (.inr (.inr hu))
  | block b ih =>
    simp only [transS] at h
    obtain ⟨⟨c1, nx1, s1⟩, h1, h⟩ := except_bind_ok h
    obtain ⟨⟨ow, s2⟩, h2, h⟩ := except_bind_ok h
    obtain ⟨s3, h3, h⟩ := except_bind_ok h
    cases h
    have hb := transS_ok sem0_lawful b nx s.push hi.push c1 _ s1 h1
    obtain ⟨ow', e1, ho⟩ := Ow.push_iff hb.inv hb.tail
    rw [e1] at h2; cases h2
    obtain ⟨g1, g2, g3⟩ := ih nx s.push hi.push c1 _ s1 h1 vis hv.push
    have hd : ∀ n, (s.look n).isSome → (s1.look n).isSome := fun n hn => hb.dom n (by rw [look_push]; exact hn)
    obtain ⟨s5, q1, _, _, q4, q5, _⟩ := putOw_ok (Val := Unit) hi.ne hi.uniq (hi.mono hb.le).lt hb.inv ho hd
    dsimp only at h3
    rw [q1] at h3; cases h3
    refine ⟨g1, g2, fun n i hl => ?_⟩
    have hn : (s.look n).isSome := by rw [← q4, hl]; rfl
    rw [q5 n hn] at hl
    exact g3 n i hl
  | ifThen e t ih =>
    simp only [transS] at h
    obtain ⟨⟨c1, v, nx1⟩, h1, h⟩ := except_bind_ok h
    obtain ⟨⟨tc, nx2, s1⟩, h2, h⟩ := except_bind_ok h
    obtain ⟨⟨ow, s2⟩, h3, h⟩ := except_bind_ok h
    obtain ⟨⟨d, nx3, s3⟩, h4, h⟩ := except_bind_ok h
    cases h
    have he := transE_ok (S := sem0 F) e nx s hi c1 v nx1 h1
    have hi1 := hi.mono he.le
    have hb := transS_ok sem0_lawful t nx1 s.push hi1.push tc nx2 s1 h2
    obtain ⟨ow', e1, ho⟩ := Ow.push_iff hb.inv hb.tail
    rw [e1] at h3; cases h3
    obtain ⟨g1, g2, g3⟩ := transE_valid e nx s hi c1 v _ h1 vis hv
    have hv1 := hv.mono (vis' := fun u => vis u ∨ u ∈ c1.defs) fun u hu => .inl hu
    have hT := ih nx1 s.push hi1.push tc nx2 s1 h2 _ hv1.push
    obtain ⟨k1, k2, k3, k4⟩ := finishIf_valid (nx1 := nx1) (nx2 := nx2) (s2 := s) (a := 0) hi ho ⟨by simp [Tab.Uniq], by simp, fun n hn => rfl, by simp⟩ h4 hv1 g3 hT hb.defs
      ⟨by simp [Code.allDefs], trivial, hv1.mono fun u hu => .inl hu⟩ (by simp [Code.allDefs]) ⟨hb.le, Nat.le_refl _⟩
    refine ⟨nodup_app g1 k1 he.defs k4, Code.scoped_app.2 ⟨g2, k2⟩, k3.mono fun u hu => ?_⟩
    rw [defs_app, List.mem_append, ← or_assoc]; exact hu
  | ifElse e t f iht ihf =>
    simp only [transS] at h
    obtain ⟨⟨c1, v, nx1⟩, h1, h⟩ := except_bind_ok h
    obtain ⟨⟨tc, nx2, s1⟩, h2, h⟩ := except_bind_ok h
    obtain ⟨⟨ow, s2⟩, h3, h⟩ := except_bind_ok h
    obtain ⟨⟨fc, nx3, s3⟩, h4, h⟩ := except_bind_ok h
    obtain ⟨⟨ow2, s4⟩, h5, h⟩ := except_bind_ok h
    obtain ⟨⟨d, nx4, s5⟩, h6, h⟩ := except_bind_ok h
    cases h
    have he := transE_ok (S := sem0 F) e nx s hi c1 v nx1 h1
    have hi1 := hi.mono he.le
    have hb := transS_ok sem0_lawful t nx1 s.push hi1.push tc nx2 s1 h2
    obtain ⟨ow', e1, ho⟩ := Ow.push_iff hb.inv hb.tail
    rw [e1] at h3; cases h3
    have hi2 := hi1.mono hb.le
    have hf := transS_ok sem0_lawful f nx2 s.push hi2.push fc nx3 s3 h4
    obtain ⟨ow2', e2, ho2⟩ := Ow.push_iff hf.inv hf.tail
    rw [e2] at h5; cases h5
    obtain ⟨g1, g2, g3⟩ := transE_valid e nx s hi c1 v _ h1 vis hv
    have hv1 := hv.mono (vis' := fun u => vis u ∨ u ∈ c1.defs) fun u hu => .inl hu
    have hT := iht nx1 s.push hi1.push tc nx2 s1 h2 _ hv1.push
    have hE := ihf nx2 s.push hi2.push fc nx3 s3 h4 _ hv1.push
    obtain ⟨k1, k2, k3, k4⟩ := finishIf_valid (nx1 := nx1) (nx2 := nx2) (a := 0) hi ho ho2 h6 hv1 g3 hT hb.defs hE hf.defs ⟨hb.le, hf.le⟩
    refine ⟨nodup_app g1 k1 he.defs k4, Code.scoped_app.2 ⟨g2, k2⟩, k3.mono fun u hu => ?_⟩
    rw [defs_app, List.mem_append, ← or_assoc]; exact hu
  | «while» e b ih =>
    simp only [transS] at h
    obtain ⟨⟨c1, v, nx1⟩, h1, h⟩ := except_bind_ok h
    obtain ⟨⟨bc, nx2, s1⟩, h2, h⟩ := except_bind_ok h
    obtain ⟨⟨ow, s2⟩, h3, h⟩ := except_bind_ok h
    dsimp only at h
    have he := transE_ok (S := sem0 F) e nx s hi c1 v nx1 h1
    have hi1 := hi.mono he.le
    have hb := transS_ok sem0_lawful b nx1 s.push hi1.push bc nx2 s1 h2
    obtain ⟨ow', e1, ho⟩ := Ow.push_iff hb.inv hb.tail
    rw [e1] at h3; cases h3
    obtain ⟨g1, g2, g3⟩ := transE_valid e nx s hi c1 v _ h1 vis hv
    obtain ⟨k1, k2, k3⟩ := ih nx1 s.push hi1.push bc nx2 s1 h2 vis hv.push
    obtain ⟨m1, m2, m3, _⟩ := finishWhile_valid hi ho.uniq ho.dom h hv g1 g2 he.defs k1 k2 hb.defs ⟨he.le, hb.le⟩ g3 (mem_ow ho k3)
    exact ⟨m1, m2, m3⟩
  | doWhile b e ih =>
    simp only [transS] at h
    obtain ⟨⟨bc, nx1, s1⟩, h1, h⟩ := except_bind_ok h
    obtain ⟨⟨ow, s2⟩, h2, h⟩ := except_bind_ok h
    obtain ⟨s3, h3, h⟩ := except_bind_ok h
    obtain ⟨⟨dc, v, nx2⟩, h4, h⟩ := except_bind_ok h
    obtain ⟨⟨x, s4⟩, h5, h⟩ := except_bind_ok h
    dsimp only at h
    have hb := transS_ok sem0_lawful b nx s.push.push hi.push.push bc nx1 s1 h1
    obtain ⟨ow', e1, ho⟩ := Ow.push_iff (s := s.push) hb.inv hb.tail
    rw [e1] at h2; cases h2
    have hd : ∀ n, (Scopes.look s.push n).isSome → (s1.look n).isSome := fun n hn => hb.dom n (by rw [look_push]; exact hn)
    have hp := hi.push
    obtain ⟨s5, q1, q2, q3, q4, q5, _⟩ := putOw_ok (Val := Unit) hp.ne hp.uniq (hp.mono hb.le).lt hb.inv ho hd
    dsimp only at h3
    rw [q1] at h3; cases h3
    have he := transE_ok (S := sem0 F) e nx1 s3 q2 dc v nx2 h4
    obtain ⟨ow2, e2, _⟩ := pop_ok (s := s) q2 (by rw [q3]; rfl)
    rw [e2] at h5; cases h5
    obtain ⟨k1, k2, k3⟩ := ih nx s.push.push hi.push.push bc nx1 s1 h1 vis hv.push.push
    have hs3 : Seen s3 fun u => vis u ∨ u ∈ bc.defs := fun n i hl => by
      have hn : (Scopes.look s.push n).isSome := by rw [← q4, hl]; rfl
      rw [q5 n hn] at hl
      exact k3 n i hl
    obtain ⟨g1, g2, g3⟩ := transE_valid e nx1 s3 q2 dc v _ h4 _ hs3
    have hdom : ∀ n ∈ ow.map Prod.fst, (s.look n).isSome := fun n hn => by have := ho.dom n hn; rwa [look_push] at this
    obtain ⟨m1, m2, m3, _⟩ := finishWhile_valid (b := nx2) hi ho.uniq hdom h hv (nodup_app k1 g1 hb.defs he.defs) (Code.scoped_app.2 ⟨k2, g2⟩) (fun d hd => by
        rw [allDefs_app] at hd
        have := hb.le; have := he.le
        rcases List.mem_append.1 hd with hd | hd
        · have := hb.defs d hd; omega
        · have := he.defs d hd; omega) (by simp [Code.allDefs]) trivial (by simp [Code.allDefs]) ⟨Nat.le_trans hb.le he.le, Nat.le_refl _⟩
      (by rw [defs_app, List.mem_append, ← or_assoc]; exact g3)
      (fun u hu => by
        simp only [if_true]
        rw [defs_app, List.mem_append, ← or_assoc]
        exact .inl (mem_ow ho k3 u hu))
    exact ⟨m1, m2, m3⟩
  | «for» x lo hi' b ih =>
    simp only [transS, startFor_eq, Res.ok_bind] at h
    obtain ⟨⟨c1, vlo, nx1⟩, h1, h⟩ := except_bind_ok h
    obtain ⟨⟨c2, vhi, nx2⟩, h2, h⟩ := except_bind_ok h
    dsimp only [forBounds] at h
    obtain ⟨⟨c6, nx4, s1⟩, h3, h⟩ := except_bind_ok h
    obtain ⟨⟨ow, s2⟩, h4, h⟩ := except_bind_ok h
    dsimp only at h
    obtain ⟨⟨c7, nx5, s3⟩, h5, h⟩ := except_bind_ok h
    cases h
    have he := transE_ok (S := sem0 F) lo nx s hi c1 vlo nx1 h1
    have l1 := he.le
    have he2 := transE_ok (S := sem0 F) hi' nx1 s (hi.mono l1) c2 vhi nx2 h2
    have l2 := he2.le
    have hi2 := hi.mono (show nx ≤ nx2 by omega)
    have hi3 := startFor_inv (x := x) hi2 (show nx2 ≤ nx2 + 5 + 4 by omega)
    have hb := transS_ok sem0_lawful b _ _ hi3 c6 nx4 s1 h3
    have l3 := hb.le
    obtain ⟨ow', e1, ho⟩ := pop_ok (s := s) hb.inv (by rw [hb.tail]; rfl)
    rw [e1] at h4; cases h4
    obtain ⟨g1, g2, g3⟩ := transE_valid lo nx s hi c1 vlo _ h1 vis hv
    have hv1 := hv.mono (vis' := fun u => vis u ∨ u ∈ c1.defs) fun u hu => .inl hu
    obtain ⟨k1, k2, k3⟩ := transE_valid hi' nx1 s (hi.mono l1) c2 vhi _ h2 _ hv1
    have hv3 : Seen s fun u => (((vis u ∨ u ∈ c1.defs) ∨ u ∈ c2.defs) ∨ u ∈ [nx2, nx2 + 1, nx2 + 2, nx2 + 3, nx2 + 4]) ∨ u ∈ [nx2 + 5, nx2 + 6, nx2 + 7, nx2 + 8] :=
      hv.mono fun u hu => .inl (.inl (.inl (.inl hu)))
    have hv4 : Seen ([(x, ⟨nx2 + 5 + 4 + 1, true⟩)] :: s) fun u => ((((vis u ∨ u ∈ c1.defs) ∨ u ∈ c2.defs) ∨ u ∈ [nx2, nx2 + 1, nx2 + 2, nx2 + 3, nx2 + 4]) ∨
        u ∈ [nx2 + 5, nx2 + 6, nx2 + 7, nx2 + 8]) ∨ u = nx2 + 5 + 4 + 1 := by
      intro n i hl
      simp only [Scopes.look, Tab.find, List.lookup] at hl
      split at hl
      · simp at hl; subst hl; exact .inr rfl
      · exact .inl (hv3 n i hl)
    obtain ⟨b1, b2, b3⟩ := ih _ _ hi3 c6 nx4 s1 h3 _ hv4
    obtain ⟨m1, m2, m3, m4⟩ := finishFor_valid hi2 ho h5 hv3 (show nx2 ≤ nx2 + 5 + 4 ∧ nx2 + 5 + 4 + 2 ≤ nx4 by omega) (by simp) b1 b2 hb.defs b3
    have hlt1 := he.lt
    have hlt2 := he2.lt
    have l4 : nx4 ≤ nx5 := by
      have := (finishFor_ok sem0_lawful hi2 (show nx2 ≤ nx2 + 4 ∧ nx2 + 4 < nx2 + 5 + 4 by omega) hb ho h5).2.1
      exact this
    generalize hH : Code.app _ (Code.app _ c7) = H
    have hHd : H.allDefs = news nx2 9 ++ c7.allDefs := by rw [← hH]; rfl
    have hrange : ∀ d ∈ H.allDefs, nx2 ≤ d ∧ d < nx5 := by
      intro d hd
      rw [hHd] at hd
      rcases List.mem_append.1 hd with hd | hd
      · have := mem_news.1 hd; omega
      · have := m4 d hd; omega
    have hnd : H.allDefs.Nodup := by
      rw [hHd, List.nodup_append]
      refine ⟨nodup_news _ _, m1, ?_⟩
      rintro p hp q hq rfl
      have := mem_news.1 hp; have := m4 p hq; omega
    have hsc : H.Scoped fun u => (vis u ∨ u ∈ c1.defs) ∨ u ∈ c2.defs := by
      rw [← hH]
      have w1 : ((vis vlo ∨ vlo ∈ c1.defs) ∨ vlo ∈ c2.defs) := .inl g3
      simp only [Code.app, Code.Scoped, List.mem_cons, List.not_mem_nil, or_false, forall_eq_or_imp, forall_eq, w1, k3, true_or, or_true, true_and, false_implies, implies_true]
      exact m2.mono fun u hu => by
        simp only [List.mem_cons, List.not_mem_nil, or_false] at hu
        grind
    have hdefs : H.defs = news nx2 9 ++ c7.defs := by rw [← hH]; rfl
    refine ⟨?_, ?_, ?_⟩
    · refine nodup_app (b := nx5) g1 (nodup_app (b := nx5) k1 hnd he2.defs hrange) he.defs ?_
      intro d hd
      rw [allDefs_app] at hd
      rcases List.mem_append.1 hd with hd | hd
      · have := he2.defs d hd; omega
      · have := hrange d hd; omega
    · rw [Code.scoped_app, Code.scoped_app]
      exact ⟨g2, k2, hsc⟩
    · refine m3.mono fun u hu => ?_
      simp only [defs_app, hdefs, List.mem_append, mem_news]
      simp only [List.mem_cons, List.not_mem_nil, or_false] at hu
      rcases hu with ((((hu | hu) | hu) | hu) | hu) | hu
      · exact .inl hu
      · exact .inr (.inl hu)
      · exact .inr (.inr (.inl hu))
      · exact .inr (.inr (.inr (.inl (by omega))))
      · exact .inr (.inr (.inr (.inl (by omega))))
      · exact .inr (.inr (.inr (.inr hu)))
  | forStep x lo hi' step b ih =>
    simp only [transS, startFor_eq, Res.ok_bind] at h
    obtain ⟨⟨c1, vlo, nx1⟩, h1, h⟩ := except_bind_ok h
    obtain ⟨⟨c2, vhi, nx2⟩, h2, h⟩ := except_bind_ok h
    obtain ⟨⟨c3, vst, nx3⟩, h2', h⟩ := except_bind_ok h
    dsimp only [forBounds] at h
    obtain ⟨⟨c6, nx4, s1⟩, h3, h⟩ := except_bind_ok h
    obtain ⟨⟨ow, s2⟩, h4, h⟩ := except_bind_ok h
    dsimp only at h
    obtain ⟨⟨c7, nx5, s3⟩, h5, h⟩ := except_bind_ok h
    cases h
    have he := transE_ok (S := sem0 F) lo nx s hi c1 vlo nx1 h1
    have l1 := he.le
    have he2 := transE_ok (S := sem0 F) hi' nx1 s (hi.mono l1) c2 vhi nx2 h2
    have l2 := he2.le
    have hi2' := hi.mono (show nx ≤ nx2 by omega)
    have he3 := transE_ok (S := sem0 F) step nx2 s hi2' c3 vst nx3 h2'
    have l2' := he3.le
    have hi2 := hi.mono (show nx ≤ nx3 by omega)
    have hi3 := startFor_inv (x := x) hi2 (show nx3 ≤ nx3 + 1 + 4 by omega)
    have hb := transS_ok sem0_lawful b _ _ hi3 c6 nx4 s1 h3
    have l3 := hb.le
    obtain ⟨ow', e1, ho⟩ := pop_ok (s := s) hb.inv (by rw [hb.tail]; rfl)
    rw [e1] at h4; cases h4
    obtain ⟨g1, g2, g3⟩ := transE_valid lo nx s hi c1 vlo _ h1 vis hv
    have hv1 := hv.mono (vis' := fun u => vis u ∨ u ∈ c1.defs) fun u hu => .inl hu
    obtain ⟨k1, k2, k3⟩ := transE_valid hi' nx1 s (hi.mono l1) c2 vhi _ h2 _ hv1
    have hv2 := hv1.mono (vis' := fun u => (vis u ∨ u ∈ c1.defs) ∨ u ∈ c2.defs) fun u hu => .inl hu
    obtain ⟨t1, t2, t3⟩ := transE_valid step nx2 s hi2' c3 vst _ h2' _ hv2
    have hv3 : Seen s fun u => ((((vis u ∨ u ∈ c1.defs) ∨ u ∈ c2.defs) ∨ u ∈ c3.defs) ∨ u = nx3) ∨ u ∈ [nx3 + 1, nx3 + 2, nx3 + 3, nx3 + 4] :=
      hv.mono fun u hu => .inl (.inl (.inl (.inl (.inl hu))))
    have hv4 : Seen ([(x, ⟨nx3 + 1 + 4 + 1, true⟩)] :: s) fun u => (((((vis u ∨ u ∈ c1.defs) ∨ u ∈ c2.defs) ∨ u ∈ c3.defs) ∨ u = nx3) ∨
        u ∈ [nx3 + 1, nx3 + 2, nx3 + 3, nx3 + 4]) ∨ u = nx3 + 1 + 4 + 1 := by
      intro n i hl
      simp only [Scopes.look, Tab.find, List.lookup] at hl
      split at hl
      · simp at hl; subst hl; exact .inr rfl
      · exact .inl (hv3 n i hl)
    obtain ⟨b1, b2, b3⟩ := ih _ _ hi3 c6 nx4 s1 h3 _ hv4
    obtain ⟨m1, m2, m3, m4⟩ := finishFor_valid hi2 ho h5 hv3 (show nx3 ≤ nx3 + 1 + 4 ∧ nx3 + 1 + 4 + 2 ≤ nx4 by omega) (by simp) b1 b2 hb.defs b3
    have l4 : nx4 ≤ nx5 := by
      have := (finishFor_ok sem0_lawful hi2 (show nx3 ≤ nx3 ∧ nx3 < nx3 + 1 + 4 by omega) hb ho h5).2.1
      exact this
    generalize hH : Code.app (Code.arith nx3 .sign [vst] .done) (Code.app _ c7) = H
    have hHd : H.allDefs = news nx3 5 ++ c7.allDefs := by rw [← hH]; rfl
    have hrange : ∀ d ∈ H.allDefs, nx3 ≤ d ∧ d < nx5 := by
      intro d hd
      rw [hHd] at hd
      rcases List.mem_append.1 hd with hd | hd
      · have := mem_news.1 hd; omega
      · have := m4 d hd; omega
    have hnd : H.allDefs.Nodup := by
      rw [hHd, List.nodup_append]
      refine ⟨nodup_news _ _, m1, ?_⟩
      rintro p hp q hq rfl
      have := mem_news.1 hp; have := m4 p hq; omega
    have hsc : H.Scoped fun u => ((vis u ∨ u ∈ c1.defs) ∨ u ∈ c2.defs) ∨ u ∈ c3.defs := by
      rw [← hH]
      have w1 : (((vis vlo ∨ vlo ∈ c1.defs) ∨ vlo ∈ c2.defs) ∨ vlo ∈ c3.defs) := .inl (.inl g3)
      have w2 : (((vis vhi ∨ vhi ∈ c1.defs) ∨ vhi ∈ c2.defs) ∨ vhi ∈ c3.defs) := .inl k3
      simp only [Code.app, Code.Scoped, List.mem_cons, List.not_mem_nil, or_false, forall_eq_or_imp, forall_eq, w1, w2, t3, true_or, or_true, true_and, false_implies, implies_true]
      exact m2.mono fun u hu => by
        simp only [List.mem_cons, List.not_mem_nil, or_false] at hu
        grind
    have hdefs : H.defs = news nx3 5 ++ c7.defs := by rw [← hH]; rfl
    refine ⟨?_, ?_, ?_⟩
    · have n2 := nodup_app (a := nx2) (m := nx3) (b := nx5) t1 hnd he3.defs hrange
      have r2 : ∀ d ∈ (c3.app H).allDefs, nx2 ≤ d ∧ d < nx5 := by
        intro d hd
        rw [allDefs_app] at hd
        rcases List.mem_append.1 hd with hd | hd
        · have := he3.defs d hd; omega
        · have := hrange d hd; omega
      have n1 := nodup_app (a := nx1) (m := nx2) (b := nx5) k1 n2 he2.defs r2
      refine nodup_app (b := nx5) g1 n1 he.defs ?_
      intro d hd
      rw [allDefs_app] at hd
      rcases List.mem_append.1 hd with hd | hd
      · have := he2.defs d hd; omega
      · have := r2 d hd; omega
    · rw [Code.scoped_app, Code.scoped_app, Code.scoped_app]
      exact ⟨g2, k2, t2, hsc⟩
    · refine m3.mono fun u hu => ?_
      simp only [defs_app, hdefs, List.mem_append, mem_news]
      simp only [List.mem_cons, List.not_mem_nil, or_false] at hu
      rcases hu with (((((hu | hu) | hu) | hu) | hu) | hu) | hu
      · exact .inl hu
      · exact .inr (.inl hu)
      · exact .inr (.inr (.inl hu))
      · exact .inr (.inr (.inr (.inl hu)))
      · exact .inr (.inr (.inr (.inr (.inl (by omega)))))
      · exact .inr (.inr (.inr (.inr (.inl (by omega)))))
      · exact .inr (.inr (.inr (.inr (.inr hu))))

/-- C62: The code generated for an accepted script is valid: every value has one definition, and every operand is defined before its use in
the same block or in a block around it. -/
theorem script_code_valid (st : Stmt ν F) (c : Code F) (nx : Nat) (s : Syms ν) (h : transS st 0 Scopes.init = .ok (c, nx, s)) : c.Valid := by
  obtain ⟨h1, h2, _⟩ := transS_valid st 0 Scopes.init inv_init c nx s h (fun _ => False)
    fun n i hl => by simp [Scopes.init, Scopes.look, Tab.find] at hl
  exact ⟨h1, h2⟩

end

end Verif.Front
