/-
  Execution of blocks under the changes made by the pass.
-/
import Verif.Early.Model

namespace Verif.Early
variable {V F W : Type}

/-- More values are defined. -/
def Le (env env' : Env V) : Prop := ∀ x v, env x = some v → env' x = some v

theorem Le.refl (env : Env V) : Le env env := fun _ _ h => h
theorem Le.trans {a b c : Env V} (h : Le a b) (h' : Le b c) : Le a c := fun x v hx => h' x v (h x v hx)

theorem read_nil (env : Env V) : read env [] = some [] := rfl

theorem read_cons (env : Env V) (x : Nat) (l : List Nat) : read env (x :: l) = (env x).bind fun v => (read env l).map (v :: ·) := by
  unfold read
  rw [List.mapM_cons]
  cases env x with
  | none => rfl
  | some v =>
    simp only [Option.bind_eq_bind, Option.bind_some]
    cases List.mapM env l <;> rfl

theorem read_rel {e1 e2 : Env V} (s : Nat → Nat) : ∀ {l : List Nat} {xs : List V}, (∀ x ∈ l, ∀ v, e1 x = some v → e2 (s x) = some v) → read e1 l = some xs → read e2 (l.map s) = some xs
  | [], xs, _, h => h
  | x :: l, xs, hr, h => by
    rw [read_cons, Option.bind_eq_some_iff] at h
    obtain ⟨v, hv, h⟩ := h
    rw [Option.map_eq_some_iff] at h
    obtain ⟨ys, hys, rfl⟩ := h
    rw [List.map_cons, read_cons, hr x List.mem_cons_self v hv, Option.bind_some, read_rel s (fun y hy => hr y (List.mem_cons_of_mem _ hy)) hys]
    rfl

theorem read_mono {e1 e2 : Env V} {l : List Nat} {xs : List V} (hr : ∀ x ∈ l, ∀ v, e1 x = some v → e2 x = some v) (h : read e1 l = some xs) : read e2 l = some xs := by
  have := read_rel (e2 := e2) id hr h
  simpa using this

theorem read_length {env : Env V} : ∀ {l : List Nat} {xs : List V}, read env l = some xs → xs.length = l.length
  | [], xs, h => by
    cases h
    rfl
  | x :: l, xs, h => by
    rw [read_cons, Option.bind_eq_some_iff] at h
    obtain ⟨v, -, h⟩ := h
    rw [Option.map_eq_some_iff] at h
    obtain ⟨ys, hys, rfl⟩ := h
    simp [read_length hys]

theorem bind_mono {e1 e2 : Env V} {x : Nat} (h : ∀ v, e1 x = some v → e2 x = some v) : ∀ (rs : List Nat) (vs : List V) (v : V), bind e1 rs vs x = some v → bind e2 rs vs x = some v
  | [], vs, v, hb => h v hb
  | r :: rs, [], v, hb => h v hb
  | r :: rs, u :: vs, v, hb => by
    simp only [bind] at hb ⊢
    split
    · next he => rwa [if_pos he] at hb
    · next he =>
      rw [if_neg he] at hb
      exact bind_mono h rs vs v hb

theorem bind_not_mem {env : Env V} {x : Nat} : ∀ {rs : List Nat}, x ∉ rs → ∀ vs : List V, bind env rs vs x = env x
  | [], _, _ => rfl
  | r :: rs, h, [] => rfl
  | r :: rs, h, v :: vs => by
    simp only [List.mem_cons, not_or] at h
    simp only [bind, if_neg h.1]
    exact bind_not_mem h.2 vs

theorem bind_dom {env : Env V} {x : Nat} {rs : List Nat} {vs : List V} (h : bind env rs vs x ≠ none) : env x ≠ none ∨ x ∈ rs := by
  by_cases hx : x ∈ rs
  · exact .inr hx
  · rw [bind_not_mem hx] at h
    exact .inl h

theorem le_bind {env : Env V} {rs : List Nat} (h : ∀ r ∈ rs, env r = none) (vs : List V) : Le env (bind env rs vs) := by
  intro x v hx
  rw [bind_not_mem]
  · exact hx
  · intro hm
    rw [h x hm] at hx
    cases hx

/-- Reading values that have just been bound. -/
theorem read_bind {env : Env V} : ∀ {rs : List Nat} {vs : List V}, rs.Nodup → rs.length = vs.length → read (bind env rs vs) rs = some vs
  | [], [], _, _ => rfl
  | r :: rs, v :: vs, hn, hl => by
    rw [List.nodup_cons] at hn
    have h0 : bind env (r :: rs) (v :: vs) r = some v := by simp only [bind, if_true]
    rw [read_cons, h0, Option.bind_some]
    have := read_bind (env := env) hn.2 (by simpa using hl)
    rw [read_mono (e2 := bind env (r :: rs) (v :: vs)) ?_ this]
    · rfl
    · intro x hx u hu
      simp only [bind]
      rw [if_neg (by rintro rfl; exact hn.1 hx)]
      exact hu

/-- Code does the same if more values are defined. -/
theorem exec_mono (sem : Sem V F W) : ∀ (b : Block F) (e1 e2 : Env V) (w : W) (r : Out V × W), (∀ x ∈ uses b, ∀ v, e1 x = some v → e2 x = some v) → exec sem b e1 w = some r → exec sem b e2 w = some r
  | .nil, e1, e2, w, r, _, h => h
  | .op rs f args k, e1, e2, w, r, hu, h => by
    simp only [exec, Option.bind_eq_some_iff] at h ⊢
    obtain ⟨xs, hxs, h⟩ := h
    refine ⟨xs, read_mono (fun x hx => hu x (by simp [uses, hx])) hxs, ?_⟩
    exact exec_mono sem k _ _ _ _ (fun x hx => bind_mono (hu x (by simp [uses, hx])) _ _) h
  | .ite rs c t e k, e1, e2, w, r, hu, h => by
    simp only [exec, Option.bind_eq_some_iff] at h ⊢
    obtain ⟨b, hb, r1, hr1, h⟩ := h
    refine ⟨b, hu c (by simp [uses]) b hb, r1, ?_, ?_⟩
    · split
      · next ht =>
        rw [if_pos ht] at hr1
        exact exec_mono sem t _ _ _ _ (fun x hx => hu x (by simp [uses, hx])) hr1
      · next ht =>
        rw [if_neg ht] at hr1
        exact exec_mono sem e _ _ _ _ (fun x hx => hu x (by simp [uses, hx])) hr1
    · split at h
      · exact h
      · exact exec_mono sem k _ _ _ _ (fun x hx => bind_mono (hu x (by simp [uses, hx])) _ _) h
      · exact exec_mono sem k _ _ _ _ (fun x hx => bind_mono (hu x (by simp [uses, hx])) _ _) h
  | .yield vs k, e1, e2, w, r, hu, h => by
    simp only [exec, Option.map_eq_some_iff] at h ⊢
    obtain ⟨xs, hxs, h⟩ := h
    exact ⟨xs, read_mono (fun x hx => hu x (by simp [uses, hx])) hxs, h⟩
  | .ret vs k, e1, e2, w, r, hu, h => by
    simp only [exec, Option.map_eq_some_iff] at h ⊢
    obtain ⟨xs, hxs, h⟩ := h
    exact ⟨xs, read_mono (fun x hx => hu x (by simp [uses, hx])) hxs, h⟩

theorem exec_trunc (sem : Sem V F W) : ∀ (b : Block F) (env : Env V) (w : W), exec sem (trunc b) env w = exec sem b env w
  | .nil, _, _ => rfl
  | .op rs f args k, env, w => by simp only [trunc, exec, exec_trunc sem k]
  | .ite rs c t e k, env, w => by simp only [trunc, exec, exec_trunc sem k]
  | .yield vs k, env, w => rfl
  | .ret vs k, env, w => rfl

/-- The values a branch defines are new. -/
def Fresh (env : Env V) (b : Block F) : Prop := ∀ x ∈ defs b, env x = none

/-- Results of the `if`s of the block itself, and of its other operations. -/
theorem fresh_bind {env : Env V} {rs : List Nat} {l : List Nat} (hn : (rs ++ l).Nodup) (h : ∀ x ∈ rs ++ l, env x = none) (vs : List V) : ∀ x ∈ l, bind env rs vs x = none := by
  intro x hx
  rw [List.nodup_append] at hn
  rw [bind_not_mem (fun hr => hn.2.2 x hr x hx rfl)]
  exact h x (by simp [hx])

theorem nodup_ite {rs : List Nat} {t e k : List Nat} (h : (rs ++ (t ++ (e ++ k))).Nodup) : t.Nodup ∧ e.Nodup ∧ (rs ++ k).Nodup := by
  refine ⟨?_, ?_, ?_⟩
  · exact h.sublist ((List.sublist_append_left _ _).trans (List.sublist_append_right _ _))
  · exact h.sublist (((List.sublist_append_left _ _).trans (List.sublist_append_right _ _)).trans (List.sublist_append_right _ _))
  · exact h.sublist ((List.Sublist.refl rs).append ((List.sublist_append_right _ _).trans (List.sublist_append_right _ _)))

/-- The values of the first yield of the block itself. -/
def yv : Block F → Option (List Nat)
  | .nil => none
  | .op _ _ _ k => yv k
  | .ite _ _ _ _ k => yv k
  | .yield vs _ => some vs
  | .ret _ k => yv k

/-- Up to the yield. -/
theorem exec_onYield (sem : Sem V F W) : ∀ (b : Block F) (env : Env V) (w : W) (o : Out V) (w' : W), (defs b).Nodup → Fresh env b → exec sem b env w = some (o, w') →
    (∃ xs vs env', o = .yield xs ∧ yv b = some vs ∧ read env' vs = some xs ∧ Le env env' ∧ (∀ x, env' x ≠ none → env x ≠ none ∨ x ∈ defs b) ∧ ∀ f, exec sem (onYield f b) env w = exec sem (f vs) env' w') ∨
    ((∀ xs, o ≠ .yield xs) ∧ ∀ f, exec sem (onYield f b) env w = some (o, w'))
  | .nil, env, w, o, w', _, _, h => by
    cases h
    exact .inr ⟨fun xs h => (by cases h), fun f => rfl⟩
  | .op rs f args k, env, w, o, w', hn, hf, h => by
    simp only [exec, Option.bind_eq_some_iff] at h
    obtain ⟨xs, hxs, h⟩ := h
    have hn' : (defs k).Nodup := hn.sublist (List.sublist_append_right _ _)
    rcases exec_onYield sem k _ _ o w' hn' (fresh_bind hn hf _) h with ⟨ys, vs, env', h1, h1', h2, h3, h4, h5⟩ | ⟨h1, h2⟩
    · refine .inl ⟨ys, vs, env', h1, h1', h2, (le_bind (fun r hr => hf r (by simp [defs, hr])) _).trans h3, ?_, ?_⟩
      · intro x hx
        rcases h4 x hx with h | h
        · rcases bind_dom h with h | h
          · exact .inl h
          · exact .inr (by simp [defs, h])
        · exact .inr (by simp [defs, h])
      · intro g
        simp only [onYield, exec, hxs, Option.bind_some]
        exact h5 g
    · refine .inr ⟨h1, fun g => ?_⟩
      simp only [onYield, exec, hxs, Option.bind_some]
      exact h2 g
  | .ite rs c t e k, env, w, o, w', hn, hf, h => by
    simp only [exec, Option.bind_eq_some_iff] at h
    obtain ⟨b, hb, r1, hr1, h⟩ := h
    have hn2 := (nodup_ite hn).2.2
    have hf2 : ∀ x ∈ rs ++ defs k, env x = none := by
      intro x hx
      rw [List.mem_append] at hx
      exact hf x (by rcases hx with hx | hx <;> simp [defs, hx])
    have hn' : (defs k).Nodup := hn2.sublist (List.sublist_append_right _ _)
    have main : ∀ xs0, exec sem k (bind env rs xs0) r1.2 = some (o, w') →
        (∃ xs vs env', o = .yield xs ∧ yv k = some vs ∧ read env' vs = some xs ∧ Le env env' ∧ (∀ x, env' x ≠ none → env x ≠ none ∨ x ∈ defs (Block.ite rs c t e k)) ∧
          ∀ f, exec sem (onYield f k) (bind env rs xs0) r1.2 = exec sem (f vs) env' w') ∨
        ((∀ xs, o ≠ .yield xs) ∧ ∀ f, exec sem (onYield f k) (bind env rs xs0) r1.2 = some (o, w')) := by
      intro xs0 h
      rcases exec_onYield sem k _ _ o w' hn' (fresh_bind hn2 hf2 _) h with ⟨ys, vs, env', h1, h1', h2, h3, h4, h5⟩ | ⟨h1, h2⟩
      · refine .inl ⟨ys, vs, env', h1, h1', h2, (le_bind (fun r hr => hf r (by simp [defs, hr])) _).trans h3, ?_, h5⟩
        intro x hx
        rcases h4 x hx with h | h
        · rcases bind_dom h with h | h
          · exact .inl h
          · exact .inr (by simp [defs, h])
        · exact .inr (by simp [defs, h])
      · exact .inr ⟨h1, h2⟩
    simp only [onYield, exec, hb, Option.bind_some, hr1]
    obtain ⟨o1, w1⟩ := r1
    cases o1 with
    | ret vs =>
      simp only [Option.some.injEq, Prod.mk.injEq] at h
      obtain ⟨rfl, rfl⟩ := h
      exact .inr ⟨fun xs h => (by cases h), fun f => rfl⟩
    | yield vs => exact main vs h
    | fall => exact main [] h
  | .yield vs k, env, w, o, w', hn, hf, h => by
    simp only [exec, Option.map_eq_some_iff] at h
    obtain ⟨xs, hxs, h⟩ := h
    cases h
    exact .inl ⟨xs, vs, env, rfl, rfl, hxs, .refl _, fun x hx => .inl hx, fun f => rfl⟩
  | .ret vs k, env, w, o, w', hn, hf, h => by
    simp only [exec, Option.map_eq_some_iff] at h
    obtain ⟨xs, hxs, h⟩ := h
    cases h
    refine .inr ⟨fun xs h => (by cases h), fun f => ?_⟩
    simp only [onYield, exec, hxs, Option.map_some]

theorem exec_addYield (sem : Sem V F W) : ∀ (b : Block F) (env : Env V) (w : W), exec sem (addYield b) env w = (exec sem b env w).map fun r => (match r.1 with | .fall => .yield [] | o => o, r.2)
  | .nil, _, _ => rfl
  | .op rs f args k, env, w => by
    simp only [addYield, exec]
    cases read env args with
    | none => rfl
    | some xs => exact exec_addYield sem k _ _
  | .ite rs c t e k, env, w => by
    simp only [addYield, exec]
    cases env c with
    | none => rfl
    | some b =>
      simp only [Option.bind_some]
      cases (if sem.truthy b then exec sem t env w else exec sem e env w) with
      | none => rfl
      | some r =>
        simp only [Option.bind_some]
        cases r.1 with
        | ret vs => rfl
        | yield vs => exact exec_addYield sem k _ _
        | fall => exact exec_addYield sem k _ _
  | .yield vs k, env, w => by
    have : exec sem (addYield (.yield vs k)) env w = exec sem (.yield vs k) env w := by cases k <;> rfl
    rw [this]
    simp only [exec]
    cases read env vs <;> rfl
  | .ret vs k, env, w => by
    simp only [addYield, exec]
    cases read env vs <;> rfl

theorem defs_addYield : ∀ b : Block F, defs (addYield b) = defs b
  | .nil => rfl
  | .op rs f args k => by simp [addYield, defs, defs_addYield k]
  | .ite rs c t e k => by simp [addYield, defs, defs_addYield k]
  | .yield vs .nil => rfl
  | .yield vs (.op rs f args k) => by
    have := defs_addYield (.op rs f args k)
    simpa [addYield, defs] using this
  | .yield vs (.ite rs c t e k) => by
    have := defs_addYield (.ite rs c t e k)
    simpa [addYield, defs] using this
  | .yield vs (.yield us k) => by
    have := defs_addYield (.yield us k)
    simpa [addYield, defs] using this
  | .yield vs (.ret us k) => by
    have := defs_addYield (.ret us k)
    simpa [addYield, defs] using this
  | .ret vs k => by simp [addYield, defs, defs_addYield k]

theorem defs_substD (s : List (Nat × Nat)) : ∀ b : Block F, defs (substD s b) = defs b
  | .nil => rfl
  | .op rs f args k => by simp [substD, defs, defs_substD s k]
  | .ite rs c t e k => by simp [substD, defs, defs_substD s k]
  | .yield vs k => by simp [substD, defs, defs_substD s k]
  | .ret vs k => by simp [substD, defs, defs_substD s k]

/-- The values used inside the branches of the `if`s of a block. -/
def inner : Block F → List Nat
  | .nil => []
  | .op _ _ _ k => inner k
  | .ite _ _ t e k => uses t ++ (uses e ++ inner k)
  | .yield _ k => inner k
  | .ret _ k => inner k

theorem inner_substD (s : List (Nat × Nat)) : ∀ b : Block F, inner (substD s b) = inner b
  | .nil => rfl
  | .op rs f args k => inner_substD s k
  | .ite rs c t e k => by simp [substD, inner, inner_substD s k]
  | .yield vs k => inner_substD s k
  | .ret vs k => inner_substD s k

theorem inner_uses : ∀ (b : Block F), ∀ x ∈ inner b, x ∈ uses b
  | .nil, _, h => h
  | .op rs f args k, x, h => by simp [uses, inner_uses k x h]
  | .ite rs c t e k, x, h => by
    simp only [inner, List.mem_append] at h
    rcases h with h | h | h
    · simp [uses, h]
    · simp [uses, h]
    · simp [uses, inner_uses k x h]
  | .yield vs k, x, h => by simp [uses, inner_uses k x h]
  | .ret vs k, x, h => by simp [uses, inner_uses k x h]

theorem ren_nil (x : Nat) : ren [] x = x := rfl

theorem ren_not_mem {x : Nat} {rs vs : List Nat} (h : x ∉ rs) : ren (rs.zip vs) x = x := by
  unfold ren
  rw [List.find?_eq_none.2]
  · rfl
  · intro p hp
    have := (List.of_mem_zip hp).1
    simp only [beq_iff_eq]
    rintro rfl
    exact h this

/-- Replacing operands: the values are the same. -/
theorem exec_substD (sem : Sem V F W) (s : List (Nat × Nat)) : ∀ (b : Block F) (e1 e2 : Env V) (w : W) (r : Out V × W), (∀ x v, e1 x = some v → e2 (ren s x) = some v) → (∀ x ∈ inner b, ren s x = x) →
    (∀ x ∈ defs b, e2 x = none ∧ ren s x = x) → (defs b).Nodup → exec sem b e1 w = some r → exec sem (substD s b) e2 w = some r
  | .nil, e1, e2, w, r, _, _, _, _, h => h
  | .op rs f args k, e1, e2, w, r, hr, hi, hd, hn, h => by
    simp only [substD, exec, Option.bind_eq_some_iff] at h ⊢
    obtain ⟨xs, hxs, h⟩ := h
    refine ⟨xs, read_rel (ren s) (fun x _ => hr x) hxs, ?_⟩
    refine exec_substD sem s k _ _ _ _ ?_ hi ?_ (hn.sublist (List.sublist_append_right _ _)) h
    · exact bind_rel (fun x hx => hd x (by simp [defs, hx])) hr
    · intro x hx
      exact ⟨fresh_bind hn (fun y hy => (hd y hy).1) _ x hx, (hd x (by simp [defs, hx])).2⟩
  | .ite rs c t e k, e1, e2, w, r, hr, hi, hd, hn, h => by
    simp only [substD, exec, Option.bind_eq_some_iff] at h ⊢
    obtain ⟨b, hb, r1, hr1, h⟩ := h
    refine ⟨b, hr c b hb, r1, ?_, ?_⟩
    · split
      · next ht =>
        rw [if_pos ht] at hr1
        refine exec_mono sem t _ _ _ _ (fun x hx v hv => ?_) hr1
        have := hr x v hv
        rwa [hi x (by simp [inner, hx])] at this
      · next ht =>
        rw [if_neg ht] at hr1
        refine exec_mono sem e _ _ _ _ (fun x hx v hv => ?_) hr1
        have := hr x v hv
        rwa [hi x (by simp [inner, hx])] at this
    · have hn2 := (nodup_ite hn).2.2
      have hf2 : ∀ x ∈ rs ++ defs k, e2 x = none := by
        intro x hx
        rw [List.mem_append] at hx
        exact (hd x (by rcases hx with hx | hx <;> simp [defs, hx])).1
      have main : ∀ xs0, exec sem k (bind e1 rs xs0) r1.2 = some r → exec sem (substD s k) (bind e2 rs xs0) r1.2 = some r := by
        intro xs0 h
        refine exec_substD sem s k _ _ _ _ (bind_rel (fun x hx => hd x (by simp [defs, hx])) hr) (fun x hx => hi x (by simp [inner, hx])) ?_ (hn2.sublist (List.sublist_append_right _ _)) h
        intro x hx
        exact ⟨fresh_bind hn2 hf2 _ x hx, (hd x (by simp [defs, hx])).2⟩
      split at h
      · exact h
      · exact main _ h
      · exact main _ h
  | .yield vs k, e1, e2, w, r, hr, hi, hd, hn, h => by
    simp only [substD, exec, Option.map_eq_some_iff] at h ⊢
    obtain ⟨xs, hxs, h⟩ := h
    exact ⟨xs, read_rel (ren s) (fun x _ => hr x) hxs, h⟩
  | .ret vs k, e1, e2, w, r, hr, hi, hd, hn, h => by
    simp only [substD, exec, Option.map_eq_some_iff] at h ⊢
    obtain ⟨xs, hxs, h⟩ := h
    exact ⟨xs, read_rel (ren s) (fun x _ => hr x) hxs, h⟩
where
  bind_rel {s : List (Nat × Nat)} {e1 e2 : Env V} {rs : List Nat} {ys : List V} (hd : ∀ x ∈ rs, e2 x = none ∧ ren s x = x) (hr : ∀ x v, e1 x = some v → e2 (ren s x) = some v) :
      ∀ x v, bind e1 rs ys x = some v → bind e2 rs ys (ren s x) = some v := by
    intro x v hx
    by_cases hm : x ∈ rs
    · rw [(hd x hm).2]
      refine bind_mono ?_ rs ys v hx
      intro u hu
      have := hr x u hu
      rwa [(hd x hm).2] at this
    · rw [bind_not_mem hm] at hx
      have h2 := hr x v hx
      rw [bind_not_mem]
      · exact h2
      · intro hm2
        rw [(hd _ hm2).1] at h2
        cases h2

/-- The results of an `if` replaced by the values that are yielded. -/
theorem bind_ren {env env' : Env V} (hle : Le env env') : ∀ {rs vs : List Nat} {xs : List V}, read env' vs = some xs → ∀ x v, bind env rs xs x = some v → env' (ren (rs.zip vs) x) = some v
  | [], vs, xs, _, x, v, h => hle x v h
  | r :: rs, [], xs, hr, x, v, h => by
    cases hr
    exact hle x v h
  | r :: rs, u :: vs, xs, hr, x, v, h => by
    rw [read_cons, Option.bind_eq_some_iff] at hr
    obtain ⟨y, hy, hr⟩ := hr
    rw [Option.map_eq_some_iff] at hr
    obtain ⟨ys, hys, rfl⟩ := hr
    simp only [bind] at h
    unfold ren
    rw [List.zip_cons_cons, List.find?_cons]
    by_cases he : x = r
    · subst he
      simp only [if_true, Option.some.injEq] at h
      subst h
      simp [hy]
    · rw [if_neg he] at h
      have := bind_ren hle hys x v h
      have hb : (r == x) = false := by simpa using fun h => he h.symm
      simp only [hb]
      exact this

/-! ### What follows outside -/

/-- At most a yield or a return. -/
def Term (k : Block F) : Prop := k = .nil ∨ (∃ vs, k = .ret vs .nil) ∨ ∃ vs, k = .yield vs .nil

/-- The values that the function returns if a block ends with `o`, where the `if`s around it are followed by a yield or return only. -/
def finish : List (List Nat × Block F) → Env V → Out V → Option (List V)
  | _, _, .ret vs => some vs
  | (rs, .ret ids _) :: _, env, .yield xs => read (bind env rs xs) ids
  | (rs, .yield ids _) :: outer, env, .yield xs => (read (bind env rs xs) ids).bind fun ys => finish outer env (.yield ys)
  | _, _, _ => none

theorem finish_ret (outer : List (List Nat × Block F)) (env : Env V) (vs : List V) : finish outer env (.ret vs) = some vs := by cases outer <;> rfl

theorem finish_fall (outer : List (List Nat × Block F)) (env : Env V) : finish outer env .fall = none := by
  rcases outer with _ | ⟨⟨rs, k⟩, outer⟩
  · rfl
  · cases k <;> rfl

theorem finish_mono {e1 e2 : Env V} (h : Le e1 e2) : ∀ {outer : List (List Nat × Block F)} {o : Out V} {fs : List V}, finish outer e1 o = some fs → finish outer e2 o = some fs
  | outer, .ret vs, fs, hf => by
    rw [finish_ret] at hf ⊢
    exact hf
  | outer, .fall, fs, hf => by
    rw [finish_fall] at hf
    cases hf
  | [], .yield xs, fs, hf => by cases hf
  | (rs, .ret ids _) :: _, .yield xs, fs, hf => read_mono (fun x _ => bind_mono (h x) _ _) hf
  | (rs, .yield ids _) :: outer, .yield xs, fs, hf => by
    simp only [finish, Option.bind_eq_some_iff] at hf ⊢
    obtain ⟨ys, hys, hf⟩ := hf
    exact ⟨ys, read_mono (fun x _ => bind_mono (h x) _ _) hys, finish_mono h hf⟩
  | (rs, .nil) :: _, .yield xs, fs, hf => by cases hf
  | (rs, .op _ _ _ _) :: _, .yield xs, fs, hf => by cases hf
  | (rs, .ite _ _ _ _ _) :: _, .yield xs, fs, hf => by cases hf

theorem clone_term {n : Nat} {k : Block F} (h : Term k) : clone n k = k := by
  rcases h with rfl | ⟨vs, rfl⟩ | ⟨vs, rfl⟩ <;> rfl

theorem map_clone {n : Nat} : ∀ {outer : List (List Nat × Block F)}, (∀ p ∈ outer, Term p.2) → (outer.map fun p => (p.1, clone n p.2)) = outer
  | [], _ => rfl
  | p :: outer, h => by
    rw [List.map_cons, clone_term (h p List.mem_cons_self), map_clone fun q hq => h q (List.mem_cons_of_mem _ hq)]

theorem exec_attach (sem : Sem V F W) : ∀ (outer : List (List Nat × Block F)) (b : Block F) (env : Env V) (w : W) (o : Out V) (w' : W) (fs : List V), (∀ p ∈ outer, Term p.2) → (defs b).Nodup → Fresh env b →
    exec sem b env w = some (o, w') → finish outer env o = some fs → exec sem (attach outer b) env w = some (.ret fs, w')
  | [], b, env, w, o, w', fs, _, hn, hf, h, hfin => by
    cases o with
    | ret vs =>
      rw [finish_ret] at hfin
      cases hfin
      exact h
    | yield xs => cases hfin
    | fall => cases hfin
  | (rs, k) :: outer, b, env, w, o, w', fs, ht, hn, hf, h, hfin => by
    rcases exec_onYield sem b env w o w' hn hf h with ⟨xs, vs, env', rfl, -, h2, h3, h4, h5⟩ | ⟨h1, h2⟩
    · simp only [attach, h5]
      have hto : ∀ p ∈ outer, Term p.2 := fun p hp => ht p (List.mem_cons_of_mem _ hp)
      rcases ht (rs, k) List.mem_cons_self with hk | ⟨ids, hk⟩ | ⟨ids, hk⟩ <;> simp only at hk <;> subst hk
      · cases hfin
      · simp only [finish] at hfin
        refine exec_attach sem outer _ env' w' (.ret fs) w' fs hto List.nodup_nil (fun x hx => by cases hx) ?_ (finish_ret _ _ _)
        simp only [substD, exec, read_rel _ (fun x _ => bind_ren h3 h2 x) hfin, Option.map_some]
      · simp only [finish, Option.bind_eq_some_iff] at hfin
        obtain ⟨ys, hys, hfin⟩ := hfin
        refine exec_attach sem outer _ env' w' (.yield ys) w' fs hto List.nodup_nil (fun x hx => by cases hx) ?_ (finish_mono h3 hfin)
        simp only [substD, exec, read_rel _ (fun x _ => bind_ren h3 h2 x) hys, Option.map_some]
    · simp only [attach, h2]
      cases o with
      | ret vs =>
        rw [finish_ret] at hfin
        cases hfin
        rfl
      | yield xs => exact absurd rfl (h1 xs)
      | fall =>
        rw [finish_fall] at hfin
        cases hfin

/-- The last return replaced by a yield. -/
theorem exec_toYield (sem : Sem V F W) : ∀ (b b' : Block F) (m : Nat) (env : Env V) (w : W) (fs : List V) (w' : W), toYield b = some (b', m) → exec sem b env w = some (.ret fs, w') →
    exec sem b' env w = some (.ret fs, w') ∨ (exec sem b' env w = some (.yield fs, w') ∧ fs.length = m)
  | .nil, b', m, env, w, fs, w', ht, h => by cases ht
  | .op rs f args k, b', m, env, w, fs, w', ht, h => by
    simp only [toYield, Option.map_eq_some_iff] at ht
    obtain ⟨⟨k', m'⟩, hk, ht⟩ := ht
    cases ht
    simp only [exec, Option.bind_eq_some_iff] at h
    obtain ⟨xs, hxs, h⟩ := h
    simp only [exec, hxs, Option.bind_some]
    exact exec_toYield sem k _ _ _ _ _ _ hk h
  | .ite rs c t e k, b', m, env, w, fs, w', ht, h => by
    simp only [toYield, Option.map_eq_some_iff] at ht
    obtain ⟨⟨k', m'⟩, hk, ht⟩ := ht
    cases ht
    simp only [exec, Option.bind_eq_some_iff] at h
    obtain ⟨b, hb, r1, hr1, h⟩ := h
    simp only [exec, hb, Option.bind_some, hr1]
    obtain ⟨o1, w1⟩ := r1
    cases o1 with
    | ret vs => exact .inl h
    | yield vs => exact exec_toYield sem k _ _ _ _ _ _ hk h
    | fall => exact exec_toYield sem k _ _ _ _ _ _ hk h
  | .yield vs k, b', m, env, w, fs, w', ht, h => by
    simp only [exec, Option.map_eq_some_iff] at h
    obtain ⟨xs, hxs, h⟩ := h
    cases h
  | .ret vs k, b', m, env, w, fs, w', ht, h => by
    simp only [exec, Option.map_eq_some_iff] at h
    obtain ⟨xs, hxs, h⟩ := h
    cases h
    by_cases hk : k = .nil
    · subst hk
      cases ht
      right
      simp only [exec, hxs, Option.map_some, true_and]
      exact read_length hxs
    · have : toYield (.ret vs k) = (toYield k).map fun p => (.ret vs p.1, p.2) := by cases k <;> first | rfl | exact absurd rfl hk
      rw [this, Option.map_eq_some_iff] at ht
      obtain ⟨⟨k', m'⟩, hk', ht⟩ := ht
      cases ht
      left
      simp only [exec, hxs, Option.map_some]

end Verif.Early
