/-
  One round of the pass keeps what the function returns.
-/
import Verif.Early.Exec

namespace Verif.Early
variable {V F W : Type}

theorem bind_ok {α β : Type} {x : Except Stop α} {f : α → Except Stop β} {b : β} : (x >>= f) = .ok b ↔ ∃ a, x = .ok a ∧ f a = .ok b := by
  cases x with
  | error e =>
    constructor
    · intro h
      cases h
    · rintro ⟨a, h, -⟩
      cases h
  | ok a =>
    constructor
    · intro h
      exact ⟨a, rfl, h⟩
    · rintro ⟨a', h, h'⟩
      cases h
      exact h'

/-- Blocks of the parser: a yield is last, blocks with returns end with a terminator, and after an `if` with returns that are nested in further `if`s there is at most a yield or a return. -/
def K : Block F → Prop
  | .nil => True
  | .op _ _ _ k => K k
  | .yield _ k => k = .nil
  | .ret _ k => K k
  | .ite _ _ t e k => K t ∧ K e ∧ K k ∧ (2 ≤ dep t ∨ 2 ≤ dep e → Term k) ∧ (0 < dep t → closed t = true) ∧ (0 < dep e → closed e = true)

theorem exec_closed (sem : Sem V F W) : ∀ (b : Block F) (env : Env V) (w : W) (o : Out V) (w' : W), closed b = true → exec sem b env w = some (o, w') → o ≠ .fall
  | .nil, env, w, o, w', hc, h => by cases hc
  | .op rs f args k, env, w, o, w', hc, h => by
    simp only [exec, Option.bind_eq_some_iff] at h
    obtain ⟨xs, hxs, h⟩ := h
    exact exec_closed sem k _ _ _ _ hc h
  | .ite rs c t e k, env, w, o, w', hc, h => by
    simp only [exec, Option.bind_eq_some_iff] at h
    obtain ⟨b, hb, ⟨o1, w1⟩, hr1, h⟩ := h
    cases o1 with
    | ret vs =>
      cases h
      intro hh
      cases hh
    | yield vs => exact exec_closed sem k _ _ _ _ hc h
    | fall => exact exec_closed sem k _ _ _ _ hc h
  | .yield vs k, env, w, o, w', hc, h => by
    simp only [exec, Option.map_eq_some_iff] at h
    obtain ⟨xs, hxs, h⟩ := h
    cases h
    intro hh
    cases hh
  | .ret vs k, env, w, o, w', hc, h => by
    simp only [exec, Option.map_eq_some_iff] at h
    obtain ⟨xs, hxs, h⟩ := h
    cases h
    intro hh
    cases hh

theorem exec_hasRet (sem : Sem V F W) : ∀ (b : Block F) (env : Env V) (w : W) (o : Out V) (w' : W), K b → hasRet b = true → exec sem b env w = some (o, w') → ∃ vs, o = .ret vs
  | .nil, env, w, o, w', _, hc, h => by cases hc
  | .op rs f args k, env, w, o, w', hk, hc, h => by
    simp only [exec, Option.bind_eq_some_iff] at h
    obtain ⟨xs, hxs, h⟩ := h
    exact exec_hasRet sem k _ _ _ _ hk hc h
  | .ite rs c t e k, env, w, o, w', hk, hc, h => by
    simp only [exec, Option.bind_eq_some_iff] at h
    obtain ⟨b, hb, ⟨o1, w1⟩, hr1, h⟩ := h
    cases o1 with
    | ret vs =>
      cases h
      exact ⟨_, rfl⟩
    | yield vs => exact exec_hasRet sem k _ _ _ _ hk.2.2.1 hc h
    | fall => exact exec_hasRet sem k _ _ _ _ hk.2.2.1 hc h
  | .yield vs k, env, w, o, w', hk, hc, h => by
    cases hk
    cases hc
  | .ret vs k, env, w, o, w', _, hc, h => by
    simp only [exec, Option.map_eq_some_iff] at h
    obtain ⟨xs, hxs, h⟩ := h
    cases h
    exact ⟨_, rfl⟩

theorem term_finish (sem : Sem V F W) {k : Block F} (hk : Term k) {rs : List Nat} {outer : List (List Nat × Block F)} {env : Env V} {xs : List V} {w1 w' : W} {o : Out V} {fs : List V}
    (h : exec sem k (bind env rs xs) w1 = some (o, w')) (hf : finish outer env o = some fs) : finish ((rs, k) :: outer) env (.yield xs) = some fs ∧ w' = w1 := by
  rcases hk with rfl | ⟨vs, rfl⟩ | ⟨vs, rfl⟩
  · cases h
    rw [finish_fall] at hf
    cases hf
  · simp only [exec, Option.map_eq_some_iff] at h
    obtain ⟨ys, hys, h⟩ := h
    cases h
    rw [finish_ret] at hf
    cases hf
    exact ⟨hys, rfl⟩
  · simp only [exec, Option.map_eq_some_iff] at h
    obtain ⟨ys, hys, h⟩ := h
    cases h
    refine ⟨?_, rfl⟩
    simp only [finish, hys, Option.bind_some]
    exact hf

/-! ### Uses -/

theorem uses_toYield : ∀ (b b' : Block F) (m : Nat), toYield b = some (b', m) → uses b' = uses b
  | .nil, b', m, h => by cases h
  | .op rs f args k, b', m, h => by
    simp only [toYield, Option.map_eq_some_iff] at h
    obtain ⟨⟨k', m'⟩, hk, h⟩ := h
    cases h
    simp only [uses, uses_toYield k _ _ hk]
  | .ite rs c t e k, b', m, h => by
    simp only [toYield, Option.map_eq_some_iff] at h
    obtain ⟨⟨k', m'⟩, hk, h⟩ := h
    cases h
    simp only [uses, uses_toYield k _ _ hk]
  | .yield vs k, b', m, h => by
    simp only [toYield, Option.map_eq_some_iff] at h
    obtain ⟨⟨k', m'⟩, hk, h⟩ := h
    cases h
    simp only [uses, uses_toYield k _ _ hk]
  | .ret vs k, b', m, h => by
    by_cases hk : k = .nil
    · subst hk
      cases h
      rfl
    · have : toYield (.ret vs k) = (toYield k).map fun p => (.ret vs p.1, p.2) := by cases k <;> first | rfl | exact absurd rfl hk
      rw [this, Option.map_eq_some_iff] at h
      obtain ⟨⟨k', m'⟩, hk', h⟩ := h
      cases h
      simp only [uses, uses_toYield k _ _ hk']

theorem uses_onYield (f : List Nat → Block F) : ∀ (b : Block F) (vs : List Nat), yv b = some vs → ∀ x ∈ uses (f vs), x ∈ uses (onYield f b)
  | .nil, vs, h, x, hx => by cases h
  | .op rs g args k, vs, h, x, hx => by simp [onYield, uses, uses_onYield f k vs h x hx]
  | .ite rs c t e k, vs, h, x, hx => by simp [onYield, uses, uses_onYield f k vs h x hx]
  | .yield us k, vs, h, x, hx => by
    cases h
    exact hx
  | .ret us k, vs, h, x, hx => by simp [onYield, uses, uses_onYield f k vs h x hx]

theorem inner_onYield (f : List Nat → Block F) : ∀ (b : Block F), K b → ∀ x ∈ inner b, x ∈ inner (onYield f b)
  | .nil, h, x, hx => hx
  | .op rs g args k, h, x, hx => inner_onYield f k h x hx
  | .ite rs c t e k, h, x, hx => by
    simp only [onYield, inner, List.mem_append] at hx ⊢
    rcases hx with hx | hx | hx
    · exact .inl hx
    · exact .inr (.inl hx)
    · exact .inr (.inr (inner_onYield f k h.2.2.1 x hx))
  | .yield us k, h, x, hx => by
    cases h
    cases hx
  | .ret us k, h, x, hx => inner_onYield f k h x hx

theorem inner_attach {outer : List (List Nat × Block F)} {b : Block F} (h : K b) : ∀ x ∈ inner b, x ∈ inner (attach outer b) := by
  rcases outer with _ | ⟨⟨rs, k⟩, outer⟩
  · exact fun x hx => hx
  · exact inner_onYield _ b h

theorem dep_substD (s : List (Nat × Nat)) : ∀ b : Block F, dep (substD s b) = dep b
  | .nil => rfl
  | .op rs f args k => by simp [substD, dep, dep_substD s k]
  | .ite rs c t e k => by simp [substD, dep, dep_substD s k]
  | .yield vs k => by simp [substD, dep, dep_substD s k]
  | .ret vs k => by simp [substD, dep, dep_substD s k]

theorem Term.substD {s : List (Nat × Nat)} {k : Block F} (h : Term k) : Term (substD s k) := by
  rcases h with rfl | ⟨vs, rfl⟩ | ⟨vs, rfl⟩
  · exact .inl rfl
  · exact .inr (.inl ⟨_, rfl⟩)
  · exact .inr (.inr ⟨_, rfl⟩)

theorem K.substD (s : List (Nat × Nat)) : ∀ b : Block F, K b → K (Early.substD s b)
  | .nil, h => h
  | .op rs f args k, h => K.substD s k h
  | .ite rs c t e k, h => ⟨h.1, h.2.1, K.substD s k h.2.2.1, fun hh => (h.2.2.2.1 hh).substD, h.2.2.2.2⟩
  | .yield vs k, h => by
    cases h
    rfl
  | .ret vs k, h => K.substD s k h

/-! ### A branch of the new `if` -/

/-- What is left to do after a branch. -/
def after (sem : Sem V F W) (k : Block F) (env : Env V) (rs : List Nat) (r : Out V × W) : Option (Out V × W) :=
  match r.1 with
  | .ret vs => some (.ret vs, r.2)
  | .yield vs => exec sem k (bind env rs vs) r.2
  | .fall => exec sem k (bind env rs []) r.2

theorem newCase_exec (sem : Sem V F W) {n : Nat} {rs : List Nat} {k : Block F} {outer : List (List Nat × Block F)} {b : Block F} {env : Env V} {w w' : W} {r : Out V × W} {o : Out V} {fs : List V} (hKb : K b) (hKk : K k)
    (hout : ∀ p ∈ outer, Term p.2) (hnb : (defs b).Nodup) (hnk : (rs ++ defs k).Nodup) (hdj : ∀ x ∈ defs b, x ∉ defs k) (hfb : Fresh env b) (hfk : ∀ x ∈ rs ++ defs k, env x = none)
    (hu : ∀ x ∈ rs, x ∉ uses (newCase n rs k outer b)) (h1 : exec sem b env w = some r) (h2 : after sem k env rs r = some (o, w')) (hf : finish outer env o = some fs) :
    exec sem (newCase n rs k outer b) env w = some (.ret fs, w') := by
  unfold newCase at hu ⊢
  split
  · next hr =>
    obtain ⟨o1, w1⟩ := r
    obtain ⟨vs, rfl⟩ := exec_hasRet sem b _ _ _ _ hKb hr h1
    cases h2
    rw [finish_ret] at hf
    cases hf
    rw [exec_trunc]
    exact h1
  · next hr =>
    rw [if_neg hr] at hu
    unfold fixCase at hu ⊢
    rw [map_clone hout] at hu ⊢
    have hay : exec sem (addYield b) env w = some (match r.1 with | .fall => .yield [] | o => o, r.2) := by rw [exec_addYield, h1]; rfl
    rcases exec_onYield sem (addYield b) env w _ _ (by rwa [defs_addYield]) (by unfold Fresh; rwa [defs_addYield]) hay with ⟨xs, vs, env', ho, hyv, hrd, hle, hdom, hex⟩ | ⟨ho, hex⟩
    · simp only [attach, hex]
      have hk : exec sem k (bind env rs xs) r.2 = some (o, w') := by
        obtain ⟨o1, w1⟩ := r
        cases o1 with
        | ret vs => cases ho
        | yield vs =>
          cases ho
          exact h2
        | fall =>
          cases ho
          exact h2
      have hsub : exec sem (substD (rs.zip vs) k) env' r.2 = some (o, w') := by
        refine exec_substD sem _ k _ _ _ _ (bind_ren hle hrd) ?_ ?_ (hnk.sublist (List.sublist_append_right _ _)) hk
        · intro x hx
          refine ren_not_mem fun hm => hu x hm ?_
          refine uses_onYield _ _ _ hyv x (inner_uses _ x (inner_attach (K.substD _ _ hKk) x ?_))
          rw [inner_substD]
          exact hx
        · intro x hx
          refine ⟨?_, ?_⟩
          · refine Classical.byContradiction fun hne => ?_
            rcases hdom x hne with h | h
            · exact h (hfk x (by simp [hx]))
            · rw [defs_addYield] at h
              exact hdj x h hx
          · refine ren_not_mem fun hm => ?_
            rw [List.nodup_append] at hnk
            exact hnk.2.2 x hm x hx rfl
      refine exec_attach sem outer _ env' _ o w' fs hout ?_ ?_ hsub (finish_mono hle hf)
      · rw [defs_substD]
        exact hnk.sublist (List.sublist_append_right _ _)
      · intro x hx
        rw [defs_substD] at hx
        refine Classical.byContradiction fun hne => ?_
        rcases hdom x hne with h | h
        · exact h (hfk x (by simp [hx]))
        · rw [defs_addYield] at h
          exact hdj x h hx
    · simp only [attach, hex]
      obtain ⟨o1, w1⟩ := r
      cases o1 with
      | ret vs =>
        cases h2
        rw [finish_ret] at hf
        cases hf
        rfl
      | yield vs => exact absurd rfl (ho vs)
      | fall => exact absurd rfl (ho [])

theorem exec_ite (sem : Sem V F W) (rs : List Nat) (c : Nat) (t e k : Block F) (env : Env V) (w : W) :
    exec sem (.ite rs c t e k) env w = (env c).bind fun b => (if sem.truthy b then exec sem t env w else exec sem e env w).bind (after sem k env rs) := rfl

/-- The new `if` with the return after it. -/
theorem exec_newIte (sem : Sem V F W) {n m : Nat} {c : Nat} {t t' e e' k : Block F} {env : Env V} {w w' : W} {b : V} {fs : List V} (hb : env c = some b) (ht : toYield t = some (t', m)) (he : toYield e = some (e', m))
    (h : (if sem.truthy b then exec sem t env w else exec sem e env w) = some (.ret fs, w')) : exec sem (.ite (List.range' (2 * n) m) c t' e' (.ret (List.range' (2 * n) m) k)) env w = some (.ret fs, w') := by
  rw [exec_ite, hb, Option.bind_some]
  have main : (if sem.truthy b then exec sem t' env w else exec sem e' env w) = some (.ret fs, w') ∨ ((if sem.truthy b then exec sem t' env w else exec sem e' env w) = some (.yield fs, w') ∧ fs.length = m) := by
    by_cases htr : sem.truthy b = true
    · simp only [if_pos htr] at h ⊢
      exact exec_toYield sem t _ _ _ _ _ _ ht h
    · simp only [if_neg htr] at h ⊢
      exact exec_toYield sem e _ _ _ _ _ _ he h
  rcases main with hm | ⟨hm, hl⟩
  · rw [hm]
    rfl
  · rw [hm, Option.bind_some]
    simp only [after, exec]
    rw [read_bind List.nodup_range' (by simp [hl])]
    rfl

theorem rectify_ok {n : Nat} {rs : List Nat} {c : Nat} {t e k b' : Block F} {outer : List (List Nat × Block F)} (hr : rectify n rs c t e k outer = .ok b') :
    ∃ t' e' m, toYield (newCase n rs k outer t) = some (t', m) ∧ toYield (newCase n rs k outer e) = some (e', m) ∧
      b' = .ite (List.range' (2 * n) m) c t' e' (.ret (List.range' (2 * n) m) (if hasRet t && hasRet e then k else .nil)) ∧ ∀ x ∈ rs, x ∉ uses b' := by
  unfold rectify at hr
  generalize (if hasRet t && hasRet e then k else .nil) = k1 at hr ⊢
  split at hr
  · next t' m e' m' ht he =>
    split at hr
    · cases hr
    · next hm =>
      have hm := Classical.not_not.1 hm
      subst hm
      simp only at hr
      split at hr
      · cases hr
      · next hu =>
        cases hr
        refine ⟨t', e', m, ht, he, rfl, ?_⟩
        intro x hx
        simp only [List.any_eq_true, not_exists, not_and] at hu
        have := hu x hx
        simpa only [List.contains_iff_mem] using this
  · cases hr

theorem rectify_meaning (sem : Sem V F W) {n : Nat} {rs : List Nat} {c : Nat} {t e k b' : Block F} {outer : List (List Nat × Block F)} {env : Env V} {w w' : W} {o : Out V} {fs : List V}
    (hr : rectify n rs c t e k outer = .ok b') (hK : K (.ite rs c t e k)) (hout : ∀ p ∈ outer, Term p.2) (hn : (defs (.ite rs c t e k)).Nodup) (hfr : Fresh env (.ite rs c t e k))
    (h : exec sem (.ite rs c t e k) env w = some (o, w')) (hf : finish outer env o = some fs) : exec sem b' env w = some (.ret fs, w') := by
  obtain ⟨t', e', m, ht, he, rfl, hu⟩ := rectify_ok hr
  rw [exec_ite, Option.bind_eq_some_iff] at h
  obtain ⟨b, hb, h⟩ := h
  rw [Option.bind_eq_some_iff] at h
  obtain ⟨r, hr1, h⟩ := h
  have hu' : ∀ x ∈ rs, x ∉ uses t' ∧ x ∉ uses e' := by
    intro x hx
    have := hu x hx
    simp only [uses, List.mem_cons, List.mem_append, not_or] at this
    exact ⟨this.2.1, this.2.2.1⟩
  rw [uses_toYield _ _ _ ht, uses_toYield _ _ _ he] at hu'
  have hnn := nodup_ite hn
  have hfk : ∀ x ∈ rs ++ defs k, env x = none := by
    intro x hx
    rw [List.mem_append] at hx
    exact hfr x (by rcases hx with hx | hx <;> simp [defs, hx])
  have hdt : ∀ x ∈ defs t, x ∉ defs k := by
    intro x hx hk
    have := hn.sublist (List.sublist_append_right _ _)
    rw [List.nodup_append] at this
    exact this.2.2 x hx x (by simp [hk]) rfl
  have hde : ∀ x ∈ defs e, x ∉ defs k := by
    intro x hx hk
    have := (hn.sublist (List.sublist_append_right _ _)).sublist (List.sublist_append_right _ _)
    rw [List.nodup_append] at this
    exact this.2.2 x hx x hk rfl
  refine exec_newIte sem hb ht he ?_
  split at hr1
  · next htr =>
    rw [if_pos htr]
    exact newCase_exec sem hK.1 hK.2.2.1 hout hnn.1 hnn.2.2 hdt (fun x hx => hfr x (by simp [defs, hx])) hfk (fun x hx => (hu' x hx).1) hr1 h hf
  · next htr =>
    rw [if_neg htr]
    exact newCase_exec sem hK.2.1 hK.2.2.1 hout hnn.2.1 hnn.2.2 hde (fun x hx => hfr x (by simp [defs, hx])) hfk (fun x hx => (hu' x hx).2) hr1 h hf

theorem up_eq {n d : Nat} (hd : 2 ≤ d) : up n = d ↔ n + 1 = d := by
  unfold up
  split <;> omega

theorem step_meaning (sem : Sem V F W) (n : Nat) : ∀ (d : Nat) (b : Block F) (outer : List (List Nat × Block F)) (b' : Block F) (env : Env V) (w : W) (o : Out V) (w' : W) (fs : List V), step n d b outer = .ok b' → dep b = d → 2 ≤ d → K b →
    (∀ p ∈ outer, Term p.2) → (defs b).Nodup → Fresh env b → exec sem b env w = some (o, w') → finish outer env o = some fs → ∃ o', exec sem b' env w = some (o', w') ∧ (o' = o ∨ o' = .ret fs)
  | d, .nil, outer, b', env, w, o, w', fs, hs, hd, h2, hK, hout, hn, hfr, h, hf => by cases hs
  | d, .op rs f args k, outer, b', env, w, o, w', fs, hs, hd, h2, hK, hout, hn, hfr, h, hf => by
    simp only [step, bind_ok] at hs
    obtain ⟨k', hk', hs⟩ := hs
    cases hs
    simp only [exec, Option.bind_eq_some_iff] at h
    obtain ⟨xs, hxs, h⟩ := h
    obtain ⟨o', ho', hor⟩ := step_meaning sem n d k outer k' _ _ _ _ fs hk' hd h2 hK hout (hn.sublist (List.sublist_append_right _ _)) (fresh_bind hn hfr _) h (finish_mono (le_bind (fun r hr => hfr r (by simp [defs, hr])) _) hf)
    exact ⟨o', by simp only [exec, hxs, Option.bind_some]; exact ho', hor⟩
  | d, .yield vs k, outer, b', env, w, o, w', fs, hs, hd, h2, hK, hout, hn, hfr, h, hf => by
    cases hK
    cases hs
  | d, .ret vs k, outer, b', env, w, o, w', fs, hs, hd, h2, hK, hout, hn, hfr, h, hf => by
    simp only [step, bind_ok] at hs
    obtain ⟨k', hk', hs⟩ := hs
    cases hs
    exact ⟨o, h, .inl rfl⟩
  | d, .ite rs c t e k, outer, b', env, w, o, w', fs, hs, hd, h2, hK, hout, hn, hfr, h, hf => by
    rw [step] at hs
    have hnn := nodup_ite hn
    split at hs
    · next hc =>
      split at hs
      · exact ⟨.ret fs, rectify_meaning sem hs hK hout hn hfr h hf, .inr rfl⟩
      · next hd2 =>
        have h3 : 3 ≤ d := by omega
        have hT : Term k := hK.2.2.2.1 (by omega)
        rw [exec_ite, Option.bind_eq_some_iff] at h
        obtain ⟨b, hb, h⟩ := h
        rw [Option.bind_eq_some_iff] at h
        obtain ⟨r, hr1, h⟩ := h
        have hout' : ∀ p ∈ (rs, k) :: outer, Term p.2 := by
          intro p hp
          rcases List.mem_cons.1 hp with rfl | hp
          · exact hT
          · exact hout p hp
        have hfin : r.1 ≠ .fall → finish ((rs, k) :: outer) env r.1 = some fs ∧ r.2 = w' := by
          intro hnf
          obtain ⟨o1, w1⟩ := r
          cases o1 with
          | ret vs =>
            cases h
            rw [finish_ret] at hf ⊢
            exact ⟨hf, rfl⟩
          | yield vs =>
            have := term_finish sem hT h hf
            exact ⟨this.1, this.2.symm⟩
          | fall => exact absurd rfl hnf
        split at hs
        · next hdt =>
          rw [bind_ok] at hs
          obtain ⟨t', ht', hs⟩ := hs
          cases hs
          by_cases htr : sem.truthy b = true
          · rw [if_pos htr] at hr1
            obtain ⟨o1, w1⟩ := r
            obtain ⟨hf', hw⟩ := hfin (exec_closed sem t _ _ _ _ (hK.2.2.2.2.1 (by omega)) hr1)
            obtain ⟨o', ho', hor⟩ := step_meaning sem n (d - 1) t ((rs, k) :: outer) t' env w _ _ fs ht' (by omega) (by omega) hK.1 hout' hnn.1 (fun x hx => hfr x (by simp [defs, hx])) hr1 hf'
            simp only [exec_ite, hb, Option.bind_some, if_pos htr, ho']
            rcases hor with rfl | rfl
            · exact ⟨o, h, .inl rfl⟩
            · cases hw
              exact ⟨.ret fs, rfl, .inr rfl⟩
          · refine ⟨o, ?_, .inl rfl⟩
            rw [if_neg htr] at hr1
            simp only [exec_ite, hb, Option.bind_some, if_neg htr, hr1]
            exact h
        · next hdt =>
          rw [bind_ok] at hs
          obtain ⟨e', he', hs⟩ := hs
          cases hs
          by_cases htr : sem.truthy b = true
          · refine ⟨o, ?_, .inl rfl⟩
            rw [if_pos htr] at hr1
            simp only [exec_ite, hb, Option.bind_some, if_pos htr, hr1]
            exact h
          · rw [if_neg htr] at hr1
            obtain ⟨o1, w1⟩ := r
            obtain ⟨hf', hw⟩ := hfin (exec_closed sem e _ _ _ _ (hK.2.2.2.2.2 (by omega)) hr1)
            obtain ⟨o', ho', hor⟩ := step_meaning sem n (d - 1) e ((rs, k) :: outer) e' env w _ _ fs he' (by omega) (by omega) hK.2.1 hout' hnn.2.1 (fun x hx => hfr x (by simp [defs, hx])) hr1 hf'
            simp only [exec_ite, hb, Option.bind_some, if_neg htr, ho']
            rcases hor with rfl | rfl
            · exact ⟨o, h, .inl rfl⟩
            · cases hw
              exact ⟨.ret fs, rfl, .inr rfl⟩
    · next hc =>
      rw [bind_ok] at hs
      obtain ⟨k', hk', hs⟩ := hs
      cases hs
      have hdk : dep k = d := by
        have h1 : up (dep t) ≠ d := fun hh => hc (.inl ((up_eq h2).1 hh))
        have h3 : up (dep e) ≠ d := fun hh => hc (.inr ((up_eq h2).1 hh))
        simp only [dep] at hd
        omega
      rw [exec_ite, Option.bind_eq_some_iff] at h
      obtain ⟨b, hb, h⟩ := h
      rw [Option.bind_eq_some_iff] at h
      obtain ⟨r, hr1, h⟩ := h
      have hfk : ∀ x ∈ rs ++ defs k, env x = none := by
        intro x hx
        rw [List.mem_append] at hx
        exact hfr x (by rcases hx with hx | hx <;> simp [defs, hx])
      have main : ∀ xs, exec sem k (bind env rs xs) r.2 = some (o, w') → ∃ o', exec sem k' (bind env rs xs) r.2 = some (o', w') ∧ (o' = o ∨ o' = .ret fs) := by
        intro xs hx
        exact step_meaning sem n d k outer k' _ _ _ _ fs hk' hdk h2 hK.2.2.1 hout (hnn.2.2.sublist (List.sublist_append_right _ _)) (fresh_bind hnn.2.2 hfk _) hx
          (finish_mono (le_bind (fun r hr => hfk r (by simp [hr])) _) hf)
      simp only [exec_ite, hb, Option.bind_some, hr1]
      obtain ⟨o1, w1⟩ := r
      cases o1 with
      | ret vs => exact ⟨o, h, .inl rfl⟩
      | yield vs => exact main _ h
      | fall => exact main _ h

end Verif.Early
