/-
  Code, calls and their names.
-/
import Verif.Special.Model
import Verif.Sql.Names

namespace Verif.Special
variable {V F W : Type}

/-- The values have the constants. -/
def Agree (p : List (Option V)) (vs : List V) : Prop := ∀ (i : Nat) (v : V), p[i]? = some (some v) → vs[i]? = some v

/-- Constants of the one are constants of the other. -/
def Sub (p q : List (Option V)) : Prop := ∀ (i : Nat) (v : V), p[i]? = some (some v) → q[i]? = some (some v)

theorem Sub.refl (p : List (Option V)) : Sub p p := fun _ _ h => h
theorem Sub.trans {p q r : List (Option V)} (h : Sub p q) (h' : Sub q r) : Sub p r := fun i v hi => h' i v (h i v hi)
theorem Sub.agree {p q : List (Option V)} {vs : List V} (h : Sub p q) (h' : Agree q vs) : Agree p vs := fun i v hi => h' i v (h i v hi)

theorem agree_append {kn : List (Option V)} {env : List V} (hl : kn.length = env.length) (h : Agree kn env) {o : Option V} {v : V} (ho : ∀ u, o = some u → u = v) :
    Agree (kn ++ [o]) (env ++ [v]) := by
  intro i u hi
  rcases Nat.lt_trichotomy i kn.length with hlt | heq | hgt
  · rw [List.getElem?_append_left hlt] at hi
    rw [List.getElem?_append_left (by omega)]
    exact h i u hi
  · subst heq
    simp only [List.getElem?_concat_length, Option.some.injEq] at hi
    rw [hl, List.getElem?_concat_length]
    rw [ho u hi]
  · rw [List.getElem?_eq_none (by simp; omega)] at hi
    cases hi

theorem sub_append {p q : List (Option V)} (hl : p.length = q.length) (h : Sub p q) (o : Option V) : Sub (p ++ [o]) (q ++ [o]) := by
  intro i u hi
  rcases Nat.lt_trichotomy i p.length with hlt | heq | hgt
  · rw [List.getElem?_append_left hlt] at hi
    rw [List.getElem?_append_left (by omega)]
    exact h i u hi
  · subst heq
    rw [List.getElem?_concat_length] at hi
    rw [hl, List.getElem?_concat_length]
    exact hi
  · rw [List.getElem?_eq_none (by simp; omega)] at hi
    cases hi

theorem length_calls : ∀ (c : Code V F) (kn : List (Option V)), (calls c kn).length = numCalls c
  | .ret _, _ => rfl
  | .const _ k, kn => length_calls k _
  | .op _ _ k, kn => length_calls k _
  | .call _ _ k, kn => by simp [calls, numCalls, length_calls k]
  | .ite _ t e k, kn => by simp [calls, numCalls, length_calls t, length_calls e, length_calls k]

theorem calls_setCall (h : String) : ∀ (c : Code V F) (kn : List (Option V)) (i : Nat) {g : String} {cs : List (Option V)}, (calls c kn)[i]? = some (g, cs) →
    calls (setCall h c i) kn = (calls c kn).set i (h, cs)
  | .ret _, _, i, g, cs, hi => by simp [calls] at hi
  | .const _ k, kn, i, g, cs, hi => calls_setCall h k _ i hi
  | .op _ _ k, kn, i, g, cs, hi => calls_setCall h k _ i hi
  | .call g' args k, kn, 0, g, cs, hi => by
    simp only [calls, List.getElem?_cons_zero, Option.some.injEq, Prod.mk.injEq] at hi
    simp [setCall, calls, hi.2]
  | .call g' args k, kn, i + 1, g, cs, hi => by
    simp only [calls, List.getElem?_cons_succ] at hi
    simp [setCall, calls, calls_setCall h k _ i hi]
  | .ite c t e k, kn, i, g, cs, hi => by
    have ht := length_calls t kn
    have he := length_calls e kn
    simp only [setCall]
    simp only [calls] at hi
    split
    · next h1 =>
      rw [List.getElem?_append_left (by omega)] at hi
      simp only [calls]
      rw [calls_setCall h t kn i hi, List.set_append_left _ _ (by omega)]
    · split
      · next h1 h2 =>
        rw [List.getElem?_append_right (by omega), List.getElem?_append_left (by omega), ht] at hi
        simp only [calls]
        rw [calls_setCall h e kn _ hi, List.set_append_right _ _ (by omega), List.set_append_left _ _ (by omega), ht]
      · next h1 h2 =>
        rw [List.getElem?_append_right (by omega), List.getElem?_append_right (by omega), ht, he] at hi
        simp only [calls]
        rw [calls_setCall h k _ _ hi, List.set_append_right _ _ (by omega), List.set_append_right _ _ (by omega), ht, he]

/-- Redirecting a call to a function that does the same. -/
theorem eval_setCall (sem : Sem V F W) (co : String → List V → W → Option (V × W)) (h : String) : ∀ (c : Code V F) (kn : List (Option V)) (i : Nat) {g : String} {cs : List (Option V)},
    (calls c kn)[i]? = some (g, cs) → co h = co g → ∀ env w, evalC sem co (setCall h c i) env w = evalC sem co c env w
  | .ret _, _, i, g, cs, hi, _, _, _ => by simp [calls] at hi
  | .const _ k, kn, i, g, cs, hi, hc, env, w => eval_setCall sem co h k _ i hi hc _ _
  | .op _ _ k, kn, i, g, cs, hi, hc, env, w => by
    simp only [setCall, evalC]
    congr 1
    funext vs
    exact eval_setCall sem co h k _ i hi hc _ _
  | .call g' args k, kn, 0, g, cs, hi, hc, env, w => by
    simp only [calls, List.getElem?_cons_zero, Option.some.injEq, Prod.mk.injEq] at hi
    simp only [setCall, evalC, hc, hi.1]
  | .call g' args k, kn, i + 1, g, cs, hi, hc, env, w => by
    simp only [calls, List.getElem?_cons_succ] at hi
    simp only [setCall, evalC]
    congr 1
    funext vs
    congr 1
    funext r
    exact eval_setCall sem co h k _ i hi hc _ _
  | .ite c t e k, kn, i, g, cs, hi, hc, env, w => by
    have ht := length_calls t kn
    have he := length_calls e kn
    simp only [setCall]
    simp only [calls] at hi
    split
    · next h1 =>
      rw [List.getElem?_append_left (by omega)] at hi
      simp only [evalC]
      rw [eval_setCall sem co h t kn i hi hc]
    · split
      · next h1 h2 =>
        rw [List.getElem?_append_right (by omega), List.getElem?_append_left (by omega), ht] at hi
        simp only [evalC]
        rw [eval_setCall sem co h e kn _ hi hc]
      · next h1 h2 =>
        rw [List.getElem?_append_right (by omega), List.getElem?_append_right (by omega), ht, he] at hi
        simp only [evalC]
        congr 1
        funext b
        congr 1
        funext r
        exact eval_setCall sem co h k _ _ hi hc _ _

theorem mapM_agree {kn : List (Option V)} {env : List V} (h : Agree kn env) : ∀ {args : List Nat} {vs : List V}, args.mapM (env[·]?) = some vs →
    Agree (args.map fun a => (kn[a]?).join) vs
  | [], vs, hm => by
    intro i v hi
    simp at hi
  | a :: args, vs, hm => by
    simp only [List.mapM_cons, Option.bind_eq_bind, Option.bind_eq_some_iff] at hm
    obtain ⟨x, hx, xs, hxs, hp⟩ := hm
    cases hp
    intro i v hi
    cases i with
    | zero =>
      simp only [List.map_cons, List.getElem?_cons_zero, Option.some.injEq] at hi
      simp only [List.getElem?_cons_zero]
      have := h a v (by
        cases hk : kn[a]? with
        | none => rw [hk] at hi; cases hi
        | some o => rw [hk] at hi; simpa using hi)
      rw [hx] at this
      exact this
    | succ i => exact mapM_agree h hxs i v (by simpa using hi)

/-- Code does the same if its calls do. -/
theorem eval_congr (sem : Sem V F W) (c1 c2 : String → List V → W → Option (V × W)) : ∀ (c : Code V F) (kn : List (Option V)) (env : List V) (w : W),
    kn.length = env.length → Agree kn env → (∀ g cs, (g, cs) ∈ calls c kn → ∀ vs, Agree cs vs → ∀ w, c1 g vs w = c2 g vs w) →
    evalC sem c1 c env w = evalC sem c2 c env w
  | .ret _, _, _, _, _, _, _ => rfl
  | .const v k, kn, env, w, hl, ha, h =>
    eval_congr sem c1 c2 k _ _ _ (by simp [hl]) (agree_append hl ha (by rintro u ⟨⟩; rfl)) h
  | .op f args k, kn, env, w, hl, ha, h => by
    simp only [evalC]
    congr 1
    funext vs
    exact eval_congr sem c1 c2 k (kn ++ [none]) _ _ (by simp [hl]) (agree_append hl ha (by intro u h; cases h)) h
  | .call g args k, kn, env, w, hl, ha, h => by
    simp only [evalC]
    cases hm : args.mapM (env[·]?) with
    | none => rfl
    | some vs =>
      simp only [Option.bind_some]
      rw [h g _ (by simp [calls]) vs (mapM_agree ha hm)]
      congr 1
      funext r
      exact eval_congr sem c1 c2 k (kn ++ [none]) _ _ (by simp [hl]) (agree_append hl ha (by intro u h; cases h)) fun g' cs' hm' => h g' cs' (by simp [calls, hm'])
  | .ite c t e k, kn, env, w, hl, ha, h => by
    simp only [evalC]
    rw [eval_congr sem c1 c2 t kn env w hl ha fun g' cs' hm' => h g' cs' (by simp [calls, hm']),
      eval_congr sem c1 c2 e kn env w hl ha fun g' cs' hm' => h g' cs' (by simp [calls, hm'])]
    congr 1
    funext b
    congr 1
    funext r
    exact eval_congr sem c1 c2 k (kn ++ [none]) _ _ (by simp [hl]) (agree_append hl ha (by intro u h; cases h)) fun g' cs' hm' => h g' cs' (by simp [calls, hm'])

/-- With more constants known, the operands of the calls have more constants. -/
theorem calls_mono : ∀ (c : Code V F) (kn kn' : List (Option V)), kn.length = kn'.length → Sub kn kn' → ∀ g cs', (g, cs') ∈ calls c kn' → ∃ cs, (g, cs) ∈ calls c kn ∧ Sub cs cs'
  | .ret _, _, _, _, _, g, cs', h => by simp [calls] at h
  | .const v k, kn, kn', hl, hs, g, cs', h => calls_mono k _ _ (by simp [hl]) (sub_append hl hs _) g cs' h
  | .op f args k, kn, kn', hl, hs, g, cs', h => calls_mono k _ _ (by simp [hl]) (sub_append hl hs _) g cs' h
  | .call g0 args k, kn, kn', hl, hs, g, cs', h => by
    simp only [calls, List.mem_cons, Prod.mk.injEq] at h ⊢
    rcases h with ⟨rfl, rfl⟩ | h
    · refine ⟨_, .inl ⟨rfl, rfl⟩, ?_⟩
      intro i v hi
      rw [List.getElem?_map, Option.map_eq_some_iff] at hi ⊢
      obtain ⟨a, ha, hj⟩ := hi
      refine ⟨a, ha, ?_⟩
      have : kn[a]? = some (some v) := by
        cases hk : kn[a]? with
        | none => rw [hk] at hj; cases hj
        | some o => rw [hk] at hj; simpa using hj
      rw [hs a v this]
      rfl
    · obtain ⟨cs, hm, hsub⟩ := calls_mono k _ _ (by simp [hl]) (sub_append hl hs _) g cs' h
      exact ⟨cs, .inr hm, hsub⟩
  | .ite c t e k, kn, kn', hl, hs, g, cs', h => by
    simp only [calls, List.mem_append] at h ⊢
    rcases h with h | h | h
    · obtain ⟨cs, hm, hsub⟩ := calls_mono t _ _ hl hs g cs' h
      exact ⟨cs, .inl hm, hsub⟩
    · obtain ⟨cs, hm, hsub⟩ := calls_mono e _ _ hl hs g cs' h
      exact ⟨cs, .inr (.inl hm), hsub⟩
    · obtain ⟨cs, hm, hsub⟩ := calls_mono k _ _ (by simp [hl]) (sub_append hl hs _) g cs' h
      exact ⟨cs, .inr (.inr hm), hsub⟩

/-! ### Names -/

/-- The number of dashes in a name. -/
def dashes (s : String) : Nat := s.toList.count '-'

theorem dash_not_digit (n : Nat) : '-' ∉ (toString n).toList := by
  intro h
  rw [show toString n = Nat.repr n from rfl, Nat.toList_repr] at h
  have := Nat.isDigit_of_mem_toDigits (by decide) (by decide) h
  revert this
  decide

theorem uniqueName_toList (g : String) (n : Nat) : (uniqueName g n).toList = g.toList ++ '-' :: (toString n).toList := by
  simp [uniqueName]

theorem dashes_uniqueName (g : String) (n : Nat) : dashes (uniqueName g n) = dashes g + 1 := by
  unfold dashes
  rw [uniqueName_toList, List.count_append, List.count_cons_self, List.count_eq_zero_of_not_mem (dash_not_digit n)]

theorem uniqueName_inj {g h : String} {n m : Nat} (e : uniqueName g n = uniqueName h m) : g = h ∧ n = m := by
  have e := congrArg (fun s => s.toList.reverse) e
  simp only [uniqueName_toList, List.reverse_append, List.reverse_cons, List.append_assoc, List.cons_append, List.nil_append] at e
  have := Sql.split_first (d := '-') (by simpa using dash_not_digit n) (by simpa using dash_not_digit m) e
  refine ⟨String.toList_injective (List.reverse_injective this.2), ?_⟩
  have h2 := List.reverse_injective this.1
  have h3 : toString n = toString m := String.toList_injective h2
  rw [Nat.toString_eq_ofList_toDigits, Nat.toString_eq_ofList_toDigits] at h3
  have h4 := congrArg String.toList h3
  simp only [String.toList_ofList] at h4
  have h5 := congrArg (Nat.ofDigitChars 10 · 0) h4
  simpa [Nat.ofDigitChars_ten_toDigits] using h5

end Verif.Special
