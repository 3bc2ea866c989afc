/-
  Correctness of the translation of statements.
-/
import Verif.Front.TransExpr

namespace Verif.Front

section
variable {ν F Val W : Type} [DecidableEq ν] {S : Sem F Val W}

/-- What the translation of a statement guarantees. -/
structure SOk (S : Sem F Val W) (st : Stmt ν F) (nx : Nat) (s : Syms ν) (c : Code F) (nx' : Nat) (s' : Syms ν) : Prop where
  le : nx ≤ nx'
  inv : Inv s' nx'
  tail : s'.drop 1 = s.drop 1
  dom : ∀ n, (s.look n).isSome → (s'.look n).isSome
  defs : ∀ d ∈ c.allDefs, nx ≤ d ∧ d < nx'
  sim : ∀ fuel ρ σ w, Rel s ρ σ →
    RunRel (fun p q => p.2 = q.2 ∧ Rel s' q.1 p.1) (st.run S fuel σ w) (c.exec S fuel ρ w)

/-- `ow` is what `popScope` reports when the scope `s1` is left for `s`. -/
structure Ow (s s1 : Syms ν) (ow : Tab ν Nat) : Prop where
  uniq : ow.Uniq
  dom : ∀ n ∈ ow.map Prod.fst, (s.look n).isSome
  look : ∀ n, (s.look n).isSome → s1.look n = (ow.find n).orElse fun _ => s.look n
  mem : ∀ e ∈ ow, ∃ t ∈ s1, e ∈ t

theorem pop_ok {s s1 : Syms ν} {nx : Nat} (hi : Inv s1 nx) (ht : s1.drop 1 = s) : ∃ ow, s1.pop = .ok (ow, s) ∧ Ow s s1 ow := by
  cases s1 with
  | nil => exact absurd rfl hi.ne
  | cons t s2 =>
    simp only [List.drop_succ_cons, List.drop_zero] at ht
    subst ht
    have key : ∀ n, Scopes.hasFrom (t :: s2) n 1 = (Scopes.look s2 n).isSome := fun n => by
      rw [Scopes.hasFrom_eq, List.drop_succ_cons, List.drop_zero]
    refine ⟨_, rfl, ?_, ?_, ?_, ?_⟩
    · exact List.Sublist.nodup (List.Sublist.map _ List.filter_sublist) (hi.uniq t (by simp))
    · intro n hn
      obtain ⟨e, he, rfl⟩ := List.mem_map.1 hn
      have := (List.mem_filter.1 he).2
      rwa [key] at this
    · intro n hn
      rw [Tab.find_filter (fun n => Scopes.hasFrom (t :: s2) n 1), key, if_pos hn]
      rfl
    · intro e he
      exact ⟨t, by simp, (List.mem_filter.1 he).1⟩

theorem find_none_of_not_mem {t : Tab ν Nat} {n : ν} (h : n ∉ t.map Prod.fst) : t.find n = none := by
  cases hf : t.find n with
  | none => rfl
  | some i => exact absurd (List.mem_map.2 ⟨_, mem_of_find hf, rfl⟩) h

/-- Leaving a scope: values of the variables that stay. -/
theorem Ow.leave_val {s s1 : Syms ν} {ow : Tab ν Nat} {ρ1 : Env Val} {σ σ1 : Vars ν Val} (ho : Ow s s1 ow) (hr : Rel s1 ρ1 σ1)
    (hd : ∀ n, (σ n).isSome = (s.look n).isSome) (n : ν) (hn : (s.look n).isSome) :
    ∃ v, ρ1 (valOfWith s ow n) = some v ∧ leave σ σ1 n = some v := by
  have hl := ho.look n hn
  obtain ⟨j, hj⟩ := Option.isSome_iff_exists.1 hn
  have : ∃ i, s1.look n = some i ∧ valOfWith s ow n = i.value := by
    rw [hl, valOfWith, hj]
    cases ow.find n with
    | none => exact ⟨j, rfl, rfl⟩
    | some i => exact ⟨i, rfl, rfl⟩
  obtain ⟨i, h1, h2⟩ := this
  obtain ⟨v, hv1, hv2⟩ := hr.1 n i h1
  refine ⟨v, by rw [h2]; exact hv1, ?_⟩
  simp only [leave, hd n, hn, if_true, hv2]

theorem leave_none {s : Syms ν} {σ σ1 : Vars ν Val} (hd : ∀ n, (σ n).isSome = (s.look n).isSome) (n : ν) (hn : s.look n = none) :
    leave σ σ1 n = none := by
  have := hd n
  rw [hn] at this
  simp only [leave, this]; rfl

theorem valOf_eq {s : Syms ν} {n : ν} {i : Info Nat} (h : s.look n = some i) : valOf s n = i.value := by simp [valOf, h]

theorem valOfWith_none {s : Syms ν} {t : Tab ν Nat} {n : ν} (h : t.find n = none) : valOfWith s t n = valOf s n := by
  simp [valOfWith, valOf, h]

/-- Running the body of a branch or loop, and reading what it hands out for the names `ns`. -/
theorem branch {st : Stmt ν F} {nx1 nx2 : Nat} {s sb s1 : Syms ν} {c : Code F} {ow : Tab ν Nat} {ns : List ν} {nx : Nat}
    (hb : SOk S st nx1 sb c nx2 s1) (hi : Inv s nx) (hnx : nx ≤ nx1) (ho : Ow s s1 ow) (hns : ∀ n ∈ ns, (s.look n).isSome)
    (hon : ∀ n ∈ ow.map Prod.fst, n ∈ ns) (fuel : Nat) (ρ : Env Val) (σ σb : Vars ν Val) (w : W) (hr : Rel s ρ σ) (hrb : Rel sb ρ σb) :
    RunRel (fun p q => p.2 = q.2 ∧ ns.map p.1 = q.1.map some ∧ ∀ n, n ∉ ns → p.1 n = σ n)
      (st.run S fuel σb w >>= fun q => .ok (leave σ q.1, q.2))
      (c.exec S fuel ρ w >>= fun p => p.1.getAll (ns.map (valOfWith s ow)) >>= fun ys => .ok (ys, p.2)) := by
  refine (hb.sim fuel ρ σb w hrb).bind fun p q _ hq ⟨h1, h2⟩ => ?_
  have hv := fun n hn => ho.leave_val h2 hr.isSome n hn
  have : ∃ ys : List Val, ns.map (leave σ p.1) = ys.map some ∧ (ns.map (valOfWith s ow)).map q.1 = ys.map some := by
    clear hon
    induction ns with
    | nil => exact ⟨[], rfl, rfl⟩
    | cons n ns ih =>
      obtain ⟨ys, g1, g2⟩ := ih fun m hm => hns m (by simp [hm])
      obtain ⟨v, e1, e2⟩ := hv n (hns n (by simp))
      exact ⟨v :: ys, by simp [g1, e2], by simp only [List.map_cons, g2, e1]⟩
  obtain ⟨ys, g1, g2⟩ := this
  rw [getAll_eq.2 g2]
  refine RunRel.ok ⟨h1, g1, fun n hn => ?_⟩
  cases hl : s.look n with
  | none => dsimp only; rw [leave_none hr.isSome n hl, hr.2 n hl]
  | some i =>
    obtain ⟨v, e1, e2⟩ := hv n (by simp [hl])
    have hf : ow.find n = none := find_none_of_not_mem fun h => hn (hon n h)
    rw [valOfWith_none hf, valOf_eq hl] at e1
    obtain ⟨v', f1, f2⟩ := hr.1 n i hl
    have := frame_lt (fun d hd => (hb.defs d hd).1) hq i.value (Nat.lt_of_lt_of_le (hi.look_lt hl) hnx)
    rw [this, f1] at e1
    simp only at e2 ⊢
    rw [e2, ← e1, f2]

/-- Binding the results of an operation with regions to their names. -/
theorem putVals_ok {s : Syms ν} {nx a : Nat} {ns : List ν} (hi : Inv s nx) (hn : ns.Nodup) (hns : ∀ n ∈ ns, (s.look n).isSome) (ha : nx ≤ a) :
    ∃ s', putVals s ns (news a ns.length) = .ok s' ∧ Inv s' (a + ns.length) ∧ s'.drop 1 = s.drop 1 ∧
      (∀ n, (s.look n).isSome → (s'.look n).isSome) ∧
      ∀ (ρ ρ' : Env Val) (σ σ' : Vars ν Val) (xs : List Val), Rel s ρ σ → (∀ n, n ∉ ns → σ' n = σ n) → (∀ v, v < nx → ρ' v = ρ v) →
        ns.map σ' = xs.map some → (news a ns.length).map ρ' = xs.map some → Rel s' ρ' σ' := by
  obtain ⟨u, s0, rfl⟩ : ∃ t s0, s = t :: s0 := by
    cases s with
    | nil => exact absurd rfl hi.ne
    | cons t s0 => exact ⟨t, s0, rfl⟩
  have hlen : ns.length = (news a ns.length).length := (length_news _ _).symm
  have hu := newTab_uniq (vs := news a ns.length) hn
  have hlook := fun n => look_putTab (u := u) (s := s0) hu n
  refine ⟨_, putTab_eq (newTab ns (news a ns.length)) u s0, ⟨by simp, ?_, ?_, ?_⟩, rfl, ?_, ?_⟩
  · intro t ht
    rcases List.mem_cons.1 ht with rfl | ht
    · exact uniq_foldl _ _ (hi.uniq u (by simp))
    · exact hi.uniq t (by simp [ht])
  · intro t ht e he
    rcases List.mem_cons.1 ht with rfl | ht
    · have := mem_foldl_assign he
      obtain ⟨x, hx, hxe⟩ := List.mem_map.1 this
      rw [← hxe]
      rcases List.mem_append.1 hx with hx | hx
      · obtain ⟨p, hp, rfl⟩ := List.mem_map.1 hx
        exact (mem_news.1 (List.of_mem_zip hp).2).2
      · have := hi.lt u (by simp) x hx; omega
    · have := hi.lt t (by simp [ht]) e he; omega
  · intro n m i j hn1 hm1 hij
    rw [hlook] at hn1 hm1
    cases hf : (newTab ns (news a ns.length)).find n with
    | some i' =>
      rw [hf] at hn1; cases hn1
      have g1 := (find_newTab hn n i).1 hf
      cases hf2 : (newTab ns (news a ns.length)).find m with
      | some j' =>
        rw [hf2] at hm1; cases hm1
        have g2 := (find_newTab hn m j).1 hf2
        rw [← hij] at g2
        have key : ∀ (as : List ν) (bs : List Nat), bs.Nodup → ∀ x y b, (x, b) ∈ as.zip bs → (y, b) ∈ as.zip bs → x = y := by
          intro as
          induction as with
          | nil => simp
          | cons a' as ih =>
            intro bs hbs x y b hx hy
            cases bs with
            | nil => simp at hx
            | cons b' bs =>
              have hb := List.nodup_cons.1 hbs
              simp only [List.zip_cons_cons, List.mem_cons, Prod.mk.injEq] at hx hy
              rcases hx with ⟨rfl, rfl⟩ | hx <;> rcases hy with ⟨rfl, hy2⟩ | hy
              · rfl
              · exact absurd (List.of_mem_zip hy).2 hb.1
              · subst hy2; exact absurd (List.of_mem_zip hx).2 hb.1
              · exact ih bs hb.2 x y b hx hy
        exact key ns _ (nodup_news _ _) n m _ g1.1 g2.1
      | none =>
        rw [hf2] at hm1
        have := hi.look_lt hm1
        have := (mem_news.1 (List.of_mem_zip g1.1).2).1
        omega
    | none =>
      rw [hf] at hn1
      cases hf2 : (newTab ns (news a ns.length)).find m with
      | some j' =>
        rw [hf2] at hm1; cases hm1
        have g2 := (find_newTab hn m j).1 hf2
        have := hi.look_lt hn1
        have := (mem_news.1 (List.of_mem_zip g2.1).2).1
        omega
      | none =>
        rw [hf2] at hm1
        exact hi.inj n m i j hn1 hm1 hij
  · intro n hn1
    rw [hlook]
    cases (newTab ns (news a ns.length)).find n with
    | some i => rfl
    | none => exact hn1
  · intro ρ ρ' σ σ' xs hr ho hf h1 h2
    refine ⟨fun n i hl => ?_, fun n hl => ?_⟩
    · rw [hlook] at hl
      cases hfn : (newTab ns (news a ns.length)).find n with
      | some i' =>
        rw [hfn] at hl; cases hl
        have g := (find_newTab hn n i).1 hfn
        have e := zip_of_map (h1.trans h2.symm) _ g.1
        simp only at e
        have : (σ' n).isSome := by
          have hm : σ' n ∈ ns.map σ' := List.mem_map_of_mem (List.of_mem_zip g.1).1
          rw [h1] at hm
          obtain ⟨x, _, hx⟩ := List.mem_map.1 hm
          rw [← hx]; rfl
        obtain ⟨v, hv⟩ := Option.isSome_iff_exists.1 this
        exact ⟨v, by rw [← e, hv], hv⟩
      | none =>
        rw [hfn] at hl
        have hnn := (find_newTab_none hlen n).1 hfn
        rw [ho n hnn, hf _ (hi.look_lt hl)]
        exact hr.1 n i hl
    · rw [hlook] at hl
      cases hfn : (newTab ns (news a ns.length)).find n with
      | some i' => rw [hfn] at hl; cases hl
      | none =>
        rw [hfn] at hl
        have hnn := (find_newTab_none hlen n).1 hfn
        rw [ho n hnn]
        exact hr.2 n hl

/-- Ending a block: the overwritten values move to the enclosing scope. -/
theorem putOw_ok {s s1 : Syms ν} {nx : Nat} {ow : Tab ν Nat} (hne : s ≠ []) (hu : ∀ t ∈ s, t.Uniq) (hlt : ∀ t ∈ s, ∀ e ∈ t, e.2.value < nx)
    (hi1 : Inv s1 nx) (ho : Ow s s1 ow) (hdom : ∀ n, (s.look n).isSome → (s1.look n).isSome) :
    ∃ s', s.putTab ow = .ok s' ∧ Inv s' nx ∧ s'.drop 1 = s.drop 1 ∧ (∀ n, (s'.look n).isSome = (s.look n).isSome) ∧
      (∀ n, (s.look n).isSome → s'.look n = s1.look n) ∧
      ∀ (ρ1 : Env Val) (σ σ1 : Vars ν Val), (∀ n, (σ n).isSome = (s.look n).isSome) → Rel s1 ρ1 σ1 → Rel s' ρ1 (leave σ σ1) := by
  obtain ⟨u, s0, rfl⟩ : ∃ t s0, s = t :: s0 := by
    cases s with
    | nil => exact absurd rfl hne
    | cons t s0 => exact ⟨t, s0, rfl⟩
  have hlook := fun n => look_putTab (u := u) (s := s0) ho.uniq n
  have hsome : ∀ n, (Scopes.look (ow.foldl (fun u e => u.assign e.1 e.2) u :: s0) n).isSome = (Scopes.look (u :: s0) n).isSome := by
    intro n
    rw [hlook]
    cases hf : ow.find n with
    | none => rfl
    | some i =>
      have := ho.dom n (List.mem_map.2 ⟨_, mem_of_find hf, rfl⟩)
      simp [this]
  have heq : ∀ n, (Scopes.look (u :: s0) n).isSome → Scopes.look (ow.foldl (fun u e => u.assign e.1 e.2) u :: s0) n = s1.look n := by
    intro n hn
    rw [hlook, ho.look n hn]
  refine ⟨_, putTab_eq ow u s0, ⟨by simp, ?_, ?_, ?_⟩, rfl, hsome, heq, ?_⟩
  · intro t ht
    rcases List.mem_cons.1 ht with rfl | ht
    · exact uniq_foldl _ _ (hu u (by simp))
    · exact hu t (by simp [ht])
  · intro t ht e he
    rcases List.mem_cons.1 ht with rfl | ht
    · have := mem_foldl_assign he
      obtain ⟨x, hx, hxe⟩ := List.mem_map.1 this
      rw [← hxe]
      rcases List.mem_append.1 hx with hx | hx
      · obtain ⟨t, ht, hm⟩ := ho.mem x hx
        exact hi1.lt t ht x hm
      · exact hlt u (by simp) x hx
    · exact hlt t (by simp [ht]) e he
  · intro n m i j hn hm hij
    have h1 : (Scopes.look (u :: s0) n).isSome := by rw [← hsome, hn]; rfl
    have h2 : (Scopes.look (u :: s0) m).isSome := by rw [← hsome, hm]; rfl
    rw [heq n h1] at hn
    rw [heq m h2] at hm
    exact hi1.inj n m i j hn hm hij
  · intro ρ1 σ σ1 hd hr
    refine ⟨fun n i hl => ?_, fun n hl => ?_⟩
    · have h1 : (Scopes.look (u :: s0) n).isSome := by rw [← hsome, hl]; rfl
      rw [heq n h1] at hl
      obtain ⟨v, e1, e2⟩ := hr.1 n i hl
      refine ⟨v, e1, ?_⟩
      simp only [leave, hd n, h1, if_true, e2]
    · refine leave_none (s := u :: s0) hd n ?_
      have := hsome n
      rw [hl] at this
      cases hx : Scopes.look (u :: s0) n with
      | none => rfl
      | some i => rw [hx] at this; cases this

/-! ### If -/

theorem mergeSymbols_nodup {a b : Tab ν Nat} (ha : a.Uniq) (hb : b.Uniq) : (mergeSymbols a b).Nodup := by
  unfold mergeSymbols
  rw [List.nodup_append]
  refine ⟨ha, List.Sublist.nodup List.filter_sublist hb, ?_⟩
  intro x hx y hy e
  subst e
  have := (List.mem_filter.1 hy).2
  simp at this
  obtain ⟨p, hp, e⟩ := List.mem_map.1 hx
  exact this p.2 (by rw [← e]; exact hp)

theorem mem_mergeSymbols {a b : Tab ν Nat} {n : ν} : n ∈ mergeSymbols a b ↔ n ∈ a.map Prod.fst ∨ n ∈ b.map Prod.fst := by
  unfold mergeSymbols
  simp only [List.mem_append, List.mem_filter]
  by_cases h : n ∈ a.map Prod.fst
  · exact ⟨fun _ => .inl h, fun _ => .inl h⟩
  · simp [h]

/-- The end of an if-statement, given the two branches. -/
theorem finishIf_ok {s : Syms ν} {nx v : Nat} {tc ec c : Code F} {owT owE : Tab ν Nat} {nx' : Nat} {s' : Syms ν} {nx0 : Nat} (hi : Inv s nx0)
    (hnx : nx0 ≤ nx) (uT : owT.Uniq) (uE : owE.Uniq) (dT : ∀ n ∈ owT.map Prod.fst, (s.look n).isSome)
    (dE : ∀ n ∈ owE.map Prod.fst, (s.look n).isSome) (h : finishIf s v tc ec owT owE nx = .ok (c, nx', s')) :
    nx ≤ nx' ∧ Inv s' nx' ∧ s'.drop 1 = s.drop 1 ∧ (∀ n, (s.look n).isSome → (s'.look n).isSome) ∧
    (∀ d ∈ c.allDefs, d ∈ tc.allDefs ∨ d ∈ ec.allDefs ∨ (nx ≤ d ∧ d < nx')) ∧
    ∀ fuel (ρ : Env Val) (σ : Vars ν Val) (w : W) (x : Val) (thn els : Run (Vars ν Val × W)), Rel s ρ σ → ρ v = some x →
      RunRel (fun p q => p.2 = q.2 ∧ (mergeSymbols owT owE).map p.1 = q.1.map some ∧ ∀ n, n ∉ mergeSymbols owT owE → p.1 n = σ n) thn
        (tc.exec S fuel ρ w >>= fun p => p.1.getAll ((mergeSymbols owT owE).map (valOfWith s owT)) >>= fun ys => .ok (ys, p.2)) →
      RunRel (fun p q => p.2 = q.2 ∧ (mergeSymbols owT owE).map p.1 = q.1.map some ∧ ∀ n, n ∉ mergeSymbols owT owE → p.1 n = σ n) els
        (ec.exec S fuel ρ w >>= fun p => p.1.getAll ((mergeSymbols owT owE).map (valOfWith s owE)) >>= fun ys => .ok (ys, p.2)) →
      RunRel (fun p q => p.2 = q.2 ∧ Rel s' q.1 p.1) (if S.toBool x then thn else els) (c.exec S fuel ρ w) := by
  have hns : ∀ n ∈ mergeSymbols owT owE, (s.look n).isSome := fun n hn => (mem_mergeSymbols.1 hn).elim (dT n) (dE n)
  have hnd := mergeSymbols_nodup uT uE
  obtain ⟨s2, p1, p2, p3, p4, p5⟩ := putVals_ok (Val := Val) hi hnd hns hnx
  simp only [finishIf, getValsWith_ok hns, p1] at h
  cases h
  refine ⟨by omega, p2, p3, p4, ?_, ?_⟩
  · intro d hd
    simp only [Code.allDefs, List.append_nil, List.mem_append, mem_news] at hd
    rcases hd with (hd | hd) | hd
    · exact .inr (.inr hd)
    · exact .inl hd
    · exact .inr (.inl hd)
  · intro fuel ρ σ w x thn els hr hx ht he
    simp only [Code.exec, get_eq.2 hx, Run.ok_bind]
    have key : RunRel (fun p q => p.2 = q.2 ∧ (mergeSymbols owT owE).map p.1 = q.1.map some ∧ ∀ n, n ∉ mergeSymbols owT owE → p.1 n = σ n)
        (if S.toBool x then thn else els)
        (if S.toBool x then tc.exec S fuel ρ w >>= fun p => p.1.getAll ((mergeSymbols owT owE).map (valOfWith s owT)) >>= fun ys => .ok (ys, p.2)
          else ec.exec S fuel ρ w >>= fun p => p.1.getAll ((mergeSymbols owT owE).map (valOfWith s owE)) >>= fun ys => .ok (ys, p.2)) := by
      split
      · exact ht
      · exact he
    refine key.bind_right fun p q _ _ ⟨g1, g2, g3⟩ => ?_
    have hlen : (news nx (mergeSymbols owT owE).length).length = q.1.length := by
      rw [length_news]
      have := congrArg List.length g2
      simpa using this
    obtain ⟨ρ', e1, e2, e3⟩ := setAll_ok ρ hlen (nodup_news _ _)
    refine ⟨(ρ', q.2), by rw [e1]; rfl, g1, ?_⟩
    exact p5 ρ ρ' σ p.1 q.1 hr g3 (fun u hu => e3 u fun hm => by have := (mem_news.1 hm).1; omega) g2 e2

end

end Verif.Front
