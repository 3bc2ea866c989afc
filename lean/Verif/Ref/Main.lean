import Verif.Ref.Proof
import Mathlib.Tactic.Linarith

namespace Verif.Ref

section
variable {F V W : Type} {ty : Nat → Ty} {L : Nat → Prop} {S : Sem F V W} {call1 : Nat → List (RVal V) → W × Heap → Run (List (RVal V) × (W × Heap))}
  {call0 : Nat → List (RVal V) → W → Run (List (RVal V) × W)} {fuel : Nat}

/-- What a call does to the counters: it takes a reference to each argument and gives one to each result. -/
def CallGood (L : Nat → Prop) (call1 : Nat → List (RVal V) → W × Heap → Run (List (RVal V) × (W × Heap)))
    (call0 : Nat → List (RVal V) → W → Run (List (RVal V) × W)) : Prop :=
  ∀ g xs w (fr : Heap), (∀ s, L s → 1 ≤ fr s) → call1 g xs (w, fun o => fr o + cnt xs o) = wrap fr (call0 g xs w)

theorem alive_of {h : Heap} {xs : List (RVal V)} (hx : ∀ o, RVal.obj o ∈ xs → h o ≠ 0) : alive h xs = true := by
  rw [alive, List.all_eq_true]
  intro x hm
  cases x with
  | obj o => simpa using hx o hm
  | sca y => rfl

theorem wrap_bind {α : Type} (fr : Heap) (m : Run α) (f : α → Run (List (RVal V) × W)) :
    wrap fr (m >>= f) = m >>= fun a => wrap fr (f a) := by cases m <;> rfl

/-- A loop keeps the counters in order if its body does. -/
theorem iterate_wrap {fr : Heap} {f1 : List (RVal V) × (W × Heap) → Run ((List (RVal V) × (W × Heap)) ⊕ (List (RVal V) × (W × Heap)))}
    {f0 : List (RVal V) × W → Run ((List (RVal V) × W) ⊕ (List (RVal V) × W))}
    (hf : ∀ xs w, f1 (xs, (w, fun o => fr o + cnt xs o)) = f0 (xs, w) >>= fun q =>
      match q with
      | .inl p => .ok (.inl (p.1, (p.2, fun o => fr o + cnt p.1 o)))
      | .inr p => .ok (.inr (p.1, (p.2, fun o => fr o + cnt p.1 o)))) (n : Nat) (xs : List (RVal V)) (w : W) :
    iterate f1 n (xs, (w, fun o => fr o + cnt xs o)) = wrap fr (iterate f0 n (xs, w)) := by
  induction n generalizing xs w with
  | zero => rfl
  | succ n ih =>
    simp only [iterate, hf]
    cases f0 (xs, w) with
    | error e => rfl
    | ok q =>
      cases q with
      | inl p => exact ih p.1 p.2
      | inr p => rfl

theorem foldRun_wrap {α : Type} {fr : Heap} {f1 : List (RVal V) × (W × Heap) → α → Run (List (RVal V) × (W × Heap))}
    {f0 : List (RVal V) × W → α → Run (List (RVal V) × W)}
    (hf : ∀ xs w z, f1 (xs, (w, fun o => fr o + cnt xs o)) z = wrap fr (f0 (xs, w) z)) (zs : List α) (xs : List (RVal V)) (w : W) :
    foldRun f1 (xs, (w, fun o => fr o + cnt xs o)) zs = wrap fr (foldRun f0 (xs, w) zs) := by
  induction zs generalizing xs w with
  | nil => rfl
  | cons z zs ih =>
    simp only [foldRun, hf]
    cases f0 (xs, w) z with
    | error e => rfl
    | ok p => exact ih p.1 p.2

theorem count_live {us own : List Nat} (hn : own.Nodup) (a : Nat) :
    (live ty us own).count a = if a ∈ own ∧ (ty a).managed = true ∧ a ∈ us then 1 else 0 := by
  rw [live, List.Nodup.count (hn.filter _)]
  simp only [show (List.filter (fun v => (ty v).managed && us.contains v) own) = live ty us own from rfl, mem_live]

theorem count_managedOf (vs : List Nat) (a : Nat) : (managedOf ty vs).count a = if (ty a).managed = true then vs.count a else 0 := by
  split
  · rename_i h
    exact List.count_filter (p := fun v => (ty v).managed) h
  · rename_i h
    rw [List.count_eq_zero]
    intro hm
    exact h (List.mem_filter.1 hm).2

theorem count_dupIncs (a : Nat) (h : (ty a).managed = true) (vs pre : List Nat) :
    2 * (dupIncs ty pre vs).count a + vs.count a = 2 * vs.count a * pre.count a + vs.count a * vs.count a := by
  induction vs generalizing pre with
  | nil => simp [dupIncs]
  | cons v vs ih =>
    have := ih (pre ++ [v])
    simp only [dupIncs, List.count_append, List.count_replicate, List.count_cons, List.count_nil] at *
    by_cases e : v = a
    · subst e
      simp only [h, if_true, BEq.rfl, Nat.zero_add] at *
      nlinarith
    · simp only [beq_eq_false_iff_ne.2 e, Nat.add_zero] at *
      simp_all

theorem count_dupIncs_unmanaged (a : Nat) (h : (ty a).managed = false) (vs pre : List Nat) : (dupIncs ty pre vs).count a = 0 := by
  induction vs generalizing pre with
  | nil => rfl
  | cons v vs ih =>
    simp only [dupIncs, List.count_append, List.count_replicate, ih]
    by_cases e : v = a
    · subst e; simp [h]
    · simp [e]

/-- The incs before a terminator of a loop or function: with them there is one reference for each operand. -/
theorem term_perm {own vs : List Nat} (hn : own.Nodup) (hc : ∀ v ∈ vs, (ty v).managed → v ∈ own ∧ vs.count v ≤ 2) :
    (managedOf ty vs).Perm (live ty vs own ++ dupIncs ty [] vs) := by
  rw [List.perm_iff_count]
  intro a
  rw [List.count_append, count_live hn, count_managedOf]
  cases h : (ty a).managed with
  | false => simp [count_dupIncs_unmanaged a h]
  | true =>
    have := count_dupIncs a h vs []
    by_cases ha : a ∈ vs
    · have h1 := hc a ha h
      have h2 : 1 ≤ vs.count a := List.one_le_count_iff.2 ha
      have h3 : vs.count a = 1 ∨ vs.count a = 2 := by omega
      rcases h3 with e | e <;> simp [e, ha, h1.1] at this ⊢ <;> omega
    · rw [List.count_eq_zero.2 ha] at this ⊢
      simp [ha] at this ⊢; omega

/-- The incs before the yield of an scf.if. -/
theorem yield_perm {own vs : List Nat} (hn : own.Nodup) (hc : ∀ v ∈ own, (ty v).managed → vs.count v ≤ 1) :
    (managedOf ty vs).Perm (live ty vs own ++ (managedOf ty vs).filter fun v => !own.contains v) := by
  rw [List.perm_iff_count]
  intro a
  rw [List.count_append, count_live hn]
  by_cases ho : a ∈ own
  · have e : ((managedOf ty vs).filter fun v => !own.contains v).count a = 0 := by
      rw [List.count_eq_zero]; intro hm; simp [ho] at hm
    rw [e, count_managedOf]
    cases h : (ty a).managed with
    | false => simp
    | true =>
      have h1 := hc a ho h
      by_cases ha : a ∈ vs
      · have h2 : 1 ≤ vs.count a := List.one_le_count_iff.2 ha
        simp [ha, ho]; omega
      · simp [ha, List.count_eq_zero.2 ha]
  · rw [List.count_filter (by simpa using ho)]
    simp [ho]

/-- The pass keeps the counters in order, for the rest of any block. -/
theorem pass_good (hcall : CallGood L call1 call0) (c : Ir F) : Good L S ty call1 call0 fuel c := by
  induction c with
  | term vs =>
    intro ifb own vis ρ w h fr P hh
    obtain ⟨xs, g1, g2, _⟩ := getAll_typed P.typed (vs := vs) P.wf
    have key : ∀ incsL : List Nat, (managedOf ty vs).Perm (live ty vs own ++ incsL) → (∀ v ∈ incsL, v ∈ vs) →
        (Ir.incs incsL (.term vs : Ir F)).exec S.counting ty call1 fuel ρ (w, h) =
          wrap fr ((Ir.term vs : Ir F).exec S.plain ty call0 fuel ρ w) := by
      intro il hp hm
      have hman : ∀ v ∈ il, (ty v).managed = true := fun v hv =>
        (List.mem_filter.1 (hp.mem_iff.2 (List.mem_append_right _ hv))).2
      rw [exec_incs P.typed (fun v hv => ⟨P.wf v (hm v hv), hman v hv⟩) _ w h (fun o => fr o + cnt xs o)]
      · simp only [Ir.exec, g1, ok_bind, wrap_ok]
      · intro v hv o ho
        have := P.alive_use (show v ∈ (Ir.term vs : Ir F).uses from hm v hv) (P.wf v (hm v hv)) ho
        rw [hh]; omega
      · intro o
        rw [hh, g2, held_managed P.typed P.wf, held_perm ρ hp, held_append]
        simp only [Ir.uses]; omega
    cases ifb with
    | true =>
      refine key _ (yield_perm P.nodup P.tame) fun v hv => ?_
      exact (List.mem_filter.1 (List.mem_filter.1 hv).1).1
    | false =>
      have ht : ∀ v ∈ vs, (ty v).managed → v ∈ own ∧ vs.count v ≤ 2 := P.tame
      have hp := term_perm P.nodup ht
      refine key _ hp fun v hv => ?_
      exact (List.mem_filter.1 (hp.mem_iff.2 (List.mem_append_right _ hv))).1
  | op rs f as k ih =>
    intro ifb own vis ρ w h fr P hh
    obtain ⟨w1, w2, w3, w4⟩ := P.wf
    obtain ⟨xs, g1, g2, g3⟩ := getAll_typed P.typed w1
    have ha : alive h xs = true := by
      apply alive_of
      intro o ho
      obtain ⟨v, hv, e⟩ := g3 o ho
      have := P.alive_use (show v ∈ (Ir.op rs f as k).uses by simp [Ir.uses, hv]) (w1 v hv) e
      rw [hh]; omega
    simp only [pass, Ir.exec, g1, ok_bind, Sem.counting, Sem.plain, if_pos ha]
    exact finish ih w4 P.tame w2 w3 P.nodup P.ownVis P.typed (fun v hu => P.borrowed v (by simp [Ir.uses, hu])) P.lits
      (fun o => by simp only [hh, Ir.uses])
  | cast r a k ih =>
    intro ifb own vis ρ w h fr P hh
    obtain ⟨w1, w2, w3⟩ := P.wf
    obtain ⟨x, g1, g2⟩ := get_typed P.typed w1
    have e : held ρ [a] = cnt [x] := by
      funext o; simp only [held, cnt, List.countP_cons, List.countP_nil, ptsTo, g2]; cases x <;> rfl
    rw [pass, exec_incs P.typed (vs := managedOf ty [a]) (fun v hv => ?_) _ w h (fun o => h o + cnt [x] o) (fun v hv o ho => ?_) (fun o => ?_)]
    · simp only [Ir.exec, g1, ok_bind]
      exact finish ih w3 P.tame (by simp) (by simpa using w2) P.nodup P.ownVis P.typed (fun v hu => P.borrowed v (by simp [Ir.uses, hu])) P.lits
        (fun o => by simp only [hh, Ir.uses, List.singleton_append])
    · have hm := List.mem_filter.1 hv
      simp only [List.mem_singleton] at hm
      exact ⟨hm.1 ▸ w1, hm.2⟩
    · have hm := List.mem_filter.1 hv
      simp only [List.mem_singleton] at hm
      have := P.alive_use (show v ∈ (Ir.cast r a k).uses by simp [Ir.uses, hm.1]) (hm.1 ▸ w1) ho
      rw [hh]; omega
    · rw [← e, held_managed P.typed (vs := [a]) (by simpa using w1)]
  | sel r c a b k ih =>
    intro ifb own vis ρ w h fr P hh
    obtain ⟨w1, w2, w3⟩ := P.wf
    obtain ⟨t1, t2⟩ := P.tame
    obtain ⟨x, g1, _⟩ := get_typed P.typed (w1 c (by simp))
    obtain ⟨y, g2, e2⟩ := get_typed P.typed (w1 a (by simp))
    obtain ⟨z, g3, e3⟩ := get_typed P.typed (w1 b (by simp))
    simp only [pass, Ir.exec, g1, g2, g3, ok_bind]
    cases x with
    | obj o => rfl
    | sca x =>
      simp only [Machine.test, ok_bind]
      rw [show S.counting.toBool = S.toBool from rfl, show S.plain.toBool = S.toBool from rfl]
      generalize hq : (if S.toBool x then y else z) = q
      have hal : ∀ o, q = .obj o → h o ≠ 0 := by
        intro o ho
        rw [ho] at hq
        have : 1 ≤ fr o + held ρ (live ty (Ir.sel r c a b k).uses own) o := by
          split at hq
          · exact P.alive_use (v := a) (by simp [Ir.uses]) (w1 a (by simp)) (by rw [e2, hq])
          · exact P.alive_use (v := b) (by simp [Ir.uses]) (w1 b (by simp)) (by rw [e3, hq])
        rw [hh]; omega
      rw [← finish (h := fun o => h o + cnt [q] o) (used := [c, a, b]) (rs := [r]) (ys := [q]) (own := own) (ifb := ifb) (w := w) ih w3 t2 (by simp) (by simpa using w2) P.nodup P.ownVis P.typed
        (fun v hu => P.borrowed v (by simp [Ir.uses, hu])) P.lits (fun o => by simp only [hh, Ir.uses])]
      cases hb : ρ.bind ty [r] [q] with
      | error e => rfl
      | ok ρ' =>
        have ht' := typed_bind hb (by simp) P.typed
        obtain ⟨b1, b2, b3⟩ := bind_facts hb (by simp)
        simp only [ok_bind]
        cases htr : ty r with
        | obj => exact absurd htr t1
        | str =>
          rw [if_pos rfl]
          refine exec_incs ht' (fun v hv => ?_) _ w h _ (fun v hv o ho => ?_) (fun o => by rw [b2])
          · rw [List.mem_singleton] at hv; subst hv; exact ⟨.inr (by simp), by rw [htr]; rfl⟩
          · rw [List.mem_singleton] at hv; subst hv
            apply hal
            simp only [Env.bind] at hb
            split at hb
            · cases hb
              simp only [Env.upd, if_true] at ho
              exact Option.some.inj ho
            · cases hb
        | sca =>
          rw [if_neg (by decide)]
          have : (fun o => h o + cnt [q] o) = h := by
            funext o
            simp only [Env.bind] at hb
            split at hb
            · rename_i hf
              rw [htr] at hf
              cases q with
              | obj p => cases hf
              | sca p => simp [cnt]
            · cases hb
          rw [this]; rfl
  | lit r s k ih =>
    intro ifb own vis ρ w h fr P hh
    obtain ⟨w2, w3⟩ := P.wf
    obtain ⟨t1, t2⟩ := P.tame
    simp only [pass, Ir.exec, if_pos t1]
    have hs : 1 ≤ fr s := P.lits.2 s (P.lits.1 s (by simp [Ir.lits]))
    rw [← finish (h := fun o => h o + cnt [RVal.obj (V := V) s] o) (used := []) (rs := [r]) (ys := [.obj s]) (own := own) (ifb := ifb) (w := w) ih w3 t2 (by simp) (by simpa using w2) P.nodup P.ownVis P.typed
        (fun v hu => P.borrowed v (by simp [Ir.uses, hu])) ⟨fun s hs => P.lits.1 s (by simp [Ir.lits, hs]), P.lits.2⟩ (fun o => by simp only [hh, Ir.uses, List.nil_append])]
    cases hb : ρ.bind ty [r] [.obj s] with
    | error e => rfl
    | ok ρ' =>
      have ht' := typed_bind hb (by simp) P.typed
      obtain ⟨b1, b2, b3⟩ := bind_facts hb (by simp)
      simp only [ok_bind]
      refine exec_incs ht' (fun v hv => ?_) _ w h _ (fun v hv o ho => ?_) (fun o => by rw [b2])
      · rw [List.mem_singleton] at hv; subst hv; exact ⟨.inr (by simp), by rw [t1]; rfl⟩
      · rw [List.mem_singleton] at hv; subst hv
        simp only [Env.bind] at hb
        split at hb
        · cases hb
          simp only [Env.upd, if_true, Option.some.injEq, RVal.obj.injEq] at ho
          subst ho; rw [hh]; omega
        · cases hb
  | call rs g as k ih =>
    intro ifb own vis ρ w h fr P hh
    obtain ⟨w1, w2, w3, w4⟩ := P.wf
    obtain ⟨xs, g1, g2, g3⟩ := getAll_typed P.typed w1
    rw [pass, exec_incs P.typed (vs := managedOf ty as) (fun v hv => ?_) _ w h (fun o => h o + cnt xs o) (fun v hv o ho => ?_) (fun o => ?_)]
    · simp only [Ir.exec, g1, ok_bind]
      rw [hcall g xs w h (fun s hs => by have := P.lits.2 s hs; rw [hh]; omega)]
      cases call0 g xs w with
      | error e => rfl
      | ok q =>
        simp only [wrap_ok, ok_bind]
        exact finish ih w4 P.tame w2 w3 P.nodup P.ownVis P.typed (fun v hu => P.borrowed v (by simp [Ir.uses, hu])) P.lits
          (fun o => by simp only [hh, Ir.uses])
    · have hm := List.mem_filter.1 hv
      exact ⟨w1 v hm.1, hm.2⟩
    · have hm := List.mem_filter.1 hv
      have := P.alive_use (show v ∈ (Ir.call rs g as k).uses by simp [Ir.uses, hm.1]) (w1 v hm.1) ho
      rw [hh]; omega
    · rw [g2, held_managed P.typed w1]
  | ite rs c t e k iht ihe ih =>
    intro ifb own vis ρ w h fr P hh
    obtain ⟨w1, w2, w3, w4, w5, w6⟩ := P.wf
    obtain ⟨t1, t2, t3⟩ := P.tame
    obtain ⟨x, g1, _⟩ := get_typed P.typed w1
    have branch : ∀ (d : Ir F), Good L S ty call1 call0 fuel d → d.WF vis → d.Tame ty true [] → (∀ v ∈ d.uses, v ∈ (Ir.ite rs c t e k).uses) →
        (∀ s ∈ d.lits, s ∈ (Ir.ite rs c t e k).lits) →
        (pass ty true [] d).exec S.counting ty call1 fuel ρ (w, h) = wrap h (d.exec S.plain ty call0 fuel ρ w) := by
      intro d hd h1 h2 h3 h4
      refine hd true [] vis ρ w h h ⟨h1, h2, by simp, by simp, P.typed, ?_, fun s hs => P.lits.1 s (h4 s hs), ?_⟩ (fun o => by simp [live, held])
      · intro v hu hv _ o ho
        have := P.alive_use (h3 v hu) hv ho
        rw [hh]; omega
      · intro s hs; have := P.lits.2 s hs; rw [hh]; omega
    simp only [pass, Ir.exec, g1, ok_bind]
    cases x with
    | obj o => rfl
    | sca x =>
      simp only [Machine.test, ok_bind]
      rw [show S.counting.toBool = S.toBool from rfl, show S.plain.toBool = S.toBool from rfl]
      rw [show (if S.toBool x = true then (pass ty true [] t).exec S.counting ty call1 fuel ρ (w, h) else
          (pass ty true [] e).exec S.counting ty call1 fuel ρ (w, h)) =
          wrap h (if S.toBool x = true then t.exec S.plain ty call0 fuel ρ w else e.exec S.plain ty call0 fuel ρ w) by
        split
        · exact branch t iht w2 t1 (by simp +contextual [Ir.uses]) (by simp +contextual [Ir.lits])
        · exact branch e ihe w3 t2 (by simp +contextual [Ir.uses]) (by simp +contextual [Ir.lits])]
      cases (if S.toBool x = true then t.exec S.plain ty call0 fuel ρ w else e.exec S.plain ty call0 fuel ρ w) with
      | error e => rfl
      | ok q =>
        simp only [wrap_ok, ok_bind]
        exact finish ih w6 t3 w4 w5 P.nodup P.ownVis P.typed (fun v hu => P.borrowed v (by simp [Ir.uses, hu]))
          ⟨fun s hs => P.lits.1 s (by simp [Ir.lits, hs]), P.lits.2⟩ (fun o => by simp only [hh, Ir.uses])
  | whil rs is bs before aas after k ihb iha ih =>
    intro ifb own vis ρ w h fr P hh
    obtain ⟨w1, w2, w3, w4, w5, w6, w7, w8, w9, w10⟩ := P.wf
    obtain ⟨t1, t2, t3⟩ := P.tame
    obtain ⟨xs, g1, g2, g3⟩ := getAll_typed P.typed w1
    have hlit : ∀ s, L s → 1 ≤ h s := fun s hs => by have := P.lits.2 s hs; rw [hh]; omega
    have hbor : ∀ v ∈ (Ir.whil rs is bs before aas after k).uses, vis v → ∀ o, ρ v = some (.obj o) → 1 ≤ h o := by
      intro v hu hv o ho
      have := P.alive_use hu hv ho
      rw [hh]; omega
    rw [pass, exec_incs P.typed (vs := managedOf ty is) (fun v hv => ?_) _ w h (fun o => h o + cnt xs o) (fun v hv o ho => ?_) (fun o => ?_)]
    · simp only [Ir.exec, g1, ok_bind]
      rw [iterate_wrap (fr := h) (f0 := fun (st : List (RVal V) × W) =>
        ρ.bind ty bs st.1 >>= fun ρb => before.exec S.plain ty call0 fuel ρb st.2 >>= fun p =>
          match p.1 with
          | [] => .error .undef
          | c :: ys => S.plain.test c >>= fun b =>
            if b then ρ.bind ty aas ys >>= fun ρa => after.exec S.plain ty call0 fuel ρa p.2 >>= fun q => .ok (.inl q)
            else .ok (.inr (ys, p.2)))]
      · generalize iterate _ fuel (xs, w) = m
        cases m with
        | error e => rfl
        | ok q =>
          simp only [wrap_ok, ok_bind]
          exact finish ih w10 t3 w8 w9 P.nodup P.ownVis P.typed (fun v hu => P.borrowed v (by simp [Ir.uses, hu]))
            ⟨fun s hs => P.lits.1 s (by simp [Ir.lits, hs]), P.lits.2⟩ (fun o => by simp only [hh, Ir.uses])
      · intro ys w'
        have B := block (xs := ys) (w := w') (fr := h) ihb w4 t1 w2 P.typed (fun v hu hv _ => hbor v (by simp [Ir.uses, hu]) hv)
          ⟨fun s hs => P.lits.1 s (by simp [Ir.lits, hs]), hlit⟩
        simp only [← bind_assoc]
        rw [B]
        generalize (ρ.bind ty bs ys >>= fun ρ' => before.exec S.plain ty call0 fuel ρ' w') = m
        cases m with
        | error e => rfl
        | ok p =>
          obtain ⟨p1, p2⟩ := p
          simp only [wrap_ok, ok_bind]
          cases p1 with
          | nil => rfl
          | cons c zs =>
            dsimp only
            cases c with
            | obj o => rfl
            | sca x =>
              simp only [Machine.test, ok_bind]
              rw [show S.counting.toBool = S.toBool from rfl, show S.plain.toBool = S.toBool from rfl]
              have ec : ∀ o, cnt (RVal.sca x :: zs) o = cnt zs o := fun o => by simp [cnt]
              simp only [ec]
              split
              · have A := block (xs := zs) (w := p2) (fr := h) iha w7 t2 w5 P.typed (fun v hu hv _ => hbor v (by simp [Ir.uses, hu]) hv)
                  ⟨fun s hs => P.lits.1 s (by simp [Ir.lits, hs]), hlit⟩
                rw [A]
                generalize (ρ.bind ty aas zs >>= fun ρ' => after.exec S.plain ty call0 fuel ρ' p2) = m
                cases m <;> rfl
              · rfl
    · have hm := List.mem_filter.1 hv
      exact ⟨w1 v hm.1, hm.2⟩
    · have hm := List.mem_filter.1 hv
      have := hbor v (by simp [Ir.uses, hm.1]) (w1 v hm.1) o ho
      omega
    · rw [g2, held_managed P.typed w1]
  | loop rs l u s is iv it body k ihb ih =>
    intro ifb own vis ρ w h fr P hh
    obtain ⟨w1, w2, w3, w4, w5, w6, w7⟩ := P.wf
    obtain ⟨t1, t2⟩ := P.tame
    obtain ⟨lx, gl, el⟩ := get_typed P.typed (w1 l (by simp))
    obtain ⟨ux, gu, eu⟩ := get_typed P.typed (w1 u (by simp))
    obtain ⟨sx, gs, es⟩ := get_typed P.typed (w1 s (by simp))
    obtain ⟨xs, g1, g2, g3⟩ := getAll_typed P.typed (vs := is) (fun v hv => w1 v (by simp [hv]))
    have hlit : ∀ s, L s → 1 ≤ h s := fun s hs => by have := P.lits.2 s hs; rw [hh]; omega
    have hbor : ∀ v ∈ (Ir.loop rs l u s is iv it body k).uses, vis v → ∀ o, ρ v = some (.obj o) → 1 ≤ h o := by
      intro v hu hv o ho
      have := P.alive_use hu hv ho
      rw [hh]; omega
    rw [pass, exec_incs P.typed (vs := managedOf ty (l :: u :: s :: is)) (fun v hv => ?_) _ w h
      (fun o => h o + held ρ (managedOf ty (l :: u :: s :: is)) o) (fun v hv o ho => ?_) (fun o => rfl)]
    · simp only [Ir.exec, g1, gl, gu, gs, ok_bind]
      cases lx with
      | obj o => rfl
      | sca lx => cases ux with
        | obj o => rfl
        | sca ux => cases sx with
          | obj o => rfl
          | sca sx =>
            have eh : (fun o => h o + held ρ (managedOf ty (l :: u :: s :: is)) o) = fun o => h o + cnt xs o := by
              funext o
              rw [← held_managed P.typed w1, g2]
              simp [held, ptsTo, el, eu, es]
            rw [eh]
            simp only [Machine.range]
            rw [show S.counting.ivs = S.ivsRun from rfl, show S.plain.ivs = S.ivsRun from rfl]
            cases S.ivsRun lx ux sx with
            | error e => rfl
            | ok zs =>
              simp only [ok_bind]
              rw [foldRun_wrap (fr := h) (f0 := fun (st : List (RVal V) × W) z =>
                ρ.bind ty (iv :: it) (.sca z :: st.1) >>= fun ρb => body.exec S.plain ty call0 fuel ρb st.2)]
              · generalize foldRun _ (xs, w) zs = m
                cases m with
                | error e => rfl
                | ok q =>
                  simp only [wrap_ok, ok_bind]
                  exact finish ih w7 t2 w5 w6 P.nodup P.ownVis P.typed (fun v hu => P.borrowed v (by simp [Ir.uses, hu]))
                    ⟨fun s hs => P.lits.1 s (by simp [Ir.lits, hs]), P.lits.2⟩ (fun o => by simp only [hh, Ir.uses])
              · intro ys w' z
                have B := block (xs := .sca z :: ys) (w := w') (fr := h) ihb w4 t1 w2 P.typed (fun v hu hv _ => hbor v (by simp [Ir.uses, hu]) hv)
                  ⟨fun s hs => P.lits.1 s (by simp [Ir.lits, hs]), hlit⟩
                have ec : ∀ o, cnt (RVal.sca z :: ys) o = cnt ys o := fun o => by simp [cnt]
                simp only [ec] at B
                exact B
    · have hm := List.mem_filter.1 hv
      exact ⟨w1 v hm.1, hm.2⟩
    · have hm := List.mem_filter.1 hv
      have := hbor v (by
        have := hm.1
        simp only [Ir.uses, List.mem_append, List.mem_cons] at this ⊢
        grind) (w1 v hm.1) o ho
      omega
  | inc v k ih => intro ifb own vis ρ w h fr P hh; exact P.wf.elim
  | dec v k ih => intro ifb own vis ρ w h fr P hh; exact P.wf.elim

/-- Functions of a program that has gone through the pass. -/
theorem runFn_good {fns : Nat → Option (List Nat × Ir F)}
    (hfns : ∀ g ps body, fns g = some (ps, body) → ps.Nodup ∧ body.WF (fun v => v ∈ ps) ∧ body.Tame ty false ps ∧ ∀ s ∈ body.lits, L s)
    (n : Nat) : CallGood L (runFn S.counting ty (fun g => (fns g).map (passFn ty)) n) (runFn S.plain ty fns n) := by
  induction n with
  | zero => intro g xs w fr _; rfl
  | succ n ih =>
    intro g xs w fr hfr
    simp only [runFn]
    cases hg : fns g with
    | none => rfl
    | some fn =>
      obtain ⟨ps, body⟩ := fn
      obtain ⟨h1, h2, h3, h4⟩ := hfns g ps body hg
      exact block (vis := fun _ => False) (pass_good ih body) (by simpa using h2) h3 h1 (fun v h => h.elim) (fun v _ h => h.elim) ⟨h4, hfr⟩

end

end Verif.Ref
