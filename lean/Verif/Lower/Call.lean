/-
  Lowered kernel calls do what the program says (C342).
-/
import Verif.Lower.Model
import Mathlib.Data.List.Forall2
import Mathlib.Data.List.Nodup

namespace Verif.Lower

/-! ### Specification -/

/-- The packs that are created in a function, with their sizes. -/
def creates : Stmt → List (Nat × Nat)
  | .skip | .store .. | .call _ => []
  | .create p n => [(p, n)]
  | .seq a b | .ifte _ a b => creates a ++ creates b
  | .loop _ a => creates a

/-- The kernel calls in a function. -/
def calls : Stmt → List Call
  | .skip | .store .. | .create .. => []
  | .call c => [c]
  | .seq a b | .ifte _ a b => calls a ++ calls b
  | .loop _ a => calls a

/-- Each pack is created, and each call is, by one operation. -/
def Unique (st : Stmt) : Prop := ((creates st).map (·.1)).Nodup ∧ ((calls st).map (·.op)).Nodup

/-- What the earlier passes guarantee: packs are filled and passed within their size, and kernels are called with the number and kind of results they are compiled for. -/
def Proper (sigs : Sigs) (packs : List (Nat × Nat)) : Stmt → Prop
  | .skip | .create .. => True
  | .store p i _ => ∃ n, (p, n) ∈ packs ∧ i < n
  | .call c => (∀ p n, Arg.pack p n ∈ c.args → ∃ n', (p, n') ∈ packs ∧ n ≤ n') ∧ (sigs c.kernel).1 = c.variadic ∧ (c.variadic = false → (sigs c.kernel).2 = c.outs.length)
  | .seq a b | .ifte _ a b => Proper sigs packs a ∧ Proper sigs packs b
  | .loop _ a => Proper sigs packs a

/-! ### Allocations -/

theorem sites_packs (st : Stmt) (p n : Nat) (h : (p, n) ∈ creates st) : (Site.pack p, n) ∈ sites st := by
  induction st with
  | skip => cases h
  | store => cases h
  | call c => cases h
  | create q k => simp only [creates, List.mem_singleton, Prod.mk.injEq] at h; obtain ⟨rfl, rfl⟩ := h; simp [sites]
  | seq a b iha ihb =>
    simp only [creates, List.mem_append] at h
    simp only [sites, List.mem_append]
    exact h.imp iha ihb
  | ifte x a b iha ihb =>
    simp only [creates, List.mem_append] at h
    simp only [sites, List.mem_append]
    exact h.imp iha ihb
  | loop x a iha => exact iha h

/-- Where an allocation comes from. -/
theorem sites_owner (st : Stmt) (q : Site × Nat) (h : q ∈ sites st) :
    match q.1 with
    | .pack p => p ∈ (creates st).map (·.1)
    | .array o => o ∈ (calls st).map (·.op)
    | .slot o _ => o ∈ (calls st).map (·.op) := by
  induction st with
  | skip => cases h
  | store => cases h
  | call c =>
    simp only [sites, callSites] at h
    split at h
    · simp only [List.mem_singleton] at h; subst h; simp [calls]
    · simp only [List.mem_map] at h
      obtain ⟨i, -, rfl⟩ := h
      simp [calls]
  | create p k => simp only [sites, List.mem_singleton] at h; subst h; simp [creates]
  | seq a b iha ihb =>
    simp only [sites, List.mem_append] at h
    rcases h with h | h
    · have := iha h
      split <;> rename_i e <;> simp only [e] at this <;> simp only [creates, calls, List.map_append, List.mem_append] <;> exact .inl this
    · have := ihb h
      split <;> rename_i e <;> simp only [e] at this <;> simp only [creates, calls, List.map_append, List.mem_append] <;> exact .inr this
  | ifte x a b iha ihb =>
    simp only [sites, List.mem_append] at h
    rcases h with h | h
    · have := iha h
      split <;> rename_i e <;> simp only [e] at this <;> simp only [creates, calls, List.map_append, List.mem_append] <;> exact .inl this
    · have := ihb h
      split <;> rename_i e <;> simp only [e] at this <;> simp only [creates, calls, List.map_append, List.mem_append] <;> exact .inr this
  | loop x a iha => exact iha h

theorem sites_append_nodup (a b : Stmt) (ha : ((sites a).map (·.1)).Nodup) (hb : ((sites b).map (·.1)).Nodup) (h1 : ((creates a ++ creates b).map (·.1)).Nodup)
    (h2 : ((calls a ++ calls b).map (·.op)).Nodup) : ((sites a ++ sites b).map (·.1)).Nodup := by
  rw [List.map_append, List.nodup_append] at h1 h2 ⊢
  refine ⟨ha, hb, ?_⟩
  intro s hs t ht e
  subst e
  simp only [List.mem_map] at hs ht
  obtain ⟨q, hq, rfl⟩ := hs
  obtain ⟨q', hq', e⟩ := ht
  have o1 := sites_owner a q hq
  have o2 := sites_owner b q' hq'
  rw [e] at o2
  cases hk : q.1 with
  | pack p => simp only [hk] at o1 o2; exact h1.2.2 p o1 p o2 rfl
  | array o => simp only [hk] at o1 o2; exact h2.2.2 o o1 o o2 rfl
  | slot o i => simp only [hk] at o1 o2; exact h2.2.2 o o1 o o2 rfl

theorem sites_nodup (st : Stmt) (h : Unique st) : ((sites st).map (·.1)).Nodup := by
  induction st with
  | skip => simp [sites]
  | store => simp [sites]
  | create p n => simp [sites]
  | call c =>
    simp only [sites, callSites]
    split
    · simp
    · rw [List.map_map]
      refine List.Nodup.map ?_ List.nodup_range
      intro i j e
      simpa using e
  | seq a b iha ihb =>
    have h1 := h.1
    have h2 := h.2
    simp only [creates, calls] at h1 h2
    have h1' := h1
    have h2' := h2
    rw [List.map_append, List.nodup_append] at h1' h2'
    exact sites_append_nodup a b (iha ⟨h1'.1, h2'.1⟩) (ihb ⟨h1'.2.1, h2'.2.1⟩) h1 h2
  | ifte x a b iha ihb =>
    have h1 := h.1
    have h2 := h.2
    simp only [creates, calls] at h1 h2
    have h1' := h1
    have h2' := h2
    rw [List.map_append, List.nodup_append] at h1' h2'
    exact sites_append_nodup a b (iha ⟨h1'.1, h2'.1⟩) (ihb ⟨h1'.2.1, h2'.2.1⟩) h1 h2
  | loop x a iha => exact iha h

/-! ### Addresses -/

theorem addr_disjoint (l : List (Site × Nat)) (hn : (l.map (·.1)).Nodup) (s s' : Site) (n n' i j : Nat) (h : (s, n) ∈ l) (h' : (s', n') ∈ l) (hne : s ≠ s') (hi : i < n) (hj : j < n') :
    addr l s + i ≠ addr l s' + j := by
  induction l with
  | nil => cases h
  | cons q r ih =>
    simp only [List.map_cons, List.nodup_cons] at hn
    simp only [addr]
    have key : ∀ t m, (t, m) ∈ q :: r → q.1 = t → m = q.2 := by
      intro t m hm e
      rcases List.mem_cons.1 hm with e' | hm
      · rw [← e']
      · exact absurd (List.mem_map_of_mem (f := (·.1)) hm) (by rw [← e]; exact hn.1)
    have rest : ∀ t m, (t, m) ∈ q :: r → q.1 ≠ t → (t, m) ∈ r := by
      intro t m hm e
      rcases List.mem_cons.1 hm with e' | hm
      · rw [← e'] at e; exact absurd rfl e
      · exact hm
    by_cases e : q.1 = s
    · by_cases e' : q.1 = s'
      · exact absurd (e.symm.trans e') hne
      · rw [if_pos e, if_neg e']
        have := key s n h e
        omega
    · by_cases e' : q.1 = s'
      · rw [if_neg e, if_pos e']
        have := key s' n' h' e'
        omega
      · rw [if_neg e, if_neg e']
        have := ih hn.2 (rest s n h e) (rest s' n' h' e')
        omega

/-- The allocation a result belongs to, and its position there. -/
theorem outAddr_site (at' : Site → Nat) (c : Call) (i : Nat) (h : i < c.outs.length) :
    ∃ s n j, (s, n) ∈ callSites c ∧ j < n ∧ outAddr at' c i = at' s + j ∧ ∀ p, s ≠ .pack p := by
  unfold callSites outAddr
  by_cases hv : c.variadic = true
  · exact ⟨.array c.op, c.outs.length, i, by simp [hv], h, by simp [hv], by simp⟩
  · refine ⟨.slot c.op i, 1, 0, ?_, by omega, by simp [hv], by simp⟩
    simp [hv, h]

theorem outAddr_inj (all : List (Site × Nat)) (hn : (all.map (·.1)).Nodup) (c : Call) (hc : ∀ x ∈ callSites c, x ∈ all) (i j : Nat) (hi : i < c.outs.length) (hj : j < c.outs.length) (hne : i ≠ j) :
    outAddr (addr all) c i ≠ outAddr (addr all) c j := by
  unfold outAddr
  by_cases hv : c.variadic = true
  · simp [hv, hne]
  · simp only [hv, Bool.false_eq_true, if_false]
    have h1 : (Site.slot c.op i, 1) ∈ all := hc _ (by simp [callSites, hv, hi])
    have h2 : (Site.slot c.op j, 1) ∈ all := hc _ (by simp [callSites, hv, hj])
    have := addr_disjoint all hn _ _ 1 1 0 0 h1 h2 (by simp [hne]) (by omega) (by omega)
    simpa using this

section
variable {V : Type} {null : V} {truth : V → Bool} {K : Kernels V} {sigs : Sigs}

theorem nulls_run (at' : Site → Nat) (c : Call) : ∀ (l : List (Nat × Bool)) (i : Nat) (m m' : Mem V), LExec null truth K sigs (.all (nulls at' c i l)) m m' →
    m'.env = m.env ∧ (∀ b, (∀ k, k < l.length → b ≠ outAddr at' c (i + k)) → m'.mem b = m.mem b) ∧ (∀ b, m.mem b = null → m'.mem b = null) ∧
    ∀ k o, l[k]? = some o → o.2 = true → m'.mem (outAddr at' c (i + k)) = null := by
  intro l
  induction l with
  | nil =>
    intro i m m' h
    cases h
    exact ⟨rfl, fun _ _ => rfl, fun _ h => h, fun k o h => by simp at h⟩
  | cons o r ih =>
    intro i m m' h
    simp only [nulls] at h
    cases ho : o.2 with
    | false =>
      simp only [ho, Bool.false_eq_true, if_false, List.nil_append] at h
      obtain ⟨h1, h2, h3, h4⟩ := ih _ _ _ h
      refine ⟨h1, fun b hb => h2 b fun k hk => ?_, h3, ?_⟩
      · have := hb (k + 1) (by simp; omega)
        rwa [show i + 1 + k = i + (k + 1) by omega]
      · intro k o' hk hp
        cases k with
        | zero => simp at hk; subst hk; rw [ho] at hp; cases hp
        | succ k =>
          rw [show i + (k + 1) = i + 1 + k by omega]
          exact h4 k o' (by simpa using hk) hp
    | true =>
      simp only [ho, if_true, List.singleton_append, LStmt.all] at h
      cases h with
      | seq _ _ _ m1 _ ha hb =>
        cases ha
        obtain ⟨h1, h2, h3, h4⟩ := ih _ _ _ hb
        refine ⟨h1, fun b hb => ?_, fun b hb => ?_, ?_⟩
        · rw [h2 b fun k hk => ?_]
          · have := hb 0 (by simp)
            simp only [Nat.add_zero] at this
            simp [this]
          · have := hb (k + 1) (by simp; omega)
            rwa [show i + 1 + k = i + (k + 1) by omega]
        · apply h3
          simp only
          split
          · rfl
          · exact hb
        · intro k o' hk hp
          cases k with
          | zero => apply h3; simp
          | succ k =>
            rw [show i + (k + 1) = i + 1 + k by omega]
            exact h4 k o' (by simpa using hk) hp

theorem loads_run (at' : Site → Nat) (c : Call) : ∀ (l : List (Nat × Bool)) (i : Nat) (vs : List V) (m m' : Mem V), LExec null truth K sigs (.all (loads at' c i l)) m m' →
    vs.length = l.length → (∀ k v, vs[k]? = some v → m.mem (outAddr at' c (i + k)) = v) → m'.mem = m.mem ∧ m'.env = bind m.env l vs := by
  intro l
  induction l with
  | nil =>
    intro i vs m m' h hl _
    cases h
    cases vs with
    | nil => exact ⟨rfl, rfl⟩
    | cons _ _ => simp at hl
  | cons o r ih =>
    intro i vs m m' h hl hv
    cases vs with
    | nil => simp at hl
    | cons v vs =>
      simp only [loads, LStmt.all] at h
      cases h with
      | seq _ _ _ m1 _ ha hb =>
        cases ha
        obtain ⟨h1, h2⟩ := ih (i + 1) vs _ _ hb (by simpa using hl) (by
          intro k w hk
          have := hv (k + 1) w (by simpa using hk)
          rwa [show i + 1 + k = i + (k + 1) by omega])
        refine ⟨h1, ?_⟩
        rw [h2]
        have h0 := hv 0 v (by simp)
        simp only [Nat.add_zero] at h0
        simp only [bind, h0]

theorem write_other (as : List Nat) : ∀ (vs : List V) (mem : Nat → V) (b : Nat), b ∉ as → write mem as vs b = mem b := by
  induction as with
  | nil => intro vs mem b _; rfl
  | cons a as ih =>
    intro vs mem b hb
    cases vs with
    | nil => rfl
    | cons v vs =>
      simp only [List.mem_cons, not_or] at hb
      rw [write, ih _ _ _ hb.2, if_neg hb.1]

theorem write_at (as : List Nat) : ∀ (vs : List V) (mem : Nat → V), as.Nodup → ∀ (k a : Nat) (v : V), as[k]? = some a → vs[k]? = some v → write mem as vs a = v := by
  induction as with
  | nil => intro vs mem _ k a v h; simp at h
  | cons x as ih =>
    intro vs mem hn k a v ha hv
    cases vs with
    | nil => simp at hv
    | cons w vs =>
      rw [List.nodup_cons] at hn
      cases k with
      | zero =>
        simp only [List.getElem?_cons_zero, Option.some.injEq] at ha hv
        subst ha hv
        rw [write, write_other _ _ _ _ hn.1, if_pos rfl]
      | succ k =>
        rw [write]
        exact ih vs _ hn.2 k a v (by simpa using ha) (by simpa using hv)

/-- What a kernel sees of a lowered operand. -/
def seen (at' : Site → Nat) (m : Mem V) : Arg → In V
  | .val x => .val (m.env x)
  | .pack p n => .arr (m.read (at' (.pack p)) n)

theorem operands_eq (at' : Site → Nat) (m : Mem V) (l : List Arg) : operands m (l.map (lowerArg at')) = some (l.map (seen at' m)) := by
  induction l with
  | nil => rfl
  | cons a l ih => cases a <;> simp [operands, lowerArg, seen, ih]

theorem slots_eq (as : List Nat) (r : List Param) : slots as.length (as.map Param.slot ++ r) = some (as, r) := by
  induction as with
  | nil => rfl
  | cons a as ih => simp [slots, ih]

theorem decode_eq (at' : Site → Nat) (c : Call) (m : Mem V) (h1 : (sigs c.kernel).1 = c.variadic) (h2 : c.variadic = false → (sigs c.kernel).2 = c.outs.length) :
    decode (sigs c.kernel) m (params at' c) = some ((List.range c.outs.length).map (outAddr at' c), c.args.map (seen at' m)) := by
  unfold decode params
  rw [h1]
  cases hv : c.variadic with
  | true => simp [operands_eq, outAddr, hv]
  | false =>
    rw [h2 hv]
    simp only [Bool.false_eq_true, if_false]
    have := slots_eq ((List.range c.outs.length).map (outAddr at' c)) (c.args.map (lowerArg at'))
    rw [List.length_map, List.length_range, List.map_map] at this
    have e : (Param.slot ∘ outAddr at' c) = fun i => Param.slot (at' (.slot c.op i)) := by
      funext i; simp [outAddr, hv]
    rw [e] at this
    rw [this]
    simp [operands_eq]

/-- The SSA values agree, and the memory contains the elements of packs. -/
def Sim (all : List (Site × Nat)) (s : St V) (m : Mem V) : Prop :=
  s.env = m.env ∧ ∀ p n i v, (Site.pack p, n) ∈ all → i < n → s.packs p i = some v → m.mem (addr all (.pack p) + i) = v

theorem sees_seen (all : List (Site × Nat)) (s : St V) (m : Mem V) (h : Sim all s m) (a : Arg) (ha : ∀ p n, a = .pack p n → ∃ n', (Site.pack p, n') ∈ all ∧ n ≤ n') :
    Sees s a (seen (addr all) m a) := by
  cases a with
  | val x => simp [Sees, seen, h.1]
  | pack p n =>
    obtain ⟨n', hm, hle⟩ := ha p n rfl
    refine ⟨by simp [Mem.read], fun i v hi hv => ?_⟩
    have := h.2 p n' i v hm (by omega) hv
    simp [Mem.read, hi, this]

theorem call_run (all : List (Site × Nat)) (hn : (all.map (·.1)).Nodup) (c : Call) (hc : ∀ x ∈ callSites c, x ∈ all) (pk : List (Nat × Nat)) (hpk' : ∀ p n, (p, n) ∈ pk → (Site.pack p, n) ∈ all) (hp : Proper sigs pk (.call c)) (s : St V) (m m' : Mem V) (hs : Sim all s m)
    (h : LExec null truth K sigs (lowerCall (addr all) c) m m') : ∃ s', Exec null truth K (.call c) s s' ∧ Sim all s' m' := by
  unfold lowerCall at h
  cases h with
  | seq _ _ _ m1 _ h1 h =>
  cases h with
  | seq _ _ _ m2 _ h2 h3 =>
  obtain ⟨e1, o1, -, z1⟩ := nulls_run (addr all) c c.outs 0 m m1 h1
  simp only [Nat.zero_add] at o1 z1
  cases h2 with
  | call _ _ _ as ins fin hd hl hk =>
  rw [decode_eq (addr all) c m1 hp.2.1 hp.2.2] at hd
  simp only [Option.some.injEq, Prod.mk.injEq] at hd
  obtain ⟨rfl, rfl⟩ := hd
  simp only [List.length_map, List.length_range] at hl
  have hnd : ((List.range c.outs.length).map (outAddr (addr all) c)).Nodup := by
    refine List.Nodup.map_on ?_ List.nodup_range
    intro i hi j hj e
    by_contra hne
    exact outAddr_inj all hn c hc i j (List.mem_range.1 hi) (List.mem_range.1 hj) hne e
  obtain ⟨l1, l2⟩ := loads_run (addr all) c c.outs 0 fin _ m' h3 hl (by
    intro k v hk
    have hlt : k < c.outs.length := by
      obtain ⟨hk', -⟩ := List.getElem?_eq_some_iff.1 hk
      omega
    rw [Nat.zero_add]
    exact write_at _ fin m1.mem hnd k _ v (by simp [hlt]) hk)
  simp only at l1 l2
  have hpk : ∀ p n i, (Site.pack p, n) ∈ all → i < n → ∀ k, k < c.outs.length → addr all (.pack p) + i ≠ outAddr (addr all) c k := by
    intro p n i hm hi k hk
    obtain ⟨σ, n', j, hσ, hj, e, hne⟩ := outAddr_site (addr all) c k hk
    rw [e]
    exact addr_disjoint all hn _ _ n n' i j hm (hc _ hσ) (Ne.symm (hne p)) hi hj
  have hs1 : Sim all s m1 := ⟨hs.1.trans e1.symm, fun p n i v hm hi hv => by
    rw [o1 _ (hpk p n i hm hi)]; exact hs.2 p n i v hm hi hv⟩
  refine ⟨{ s with env := bind s.env c.outs fin }, .call c s _ _ fin ?_ ?_ ?_ hl hk, ?_, ?_⟩
  · have hargs : ∀ a ∈ c.args, Sees s a (seen (addr all) m1 a) := fun a ha => sees_seen all s m1 hs1 a fun p n e => (hp.1 p n (e ▸ ha)).imp fun k hk => ⟨hpk' p k hk.1, hk.2⟩
    generalize c.args = l at hargs
    induction l with
    | nil => exact .nil
    | cons a l ih => exact .cons (hargs a (by simp)) (ih fun b hb => hargs b (by simp [hb]))
  · simp
  · intro i o ho hptr
    have hlt := (List.getElem?_eq_some_iff.1 ho).1
    simp only [List.getElem?_map, List.getElem?_range hlt, Option.map_some, Option.some.injEq]
    exact z1 i o ho hptr
  · show bind s.env c.outs fin = m'.env
    rw [l2, hs1.1]
  · intro p n i v hm hi hv
    rw [l1]
    show write _ _ _ _ = _
    rw [write_other]
    · exact hs1.2 p n i v hm hi hv
    · intro hmem
      simp only [List.mem_map, List.mem_range] at hmem
      obtain ⟨k, hk, e⟩ := hmem
      exact hpk p n i hm hi k hk e.symm

theorem lower_run (all : List (Site × Nat)) (hn : (all.map (·.1)).Nodup) (pk : List (Nat × Nat)) (hpk' : ∀ p n, (p, n) ∈ pk → (Site.pack p, n) ∈ all) :
    ∀ (st : Stmt), (∀ x ∈ sites st, x ∈ all) → Proper sigs pk st → ∀ (s : St V) (m m' : Mem V), Sim all s m →
    LExec null truth K sigs (lower (addr all) st) m m' → ∃ s', Exec null truth K st s s' ∧ Sim all s' m' := by
  intro st
  induction st with
  | skip =>
    intro _ _ s m m' hs h
    cases h
    exact ⟨s, .skip s, hs⟩
  | create p n =>
    intro _ _ s m m' hs h
    cases h
    refine ⟨_, .create p n s, hs.1, ?_⟩
    intro q n' i v hm hi hv
    simp only at hv
    split at hv
    · cases hv
    · exact hs.2 q n' i v hm hi hv
  | store p i x =>
    intro _ hp s m m' hs h
    cases h
    refine ⟨_, .store p i x s, hs.1, ?_⟩
    obtain ⟨n, hm0, hi⟩ := hp
    have hm := hpk' p n hm0
    intro q n' j v hm' hj hv
    simp only at hv ⊢
    by_cases e : q = p
    · subst e
      rw [if_pos rfl] at hv
      by_cases e2 : j = i
      · subst e2
        simp only [if_true, Option.some.injEq] at hv
        rw [if_pos rfl, ← hs.1, hv]
      · rw [if_neg e2] at hv
        rw [if_neg (by omega)]
        exact hs.2 q n' j v hm' hj hv
    · rw [if_neg e] at hv
      rw [if_neg (addr_disjoint all hn _ _ n' n j i hm' hm (by simp [e]) hj hi)]
      exact hs.2 q n' j v hm' hj hv
  | call c =>
    intro hsub hp s m m' hs h
    exact call_run all hn c hsub pk hpk' hp s m m' hs h
  | seq a b iha ihb =>
    intro hsub hp s m m' hs h
    cases h with
    | seq _ _ _ m1 _ h1 h2 =>
      obtain ⟨s1, x1, hs1⟩ := iha (fun x hx => hsub x (by simp [sites, hx])) hp.1 s m m1 hs h1
      obtain ⟨s2, x2, hs2⟩ := ihb (fun x hx => hsub x (by simp [sites, hx])) hp.2 s1 m1 m' hs1 h2
      exact ⟨s2, .seq a b s s1 s2 x1 x2, hs2⟩
  | ifte x a b iha ihb =>
    intro hsub hp s m m' hs h
    cases h with
    | ifTrue _ _ _ _ _ ht h1 =>
      obtain ⟨s1, x1, hs1⟩ := iha (fun x hx => hsub x (by simp [sites, hx])) hp.1 s m m' hs h1
      exact ⟨s1, .ifTrue x a b s s1 (by rw [hs.1]; exact ht) x1, hs1⟩
    | ifFalse _ _ _ _ _ ht h1 =>
      obtain ⟨s1, x1, hs1⟩ := ihb (fun x hx => hsub x (by simp [sites, hx])) hp.2 s m m' hs h1
      exact ⟨s1, .ifFalse x a b s s1 (by rw [hs.1]; exact ht) x1, hs1⟩
  | loop x a iha =>
    intro hsub hp s m m' hs h
    simp only [lower] at h
    generalize hl : LStmt.loop x (lower (addr all) a) = l at h
    induction h generalizing s with
    | loopDone y b m ht =>
      cases hl
      exact ⟨s, .loopDone x a s (by rw [hs.1]; exact ht), hs⟩
    | loopStep y b m m1 m2 ht h1 _ _ ih2 =>
      cases hl
      obtain ⟨s1, x1, hs1⟩ := iha hsub hp s m m1 hs h1
      obtain ⟨s2, x2, hs2⟩ := ih2 s1 hs1 rfl
      exact ⟨s2, .loopStep x a s s1 s2 (by rw [hs.1]; exact ht) x1 x2, hs2⟩
    | _ => cases hl

/-- **C342.** Whatever a lowered function does, the program does: in every run, with any nesting of loops and branches, each kernel is called with its operands in their order, the elements of packs in
theirs, and null for each result that is an object, also if the call is repeated; and the results of the operation are those the kernel has produced. -/
theorem C342_kernel_calls (st : Stmt) (hn : Unique st) (hp : Proper sigs (creates st) st) (env : Nat → V) (m m' : Mem V) (hm : m.env = env)
    (h : LExec null truth K sigs (lowerFunc st) m m') :
    ∃ s', Exec null truth K st ⟨env, fun _ _ => none⟩ s' ∧ s'.env = m'.env := by
  obtain ⟨s', x, hs⟩ := lower_run (sites st) (sites_nodup st hn) (creates st) (fun p n h => sites_packs st p n h) st (fun _ hx => hx) hp ⟨env, fun _ _ => none⟩ m m' ⟨hm.symm, fun p n i v _ _ hv => by cases hv⟩ h
  exact ⟨s', x, hs.1⟩

theorem all_runs (l : List LStmt) : ∀ m : Mem V, (∀ a ∈ l, ∀ m : Mem V, ∃ m', LExec null truth K sigs a m m') → ∃ m', LExec null truth K sigs (.all l) m m' := by
  induction l with
  | nil => intro m _; exact ⟨m, .skip m⟩
  | cons a l ih =>
    intro m h
    obtain ⟨m1, h1⟩ := h a (by simp) m
    obtain ⟨m2, h2⟩ := ih m1 fun b hb => h b (by simp [hb])
    exact ⟨m2, .seq a _ m m1 m2 h1 h2⟩

theorem nulls_stmts (at' : Site → Nat) (c : Call) : ∀ (l : List (Nat × Bool)) (i : Nat), ∀ a ∈ nulls at' c i l, ∃ b, a = .storeNull b := by
  intro l
  induction l with
  | nil => intro i a h; cases h
  | cons o r ih =>
    intro i a h
    simp only [nulls, List.mem_append] at h
    rcases h with h | h
    · split at h
      · exact ⟨_, List.mem_singleton.1 h⟩
      · cases h
    · exact ih _ a h

theorem loads_stmts (at' : Site → Nat) (c : Call) : ∀ (l : List (Nat × Bool)) (i : Nat), ∀ a ∈ loads at' c i l, ∃ x b, a = .load x b := by
  intro l
  induction l with
  | nil => intro i a h; cases h
  | cons o r ih =>
    intro i a h
    simp only [loads, List.mem_cons] at h
    rcases h with h | h
    · exact ⟨_, _, h⟩
    · exact ih _ a h

/-- **C342, no call gets stuck.** If the kernel itself does not fail, a lowered call runs in every state: the parameters are those its code expects. -/
theorem C342_kernel_calls_run (at' : Site → Nat) (c : Call) (h1 : (sigs c.kernel).1 = c.variadic) (h2 : c.variadic = false → (sigs c.kernel).2 = c.outs.length)
    (hk : ∀ ins init, ∃ fin, fin.length = init.length ∧ K c.kernel ins init fin) (m : Mem V) : ∃ m', LExec null truth K sigs (lowerCall at' c) m m' := by
  obtain ⟨m1, x1⟩ := all_runs (null := null) (truth := truth) (K := K) (sigs := sigs) (nulls at' c 0 c.outs) m (by
    intro a ha m
    obtain ⟨b, rfl⟩ := nulls_stmts at' c _ _ a ha
    exact ⟨_, .storeNull b m⟩)
  have hd := decode_eq (sigs := sigs) at' c m1 h1 h2
  obtain ⟨fin, hl, hf⟩ := hk (c.args.map (seen at' m1)) (((List.range c.outs.length).map (outAddr at' c)).map m1.mem)
  obtain ⟨m3, x3⟩ := all_runs (null := null) (truth := truth) (K := K) (sigs := sigs) (loads at' c 0 c.outs) { m1 with mem := write m1.mem ((List.range c.outs.length).map (outAddr at' c)) fin } (by
    intro a ha m
    obtain ⟨x, b, rfl⟩ := loads_stmts at' c _ _ a ha
    exact ⟨_, .load x b m⟩)
  exact ⟨m3, .seq _ _ _ _ _ x1 (.seq _ _ _ _ _ (.call _ _ m1 _ _ fin hd (by simpa using hl) hf) x3)⟩

end

/-! ### A case: a loop with a call that has two results and a pack -/

def call0 : Call := ⟨0, 0, [(1, true), (2, false)], [.pack 0 2, .val 1], false⟩
def prog0 : Stmt := .seq (.create 0 2) (.loop 2 (.seq (.store 0 0 1) (.seq (.store 0 1 3) (.call call0))))
def sigs0 : Sigs := fun _ => (false, 2)

example : Unique prog0 := by constructor <;> decide
example : Proper sigs0 (creates prog0) prog0 := by
  refine ⟨trivial, ⟨2, by decide, by decide⟩, ⟨2, by decide, by decide⟩, ?_, rfl, fun _ => rfl⟩
  intro p n h
  simp only [call0, List.mem_cons, Arg.pack.injEq, reduceCtorEq, List.not_mem_nil, or_false] at h
  obtain ⟨rfl, rfl⟩ := h
  exact ⟨2, by decide, by decide⟩
example : params (addr (sites prog0)) call0 = [.slot 2, .slot 3, .pack 0 2, .val 1] := by decide
example : params (addr (sites prog0)) { call0 with variadic := true, op := 7 } = [.array 4, .const 2, .pack 0 2, .val 1] := by decide

end Verif.Lower
