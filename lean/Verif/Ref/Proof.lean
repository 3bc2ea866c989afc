import Verif.Ref.Model

namespace Verif.Ref

theorem run_bind_ok {α β : Type} {m : Run α} {f : α → Run β} {b : β} (h : (m >>= f) = .ok b) : ∃ a, m = .ok a ∧ f a = .ok b := by
  cases m with
  | error e => cases h
  | ok a => exact ⟨a, rfl, h⟩

@[simp] theorem ok_bind {α β : Type} (a : α) (f : α → Run β) : ((.ok a : Run α) >>= f) = f a := rfl
@[simp] theorem error_bind {α β : Type} (e : Stop) (f : α → Run β) : ((.error e : Run α) >>= f) = .error e := rfl

section
variable {F V W : Type} {ty : Nat → Ty} {L : Nat → Prop}

/-- The object `o` is what the SSA value stands for. -/
def ptsTo (ρ : Env V) (o v : Nat) : Bool :=
  match ρ v with
  | some (.obj p) => p == o
  | _ => false

/-- How often the object is among the values of these SSA values. -/
def held (ρ : Env V) (vs : List Nat) (o : Nat) : Nat := vs.countP (ptsTo ρ o)

/-- Those of the values that are managed and used. -/
def live (ty : Nat → Ty) (us own : List Nat) : List Nat := own.filter fun v => (ty v).managed && us.contains v

/-- The values that are visible exist and have the right type. -/
def Typed (ty : Nat → Ty) (ρ : Env V) (vis : Nat → Prop) : Prop := ∀ v, vis v → ∃ x, ρ v = some x ∧ (ty v).fits x = true

theorem held_append (ρ : Env V) (a b : List Nat) (o : Nat) : held ρ (a ++ b) o = held ρ a o + held ρ b o := by
  simp [held, List.countP_append]

theorem held_perm (ρ : Env V) {a b : List Nat} (h : a.Perm b) (o : Nat) : held ρ a o = held ρ b o := h.countP_eq _

theorem held_reverse (ρ : Env V) (a : List Nat) (o : Nat) : held ρ a.reverse o = held ρ a o := held_perm ρ (List.reverse_perm a) o

theorem held_filter (ρ : Env V) (p : Nat → Bool) (a : List Nat) (o : Nat) :
    held ρ a o = held ρ (a.filter p) o + held ρ (a.filter fun v => !p v) o := by
  induction a with
  | nil => rfl
  | cons v a ih =>
    simp only [held, List.countP_cons, List.filter_cons] at *
    cases p v <;> simp [List.countP_cons] <;> omega

theorem held_congr {ρ ρ' : Env V} {a : List Nat} (h : ∀ v ∈ a, ρ v = ρ' v) (o : Nat) : held ρ a o = held ρ' a o := by
  unfold held
  apply List.countP_congr
  intro v hv
  simp [ptsTo, h v hv]

theorem managed_fits {ρ : Env V} {vis : Nat → Prop} (ht : Typed ty ρ vis) {v : Nat} (hv : vis v) (hm : (ty v).managed = true) :
    ∃ o, ρ v = some (.obj o) := by
  obtain ⟨x, hx, hf⟩ := ht v hv
  cases x with
  | obj o => exact ⟨o, hx⟩
  | sca y => simp [Ty.fits, hm] at hf

theorem unmanaged_fits {ρ : Env V} {vis : Nat → Prop} (ht : Typed ty ρ vis) {v : Nat} (hv : vis v) (hm : (ty v).managed = false) (o : Nat) :
    ptsTo ρ o v = false := by
  obtain ⟨x, hx, hf⟩ := ht v hv
  cases x with
  | obj o => simp [Ty.fits, hm] at hf
  | sca y => simp [ptsTo, hx]

/-- Only managed values hold objects. -/
theorem held_managed {ρ : Env V} {vis : Nat → Prop} (ht : Typed ty ρ vis) {vs : List Nat} (hv : ∀ v ∈ vs, vis v) (o : Nat) :
    held ρ vs o = held ρ (managedOf ty vs) o := by
  induction vs with
  | nil => rfl
  | cons v vs ih =>
    have ih := ih fun u hu => hv u (by simp [hu])
    simp only [held, managedOf, List.countP_cons, List.filter_cons] at *
    cases hm : (ty v).managed with
    | true => simp [List.countP_cons, ih]
    | false => simp [unmanaged_fits ht (hv v (by simp)) hm, ih]

variable {S : Sem F V W} {call1 : Nat → List (RVal V) → W × Heap → Run (List (RVal V) × (W × Heap))}
  {call0 : Nat → List (RVal V) → W → Run (List (RVal V) × W)} {fuel : Nat}

theorem exec_decs {ρ : Env V} {vis : Nat → Prop} (ht : Typed ty ρ vis) {vs : List Nat} (hv : ∀ v ∈ vs, vis v ∧ (ty v).managed = true)
    (k : Ir F) (w : W) (h fr : Heap) (hh : ∀ o, h o = fr o + held ρ vs o) :
    (Ir.decs vs k).exec S.counting ty call1 fuel ρ (w, h) = k.exec S.counting ty call1 fuel ρ (w, fr) := by
  induction vs generalizing h with
  | nil =>
    have : h = fr := funext fun o => by simp [hh, held]
    rw [this]; rfl
  | cons v vs ih =>
    obtain ⟨o, ho⟩ := managed_fits ht (hv v (by simp)).1 (hv v (by simp)).2
    have hc : ∀ p, held ρ (v :: vs) p = held ρ vs p + if p = o then 1 else 0 := by
      intro p
      simp only [held, List.countP_cons, ptsTo, ho]
      by_cases e : p = o
      · subst e; simp
      · have : ¬ o = p := fun h => e h.symm
        simp [e, this]
    have h0 : h o ≠ 0 := by rw [hh, hc]; simp
    simp only [Ir.decs, Ir.exec, Env.get, ho, ok_bind, Sem.counting, if_neg h0]
    apply ih (fun u hu => hv u (by simp [hu]))
    intro p
    rw [hh, hc]
    by_cases e : p = o
    · subst e; simp
    · simp [e]

theorem exec_incs {ρ : Env V} {vis : Nat → Prop} (ht : Typed ty ρ vis) {vs : List Nat} (hv : ∀ v ∈ vs, vis v ∧ (ty v).managed = true)
    (k : Ir F) (w : W) (h h' : Heap) (ha : ∀ v ∈ vs, ∀ o, ρ v = some (.obj o) → h o ≠ 0) (hh : ∀ o, h' o = h o + held ρ vs o) :
    (Ir.incs vs k).exec S.counting ty call1 fuel ρ (w, h) = k.exec S.counting ty call1 fuel ρ (w, h') := by
  induction vs generalizing h with
  | nil =>
    have : h' = h := funext fun o => by simp [hh, held]
    rw [this]; rfl
  | cons v vs ih =>
    obtain ⟨o, ho⟩ := managed_fits ht (hv v (by simp)).1 (hv v (by simp)).2
    have hc : ∀ p, held ρ (v :: vs) p = held ρ vs p + if p = o then 1 else 0 := by
      intro p
      simp only [held, List.countP_cons, ptsTo, ho]
      by_cases e : p = o
      · subst e; simp
      · have : ¬ o = p := fun h => e h.symm
        simp [e, this]
    have h0 : h o ≠ 0 := ha v (by simp) o ho
    simp only [Ir.incs, Ir.exec, Env.get, ho, ok_bind, Sem.counting, if_neg h0]
    apply ih (fun u hu => hv u (by simp [hu]))
    · intro u hu p hp
      have := ha u (by simp [hu]) p hp
      by_cases e : p = o
      · subst e; simp
      · simpa [e] using this
    · intro p
      rw [hh, hc]
      by_cases e : p = o
      · subst e; simp; omega
      · simp [e]

theorem getAll_typed {ρ : Env V} {vis : Nat → Prop} (ht : Typed ty ρ vis) {vs : List Nat} (hv : ∀ v ∈ vs, vis v) :
    ∃ xs, ρ.getAll vs = .ok xs ∧ (∀ o, cnt xs o = held ρ vs o) ∧ ∀ o, RVal.obj o ∈ xs → ∃ v ∈ vs, ρ v = some (.obj o) := by
  induction vs with
  | nil => exact ⟨[], rfl, fun _ => rfl, by simp⟩
  | cons v vs ih =>
    obtain ⟨xs, h1, h2, h3⟩ := ih fun u hu => hv u (by simp [hu])
    obtain ⟨x, hx, hf⟩ := ht v (hv v (by simp))
    refine ⟨x :: xs, by simp [Env.getAll, Env.get, hx, h1], fun o => ?_, ?_⟩
    · have := h2 o
      simp only [cnt, held, List.countP_cons, ptsTo, hx] at *
      rw [this]
      cases x <;> rfl
    · intro o ho
      rcases List.mem_cons.1 ho with e | ho
      · exact ⟨v, by simp, by rw [hx, e]⟩
      · obtain ⟨u, hu, e⟩ := h3 o ho
        exact ⟨u, by simp [hu], e⟩

theorem get_typed {ρ : Env V} {vis : Nat → Prop} (ht : Typed ty ρ vis) {v : Nat} (hv : vis v) :
    ∃ x, ρ.get v = .ok x ∧ ρ v = some x := by
  obtain ⟨x, hx, _⟩ := ht v hv
  exact ⟨x, by simp [Env.get, hx], hx⟩

/-- What defining values does. -/
theorem bind_facts {rs : List Nat} {xs : List (RVal V)} {ρ ρ' : Env V} (hb : ρ.bind ty rs xs = .ok ρ') (hn : rs.Nodup) :
    (∀ v, v ∉ rs → ρ' v = ρ v) ∧ (∀ o, held ρ' rs o = cnt xs o) ∧ ∀ v ∈ rs, ∃ x, ρ' v = some x ∧ (ty v).fits x = true := by
  induction rs generalizing xs ρ with
  | nil =>
    cases xs with
    | nil => cases hb; exact ⟨fun _ _ => rfl, fun _ => rfl, by simp⟩
    | cons x xs => cases hb
  | cons r rs ih =>
    cases xs with
    | nil => cases hb
    | cons x xs =>
      simp only [Env.bind] at hb
      split at hb
      · rename_i hf
        rw [List.nodup_cons] at hn
        obtain ⟨h1, h2, h3⟩ := ih hb hn.2
        have hr : ρ' r = some x := by rw [h1 r hn.1]; simp [Env.upd]
        refine ⟨?_, ?_, ?_⟩
        · intro v hv
          simp only [List.mem_cons, not_or] at hv
          rw [h1 v hv.2]; simp [Env.upd, hv.1]
        · intro o
          have := h2 o
          simp only [held, cnt, List.countP_cons, ptsTo, hr] at *
          rw [this]
          cases x <;> rfl
        · intro v hv
          rcases List.mem_cons.1 hv with rfl | hv
          · exact ⟨x, hr, hf⟩
          · exact h3 v hv
      · cases hb

theorem typed_bind {rs : List Nat} {xs : List (RVal V)} {ρ ρ' : Env V} {vis : Nat → Prop} (hb : ρ.bind ty rs xs = .ok ρ') (hn : rs.Nodup)
    (ht : Typed ty ρ vis) : Typed ty ρ' fun v => vis v ∨ v ∈ rs := by
  obtain ⟨h1, _, h3⟩ := bind_facts hb hn
  intro v hv
  by_cases hr : v ∈ rs
  · exact h3 v hr
  · rw [h1 v hr]
    rcases hv with hv | hv
    · exact ht v hv
    · exact absurd hv hr

/-- Add the counters to the result of a run. -/
def wrap (fr : Heap) (m : Run (List (RVal V) × W)) : Run (List (RVal V) × (W × Heap)) :=
  m >>= fun p => .ok (p.1, (p.2, fun o => fr o + cnt p.1 o))

@[simp] theorem wrap_ok (fr : Heap) (p : List (RVal V) × W) : wrap fr (.ok p) = .ok (p.1, (p.2, fun o => fr o + cnt p.1 o)) := rfl
@[simp] theorem wrap_error (fr : Heap) (e : Stop) : wrap (V := V) (W := W) fr (.error e) = .error e := rfl

/-- The state in which the rest `c` of a block is run. -/
structure Pre (L : Nat → Prop) (ty : Nat → Ty) (ifb : Bool) (own : List Nat) (vis : Nat → Prop) (ρ : Env V) (fr : Heap) (c : Ir F) : Prop where
  wf : c.WF vis
  tame : c.Tame ty ifb own
  nodup : own.Nodup
  ownVis : ∀ v ∈ own, vis v
  typed : Typed ty ρ vis
  borrowed : ∀ v ∈ c.uses, vis v → v ∉ own → ∀ o, ρ v = some (.obj o) → 1 ≤ fr o
  lits : (∀ s ∈ c.lits, L s) ∧ ∀ s, L s → 1 ≤ fr s

/-- The claim for the rest of a block. -/
def Good (L : Nat → Prop) (S : Sem F V W) (ty : Nat → Ty) (call1 : Nat → List (RVal V) → W × Heap → Run (List (RVal V) × (W × Heap)))
    (call0 : Nat → List (RVal V) → W → Run (List (RVal V) × W)) (fuel : Nat) (c : Ir F) : Prop :=
  ∀ ifb own vis (ρ : Env V) w (h fr : Heap), Pre L ty ifb own vis ρ fr c → (∀ o, h o = fr o + held ρ (live ty c.uses own) o) →
    (pass ty ifb own c).exec S.counting ty call1 fuel ρ (w, h) = wrap fr (c.exec S.plain ty call0 fuel ρ w)

theorem mem_live {us own : List Nat} {v : Nat} : v ∈ live ty us own ↔ v ∈ own ∧ (ty v).managed = true ∧ v ∈ us := by
  simp [live]

theorem live_ne_zero {ρ : Env V} {us own : List Nat} {v o : Nat} (h1 : v ∈ own) (h2 : (ty v).managed = true) (h3 : v ∈ us)
    (h4 : ρ v = some (.obj o)) : 1 ≤ held ρ (live ty us own) o := by
  unfold held
  rw [Nat.one_le_iff_ne_zero, ← Nat.pos_iff_ne_zero, List.countP_pos_iff]
  exact ⟨v, mem_live.2 ⟨h1, h2, h3⟩, by simp [ptsTo, h4]⟩

theorem obj_managed {ρ : Env V} {vis : Nat → Prop} (ht : Typed ty ρ vis) {v o : Nat} (hv : vis v) (ho : ρ v = some (.obj o)) :
    (ty v).managed = true := by
  obtain ⟨x, hx, hf⟩ := ht v hv
  rw [ho] at hx; cases hx
  exact hf

/-- The objects of operands are alive. -/
theorem Pre.alive_use {ifb : Bool} {own : List Nat} {vis : Nat → Prop} {ρ : Env V} {fr : Heap} {c : Ir F} (P : Pre L ty ifb own vis ρ fr c)
    {v o : Nat} (hu : v ∈ c.uses) (hv : vis v) (ho : ρ v = some (.obj o)) : 1 ≤ fr o + held ρ (live ty c.uses own) o := by
  by_cases hw : v ∈ own
  · have := live_ne_zero hw (obj_managed P.typed hv ho) hu ho; omega
  · have := P.borrowed v hu hv hw o ho; omega

/-- The end of the treatment of an operation: define the results, release what is not needed any more, continue. -/
theorem finish {k : Ir F} (ih : Good L S ty call1 call0 fuel k) {ifb : Bool} {own rs used : List Nat} {vis : Nat → Prop} {ρ : Env V}
    {fr : Heap} {ys : List (RVal V)} {w : W} {h : Heap} (hwf : k.WF fun v => vis v ∨ v ∈ rs) (htame : k.Tame ty ifb (own ++ rs))
    (hn : rs.Nodup) (hfresh : ∀ v ∈ rs, ¬ vis v) (hnd : own.Nodup) (hov : ∀ v ∈ own, vis v) (ht : Typed ty ρ vis)
    (hbor : ∀ v ∈ k.uses, vis v → v ∉ own → ∀ o, ρ v = some (.obj o) → 1 ≤ fr o) (hlit : (∀ s ∈ k.lits, L s) ∧ ∀ s, L s → 1 ≤ fr s)
    (hh : ∀ o, h o = fr o + held ρ (live ty (used ++ k.uses) own) o + cnt ys o) :
    (ρ.bind ty rs ys >>= fun ρ' => (Ir.decs (dies ty own rs used k) (pass ty ifb (own ++ rs) k)).exec S.counting ty call1 fuel ρ' (w, h)) =
      wrap fr (ρ.bind ty rs ys >>= fun ρ' => k.exec S.plain ty call0 fuel ρ' w) := by
  cases hb : ρ.bind ty rs ys with
  | error e => rfl
  | ok ρ' =>
    obtain ⟨b1, b2, b3⟩ := bind_facts hb hn
    have ht' := typed_bind hb hn ht
    have hdisj : ∀ v ∈ own, v ∉ rs := fun v hv hr => hfresh v hr (hov v hv)
    simp only [ok_bind]
    rw [exec_decs ht' (fr := fun o => fr o + held ρ' (live ty k.uses (own ++ rs)) o)]
    · apply ih ifb (own ++ rs) (fun v => vis v ∨ v ∈ rs) ρ' w _ fr _ (fun _ => rfl)
      refine ⟨hwf, htame, ?_, ?_, ht', ?_, hlit⟩
      · rw [List.nodup_append]
        exact ⟨hnd, hn, fun a ha b hb e => hdisj a ha (e ▸ hb)⟩
      · intro v hv
        rcases List.mem_append.1 hv with hv | hv
        · exact .inl (hov v hv)
        · exact .inr hv
      · intro v hu hv hw o ho
        simp only [List.mem_append, not_or] at hw
        rcases hv with hv | hv
        · rw [b1 v hw.2] at ho
          exact hbor v hu hv hw.1 o ho
        · exact absurd hv hw.2
    · intro v hv
      simp only [dies, List.mem_reverse, List.mem_filter, List.mem_append, Bool.and_eq_true] at hv
      refine ⟨?_, hv.2.1⟩
      rcases hv.1 with hv | hv
      · exact .inl (hov v hv.1)
      · exact .inr hv
    · intro o
      rw [hh]
      have e1 : held ρ (live ty (used ++ k.uses) own) o = held ρ' (live ty (used ++ k.uses) own) o := by
        apply held_congr
        intro v hv
        rw [b1 v (hdisj v (mem_live.1 hv).1)]
      have e2 : held ρ' rs o = held ρ' (managedOf ty rs) o := held_managed ht' (fun v hv => .inr hv) o
      have e3 : held ρ' (live ty (used ++ k.uses) own) o + held ρ' (managedOf ty rs) o =
          held ρ' (live ty k.uses (own ++ rs)) o + held ρ' (dies ty own rs used k) o := by
        rw [dies, held_reverse, List.filter_append, held_append, show live ty k.uses (own ++ rs) = live ty k.uses own ++ live ty k.uses rs from
          List.filter_append .., held_append, live, live, live, managedOf,
          held_filter ρ' (fun v => k.uses.contains v) (own.filter _), held_filter ρ' (fun v => k.uses.contains v) (rs.filter _)]
        simp only [List.filter_filter]
        have a1 : (own.filter fun v => k.uses.contains v && ((ty v).managed && (used ++ k.uses).contains v)) =
            own.filter fun v => (ty v).managed && k.uses.contains v := by
          apply List.filter_congr; intro v _
          cases h1 : k.uses.contains v <;> cases h2 : (ty v).managed <;> simp_all
        have a2 : (own.filter fun v => !k.uses.contains v && ((ty v).managed && (used ++ k.uses).contains v)) =
            own.filter fun v => ((ty v).managed && !k.uses.contains v) && used.contains v := by
          apply List.filter_congr; intro v _
          cases h1 : k.uses.contains v <;> cases h2 : (ty v).managed <;> cases h3 : used.contains v <;> simp_all
        have a3 : (rs.filter fun v => k.uses.contains v && (ty v).managed) = rs.filter fun v => (ty v).managed && k.uses.contains v := by
          apply List.filter_congr; intro v _; exact Bool.and_comm _ _
        have a4 : (rs.filter fun v => !k.uses.contains v && (ty v).managed) = rs.filter fun v => (ty v).managed && !k.uses.contains v := by
          apply List.filter_congr; intro v _; exact Bool.and_comm _ _
        rw [a1, a2, a3, a4]
        omega
      have := b2 o
      omega

/-- A block with arguments that come with a reference each. -/
theorem block {c : Ir F} (ih : Good L S ty call1 call0 fuel c) {bs : List Nat} {vis : Nat → Prop} {ρ : Env V} {fr : Heap}
    {xs : List (RVal V)} {w : W} (hwf : c.WF fun v => vis v ∨ v ∈ bs) (htame : c.Tame ty false bs) (hn : bs.Nodup)
    (ht : Typed ty ρ vis) (hbor : ∀ v ∈ c.uses, vis v → v ∉ bs → ∀ o, ρ v = some (.obj o) → 1 ≤ fr o)
    (hlit : (∀ s ∈ c.lits, L s) ∧ ∀ s, L s → 1 ≤ fr s) :
    (ρ.bind ty bs xs >>= fun ρ' => (Ir.decs (deadArgs ty bs c) (pass ty false bs c)).exec S.counting ty call1 fuel ρ'
        (w, fun o => fr o + cnt xs o)) =
      wrap fr (ρ.bind ty bs xs >>= fun ρ' => c.exec S.plain ty call0 fuel ρ' w) := by
  cases hb : ρ.bind ty bs xs with
  | error e => rfl
  | ok ρ' =>
    obtain ⟨b1, b2, b3⟩ := bind_facts hb hn
    have ht' := typed_bind hb hn ht
    simp only [ok_bind]
    rw [exec_decs ht' (fr := fun o => fr o + held ρ' (live ty c.uses bs) o)]
    · apply ih false bs (fun v => vis v ∨ v ∈ bs) ρ' w _ fr _ (fun _ => rfl)
      refine ⟨hwf, htame, hn, fun v hv => .inr hv, ht', ?_, hlit⟩
      intro v hu hv hw o ho
      rcases hv with hv | hv
      · rw [b1 v hw] at ho
        exact hbor v hu hv hw o ho
      · exact absurd hv hw
    · intro v hv
      simp only [deadArgs, List.mem_reverse, List.mem_filter, Bool.and_eq_true] at hv
      exact ⟨.inr hv.1, hv.2.1⟩
    · intro o
      have e2 : held ρ' bs o = held ρ' (managedOf ty bs) o := held_managed ht' (fun v hv => .inr hv) o
      have e3 : held ρ' (managedOf ty bs) o = held ρ' (live ty c.uses bs) o + held ρ' (deadArgs ty bs c) o := by
        rw [deadArgs, held_reverse, live, managedOf, held_filter ρ' (fun v => c.uses.contains v) (bs.filter _)]
        simp only [List.filter_filter]
        have a3 : (bs.filter fun v => c.uses.contains v && (ty v).managed) = bs.filter fun v => (ty v).managed && c.uses.contains v := by
          apply List.filter_congr; intro v _; exact Bool.and_comm _ _
        have a4 : (bs.filter fun v => !c.uses.contains v && (ty v).managed) = bs.filter fun v => (ty v).managed && !c.uses.contains v := by
          apply List.filter_congr; intro v _; exact Bool.and_comm _ _
        rw [a3, a4]
      have := b2 o
      omega

end

end Verif.Ref
