import Verif.Dist.Compute
import Mathlib.Algebra.BigOperators.Group.List.Basic
/-
  The compute phase as a whole, and the phase that fetches an output.
-/
namespace Verif.Dist
open Verif Verif.Dense Verif.Sched

variable {V : Type}

/-! ### The compute phase -/

theorem Inv.meta {S0 S : Nat → Prop} {w w' : World V} (h : Inv S0 w) (hm : MetaOnly S w w') : Inv (fun r => S0 r ∨ S r) w' := by
  refine ⟨fun r hr => hm.none r (h.fresh r (by rw [← hm.nref]; exact hr)), ?_, hm.core h.core, ?_⟩
  · rw [hm.workers]; exact h.wfresh
  · intro r o ho hn p hp hpl
    rw [not_or] at hn
    rw [hm.others r hn.2] at ho
    rw [hm.workers]
    exact h.backed r o ho hn.1 p hp hpl

theorem Inv.weaken {S S' : Nat → Prop} {w : World V} (h : Inv S w) (hs : ∀ r, S r → S' r) : Inv S' w :=
  ⟨h.fresh, h.wfresh, h.core, fun r o ho hn => h.backed r o ho (fun hS => hn (hs r hS))⟩

theorem Inv.workers {S : Nat → Prop} {w : World V} (h : Inv S w) {W : Nat → Worker V} (he : Ext w.workers W)
    (hw : ∀ a i, (W a).counter ≤ i → (W a).data i = none) : Inv S { w with workers := W } :=
  ⟨h.fresh, hw, h.core, fun r o ho hn p hp hpl => (h.backed r o ho hn p hp hpl).ext he⟩

theorem MetaOnly.workers_irrel {S : Nat → Prop} {w w' : World V} (h : MetaOnly S w w') (W : Nat → Worker V) :
    MetaOnly S { w with workers := W } { w' with workers := W } :=
  ⟨rfl, h.nref, h.dp, h.others, h.vals, h.none, h.core⟩

theorem tasks_inv {f : List (Val V) → Res (List (Mat V))} {outs : List Nat} {S : Nat → Prop} (hS : ∀ r ∈ outs, S r) :
    ∀ (ts : List Task) (w w' : World V), Inv S w → ts.foldlM (runTask f outs) w = .ok w' →
      Inv S w' ∧ Ext w.workers w'.workers ∧ MetaOnly S { w with workers := w'.workers } w'
  | [], w, w', hi, h => by
    simp only [List.foldlM_nil] at h
    cases h
    exact ⟨hi, Ext.refl _, MetaOnly.refl _ _⟩
  | t :: ts, w, w', hi, h => by
    rw [List.foldlM_cons] at h
    obtain ⟨w1, h1, h⟩ := bind_ok h
    obtain ⟨a1, a2, W, a3⟩ := runTask_meta hS hi.wfresh h1
    have hW : w1.workers = W := a3.workers
    subst hW
    have hi1 : Inv S w1 := ((hi.workers a2 a1).meta a3).weaken (by simp)
    obtain ⟨b1, b2, b3⟩ := tasks_inv hS ts w1 w' hi1 h
    exact ⟨b1, a2.trans b2, (a3.workers_irrel w'.workers).trans b3⟩

theorem compute_inv {f : List (Val V) → Res (List (Mat V))} {ws : List Nat} {ord : Order} {k : Nat} {args : List Nat}
    {outs : List (Nat × Combine)} {w w' : World V} (hi : Inv (fun _ => False) w) (h : compute f ws ord k args outs w = .ok w') :
    Inv (fun r => r ∈ outs.map Prod.fst) w' ∧ Ext w.workers w'.workers ∧
      MetaOnly (fun r => r ∈ outs.map Prod.fst) { w with workers := w'.workers } w' := by
  unfold compute at h
  obtain ⟨w1, h1, h⟩ := bind_ok h
  obtain ⟨ts, -, h⟩ := bind_ok h
  have hm := setOutputs_meta (S := fun r => r ∈ outs.map Prod.fst) (fun x hx => List.mem_map_of_mem hx) ws 0 w w1 h1
  have hi1 : Inv (fun r => r ∈ outs.map Prod.fst) w1 := (hi.meta hm).weaken (by simp)
  obtain ⟨b1, b2, b3⟩ := tasks_inv (S := fun r => r ∈ outs.map Prod.fst) (fun r hr => hr) _ w1 w' hi1 h
  refine ⟨b1, by rw [hm.workers] at b2; exact b2, (hm.workers_irrel w'.workers).trans b3⟩

/-- Worker `a` has value `u` for argument `ref`. -/
def Provides (w : World V) (a : Nat) (ref : Nat) (u : Val V) : Prop :=
  ∃ o p, w.objs ref = some o ∧ p ∈ o.pls ∧ p.loc = a ∧ ∃ id, p.ident = some id ∧ (w.workers a).data id = some u

/-- The result of the task at worker `a` for output `o` (object `ref`) is recorded. -/
def Done (w : World V) (a : Nat) (ref : Nat) (m : Mat V) : Prop := Provides w a ref (.mat m)

theorem mapM_forall₂ {α β : Type} {f : α → Res β} {R : α → β → Prop} :
    ∀ (l : List α), (∀ a ∈ l, ∃ b, f a = .ok b ∧ R a b) → ∃ bs, l.mapM f = .ok bs ∧ List.Forall₂ R l bs
  | [], _ => ⟨[], rfl, .nil⟩
  | a :: l, h => by
    obtain ⟨b, hb, hr⟩ := h a (by simp)
    obtain ⟨bs, hbs, hrs⟩ := mapM_forall₂ l (fun x hx => h x (by simp [hx]))
    exact ⟨b :: bs, by rw [List.mapM_cons, hb, Res.ok_bind, hbs]; rfl, .cons hr hrs⟩

/-- The identifiers stand for the values. -/
def Stands (k : Worker V) (id : Option Nat) (u : Val V) : Prop := ∃ i, id = some i ∧ k.data i = some u

theorem lookups_ok {k : Worker V} : ∀ (ids : List (Option Nat)) (us : List (Val V)), List.Forall₂ (Stands k) ids us →
    ids.mapM k.lookup = .ok us
  | _, _, .nil => rfl
  | _, _, .cons (a := id) (b := u) (l₁ := ids) (l₂ := us) ⟨i, e, h⟩ t => by
    rw [List.mapM_cons, e]
    simp only [Worker.lookup, h, Res.ok_bind, lookups_ok ids us t]
    rfl

theorem argIdents_ok {w : World V} {a : Nat} (hc : ∀ r o, w.objs r = some o → ObjCore w.nextDp o) :
    ∀ (args : List Nat) (us : List (Val V)), List.Forall₂ (Provides w a) args us →
      ∃ ids, args.mapM (argIdent w a) = .ok ids ∧ List.Forall₂ (Stands (w.workers a)) ids us
  | _, _, .nil => ⟨[], rfl, .nil⟩
  | _, _, .cons (a := ref) (b := u) (l₁ := args) (l₂ := us) ⟨o, p, ho, hp, hl, id, hid, hd⟩ t => by
    obtain ⟨ids, h1, h2⟩ := argIdents_ok hc args us t
    refine ⟨some id :: ids, ?_, .cons ⟨id, rfl, hd⟩ h2⟩
    rw [List.mapM_cons]
    simp only [argIdent, ho, findLoc_of_mem (hc ref o ho).locs hp hl, Res.ok_bind, hid]
    rw [show args.mapM (argIdent w a) = .ok ids from h1]
    rfl

structure Running (f : List (Val V) → Res (List (Mat V))) (ws : List Nat) (outs : List Nat) (ms : Nat → List (Mat V)) (w0 : World V)
    (ts : List Task) (w : World V) : Prop where
  wfresh : ∀ a i, (w.workers a).counter ≤ i → (w.workers a).data i = none
  core : ∀ r o, w.objs r = some o → ObjCore w.nextDp o
  ext : Ext w0.workers w.workers
  locs : ∀ i (hi : i < ws.length), ∀ r ∈ outs, ∃ o, w.objs r = some o ∧ ∃ p ∈ o.pls, p.loc = ws[i]
  tasks : ∀ t ∈ ts, ∃ i, ∃ hi : i < ws.length, t.addr = ws[i] ∧ ∃ us, List.Forall₂ (Stands (w0.workers ws[i])) t.idents us ∧ f us = .ok (ms i)
  done : ∀ i (hi : i < ws.length), (∃ t ∈ ts, t.addr = ws[i]) ∨
    ∀ o (ho : o < outs.length) (ho' : o < (ms i).length), Done w ws[i] outs[o] (ms i)[o]
  ranges : ∀ r o', w.objs r = some o' → ∃ o, w0.objs r = some o ∧ o'.val = o.val ∧
    (∀ p ∈ o.pls, ∃ p' ∈ o'.pls, p'.loc = p.loc ∧ p'.range = p.range) ∧ ∀ p' ∈ o'.pls, ∃ p ∈ o.pls, p'.loc = p.loc

theorem running_step {f : List (Val V) → Res (List (Mat V))} {ws : List Nat} (hws : ws.Nodup) {outs : List Nat} (houts : outs.Nodup)
    {ms : Nat → List (Mat V)} (hms : ∀ i, i < ws.length → (ms i).length = outs.length) {w0 : World V} {t : Task} {ts : List Task} {w : World V}
    (hj : Running f ws outs ms w0 (t :: ts) w) : ∃ w', runTask f outs w t = .ok w' ∧ Running f ws outs ms w0 ts w' := by
  obtain ⟨i, hi, ha, us, hus, hf⟩ := hj.tasks t (by simp)
  have hus' : List.Forall₂ (Stands (w.workers ws[i])) t.idents us :=
    hus.imp (fun id u ⟨k, e, hd⟩ => ⟨k, e, hj.ext _ _ _ hd⟩)
  cases hst : Worker.storeAll (ms i) (w.workers t.addr) with
  | mk k' is =>
  obtain ⟨a1, a2, a3, a4⟩ := storeAll_spec (ms i) _ k' is (hj.wfresh t.addr) hst
  obtain ⟨w', hr, hd⟩ := record_ok (a := t.addr) outs is (w.setWorker t.addr k') houts (by rw [a3, hms i hi])
    (fun r hr => by rw [ha]; exact hj.locs i hi r hr) hj.core
  have hrun : runTask f outs w t = .ok w' := by
    unfold runTask
    rw [ha] at *
    simp only [lookups_ok _ _ hus', Res.ok_bind, hf, hst]
    exact hr
  obtain ⟨b1, b2, W, hm⟩ := runTask_meta (S := fun r => r ∈ outs) (fun r h => h) hj.wfresh hrun
  have hwk : w'.workers = (w.setWorker t.addr k').workers := (record_meta (S := fun _ => True) outs is _ w' (fun _ _ => trivial) hr).workers
  -- how the placements of the outputs change
  have hout : ∀ r ∈ outs, ∃ x x', w.objs r = some x ∧ w'.objs r = some x' ∧
      (∀ p ∈ x.pls, ∃ p' ∈ x'.pls, p'.loc = p.loc ∧ p'.range = p.range ∧ (p.loc ≠ t.addr → p' = p)) ∧
      (∀ p' ∈ x'.pls, ∃ p ∈ x.pls, p'.loc = p.loc) := by
    intro r hro
    obtain ⟨o, ho, rfl⟩ := List.getElem_of_mem hro
    obtain ⟨x, x', e1, e2, e3, e4⟩ := hd o ho (by rw [a3, hms i hi]; exact ho)
    refine ⟨x, x', e1, e2, fun p hp => ?_, e4⟩
    have := e3 p hp
    split at this
    · rename_i e
      exact ⟨_, this, rfl, rfl, fun hne => absurd e hne⟩
    · exact ⟨p, this, rfl, rfl, fun _ => rfl⟩
  refine ⟨w', hrun, b1, ?_, hj.ext.trans b2, ?_, fun t' ht' => hj.tasks t' (by simp [ht']), ?_, ?_⟩
  · exact hm.core hj.core
  · intro j hjl r hro
    obtain ⟨o, ho, p, hp, hl⟩ := hj.locs j hjl r hro
    obtain ⟨x, x', e1, e2, e3, -⟩ := hout r hro
    rw [ho] at e1
    cases e1
    obtain ⟨p', hp', hl', -⟩ := e3 p hp
    exact ⟨x', e2, p', hp', hl'.trans hl⟩
  · intro j hjl
    by_cases hij : ws[j] = t.addr
    · -- this worker
      have hji : j = i := by
        have := hij.trans ha
        exact (List.Nodup.getElem_inj_iff hws).1 this
      subst hji
      refine Or.inr fun o ho ho' => ?_
      obtain ⟨x, x', e1, e2, e3, -⟩ := hd o ho (by rw [a3]; exact ho')
      obtain ⟨o1, ho1, p, hp, hl⟩ := hj.locs j hjl outs[o] (List.getElem_mem _)
      simp only [World.setWorker] at e1
      rw [ho1] at e1
      cases e1
      have h3 := e3 p hp
      rw [if_pos (hl.trans hij)] at h3
      refine ⟨x', _, e2, h3, hl, _, rfl, ?_⟩
      rw [hwk, hij]
      simp only [World.setWorker, if_true]
      exact a4 o ho' _
    · rcases hj.done j hjl with ⟨t', ht', e⟩ | h
      · simp only [List.mem_cons] at ht'
        rcases ht' with rfl | ht'
        · exact absurd e.symm hij
        · exact Or.inl ⟨t', ht', e⟩
      · refine Or.inr fun o ho ho' => ?_
        obtain ⟨x0, p, e0, hp, hl, id, hid, hdt⟩ := h o ho ho'
        obtain ⟨x, x', e1, e2, e3, -⟩ := hout outs[o] (List.getElem_mem _)
        rw [e0] at e1
        cases e1
        obtain ⟨p', hp', hl', -, heq⟩ := e3 p hp
        have := heq (by rw [hl]; exact hij)
        subst this
        exact ⟨x', p', e2, hp', hl, id, hid, b2 _ _ _ hdt⟩
  · intro r o' ho'
    by_cases hro : r ∈ outs
    · obtain ⟨x, x', e1, e2, e3, e4⟩ := hout r hro
      rw [ho'] at e2
      cases e2
      obtain ⟨o0, h0, hv, hr1, hr2⟩ := hj.ranges r x e1
      obtain ⟨o1, ho1, hv1⟩ := hm.vals r x e1
      rw [ho'] at ho1
      cases ho1
      refine ⟨o0, h0, hv1.trans hv, fun p hp => ?_, fun p' hp' => ?_⟩
      · obtain ⟨p1, hp1, l1, g1⟩ := hr1 p hp
        obtain ⟨p2, hp2, l2, g2, -⟩ := e3 p1 hp1
        exact ⟨p2, hp2, l2.trans l1, g2.trans g1⟩
      · obtain ⟨p1, hp1, l1⟩ := e4 p' hp'
        obtain ⟨p2, hp2, l2⟩ := hr2 p1 hp1
        exact ⟨p2, hp2, l1.trans l2⟩
    · rw [hm.others r hro] at ho'
      exact hj.ranges r o' ho'

theorem Running.perm {f : List (Val V) → Res (List (Mat V))} {ws : List Nat} {outs : List Nat} {ms : Nat → List (Mat V)} {w0 : World V}
    {ts ts' : List Task} {w : World V} (h : Running f ws outs ms w0 ts w) (e : ts'.Perm ts) : Running f ws outs ms w0 ts' w :=
  ⟨h.wfresh, h.core, h.ext, h.locs, fun t ht => h.tasks t (e.mem_iff.1 ht), fun i hi => by
    rcases h.done i hi with ⟨t, ht, e'⟩ | h'
    · exact Or.inl ⟨t, e.mem_iff.2 ht, e'⟩
    · exact Or.inr h', h.ranges⟩

/-- The compute phase: every worker's results are recorded in the metadata of the outputs. -/
theorem compute_ok {f : List (Val V) → Res (List (Mat V))} {ws : List Nat} (hws : ws.Nodup) {ord : Order} (hord : ord.Valid) {k : Nat}
    {args : List Nat} {outs : List (Nat × Combine)} (houts : (outs.map Prod.fst).Nodup) {w : World V} (hi : Inv (fun _ => False) w)
    (hobj : ∀ x ∈ outs, (∃ o, w.objs x.1 = some o ∧ o.pls = []) ∧ (x.2 = .rows ∨ x.2 = .cols ∨ x.2 = .add))
    (hargs : ∀ r ∈ args, r ∉ outs.map Prod.fst)
    {ms : Nat → List (Mat V)} (hms : ∀ i, i < ws.length → (ms i).length = outs.length)
    (hval : ∀ i (hi : i < ws.length), ∃ us, List.Forall₂ (Provides w ws[i]) args us ∧ f us = .ok (ms i)) :
    ∃ w', compute f ws ord k args outs w = .ok w' ∧
      ∀ o (ho : o < outs.length), ∃ x x', w.objs outs[o].1 = some x ∧ w'.objs outs[o].1 = some x' ∧ x'.val = x.val ∧
        OutMeta ws.length ws 0 outs[o].2 x' ∧
        ∀ i (hi : i < ws.length) (ho' : o < (ms i).length), Done w' ws[i] outs[o].1 (ms i)[o] := by
  obtain ⟨w1, h1, hd1⟩ := setOutputs_ok (n := ws.length) houts ws 0 w hws
    (fun x hx => ⟨by obtain ⟨⟨o, ho, -⟩, -⟩ := hobj x hx; exact ⟨o, ho⟩, (hobj x hx).2⟩) hi.core
  have hm := setOutputs_meta (S := fun r => r ∈ outs.map Prod.fst) (fun x hx => List.mem_map_of_mem hx) ws 0 w w1 h1
  have hcore := hm.core hi.core
  have htask : ∀ a ∈ ws, ∃ t, mkTask w1 args a = .ok t ∧ (t.addr = a ∧ ∃ i, ∃ hi : i < ws.length, a = ws[i] ∧
      ∃ us, List.Forall₂ (Stands (w1.workers ws[i])) t.idents us ∧ f us = .ok (ms i)) := by
    intro a ha
    obtain ⟨i, hil, rfl⟩ := List.getElem_of_mem ha
    obtain ⟨us, hus, hf⟩ := hval i hil
    have hus1 : List.Forall₂ (Provides w1 ws[i]) args us := by
      have : ∀ (as : List Nat) (us : List (Val V)), (∀ r ∈ as, r ∉ outs.map Prod.fst) → List.Forall₂ (Provides w ws[i]) as us →
          List.Forall₂ (Provides w1 ws[i]) as us := by
        intro as us hn h
        induction h with
        | nil => exact .nil
        | cons hp _ ih =>
          refine .cons ?_ (ih (fun r hr => hn r (by simp [hr])))
          obtain ⟨o, p, ho, hrest⟩ := hp
          exact ⟨o, p, by rw [hm.others _ (hn _ (by simp))]; exact ho, by rw [hm.workers]; exact hrest⟩
      exact this args us hargs hus
    obtain ⟨ids, e1, e2⟩ := argIdents_ok hcore args us hus1
    exact ⟨⟨ws[i], ids⟩, by unfold mkTask; rw [e1]; rfl, rfl, i, hil, rfl, us, e2, hf⟩
  obtain ⟨ts, ht1, ht2⟩ := mapM_forall₂ ws htask
  have hout : ∀ i (hi : i < ws.length), ∀ r ∈ outs.map Prod.fst, ∃ o, w1.objs r = some o ∧ ∃ p ∈ o.pls, p.loc = ws[i] := by
    intro i hil r hr
    obtain ⟨x, hx, rfl⟩ := List.mem_map.1 hr
    obtain ⟨o, o', e1, e2, e3, -⟩ := hd1 x hx
    obtain ⟨p, hp, hl, -⟩ := e3 i hil
    exact ⟨o', e2, p, hp, hl⟩
  have hbase : Running f ws (outs.map Prod.fst) ms w1 ts w1 := by
    refine ⟨by rw [hm.workers]; exact hi.wfresh, hcore, Ext.refl _, hout, ?_, ?_, ?_⟩
    · intro t ht
      obtain ⟨j, hj, rfl⟩ := List.getElem_of_mem ht
      have hlen := ht2.length_eq
      have hR := List.Forall₂.get ht2 (i := j) (by omega) hj
      simp only [List.get_eq_getElem] at hR
      obtain ⟨e, i, hil, ei, rest⟩ := hR
      exact ⟨i, hil, e.trans ei, rest⟩
    · intro i hil
      have hlen := ht2.length_eq
      have hR := List.Forall₂.get ht2 (i := i) hil (by omega)
      simp only [List.get_eq_getElem] at hR
      exact Or.inl ⟨_, List.getElem_mem _, hR.1⟩
    · intro r o' ho'
      exact ⟨o', ho', rfl, fun p hp => ⟨p, hp, rfl, rfl⟩, fun p hp => ⟨p, hp, rfl⟩⟩
  obtain ⟨w', hw', hfin⟩ := foldlM_total (Running f ws (outs.map Prod.fst) ms w1)
    (fun x xs s hJ => running_step hws houts (by simpa using hms) hJ) (ord Task k ts) w1 (hbase.perm (hord _ _ _))
  refine ⟨w', ?_, ?_⟩
  · unfold compute
    rw [h1, Res.ok_bind]
    rw [show ws.mapM (mkTask w1 args) = .ok ts from ht1, Res.ok_bind]
    exact hw'
  · intro o ho
    obtain ⟨x, x1, e1, e2, e3, e4, e5⟩ := hd1 outs[o] (List.getElem_mem _)
    obtain ⟨⟨x0, hx0, hpl⟩, -⟩ := hobj outs[o] (List.getElem_mem _)
    rw [hx0] at e1
    cases e1
    obtain ⟨x1', hx1', hv1⟩ := hm.vals _ _ hx0
    rw [e2] at hx1'
    cases hx1'
    have hb := tasks_inv (S := fun _ => True) (fun _ _ => trivial) _ w1 w' ((hi.meta hm).weaken (fun _ _ => trivial)) hw'
    obtain ⟨x', hx', hv'⟩ := hb.2.2.vals _ _ (show ({ w1 with workers := w'.workers } : World V).objs outs[o].1 = some x1 from e2)
    obtain ⟨x1'', hx1'', -, r1, r2⟩ := hfin.ranges _ x' hx'
    rw [e2] at hx1''
    cases hx1''
    refine ⟨x, x', hx0, hx', hv'.trans hv1, ⟨fun j hj => ?_, fun p hp => ?_⟩, fun i hil ho' => ?_⟩
    · obtain ⟨p, hp, hl, hg⟩ := e3 j hj
      obtain ⟨p', hp', hl', hg'⟩ := r1 p hp
      exact ⟨p', hp', hl'.trans hl, by rw [hv', hv1, hg']; exact hg⟩
    · obtain ⟨p1, hp1, hl⟩ := r2 p hp
      rw [hl]
      by_contra hn
      have := e4 p1 hp1 hn
      rw [hpl] at this
      simp at this
    · rcases hfin.done i hil with ⟨t, ht, -⟩ | h
      · simp at ht
      · have := h o (by simpa using ho) ho'
        simpa using this

/-! ### Fetching -/

theorem ofMat_is (m : Mat V) : (ofMat m).Is m := by
  refine is_new (f := m.cell) rfl ?_
  intro r c _ hc
  have h1 : (r * m.cols + c) / m.cols = r := by
    rw [Nat.add_comm, Nat.add_mul_div_right _ _ (by omega), Nat.div_eq_of_lt hc, Nat.zero_add]
  have h2 : (r * m.cols + c) % m.cols = c := by
    rw [Nat.add_comm, Nat.add_mul_mod_self_right, Nat.mod_eq_of_lt hc]
  show m.cell ((r * m.cols + c) / m.cols) ((r * m.cols + c) % m.cols) = m.cell r c
  rw [h1, h2]

theorem new_start (r c : Nat) : (Hdr.new r c).start = 0 := by simp [Hdr.start, Hdr.isPartial, Hdr.new]

theorem toMat_new (r c : Nat) (b : Buf V) : toMat ⟨Hdr.new r c, b⟩ = ⟨r, c, fun i j => b.data (0 + i * c + j)⟩ := by
  unfold toMat DM.addr
  rw [new_start]
  rfl

/-- Copying a piece into the result. -/
theorem copy_piece [Add V] {comb : Combine} (hne : comb ≠ .add) {m c F : Mat V} {g : Range}
    (hR : g.rStart + g.rLen ≤ m.rows) (hC : g.cStart + g.cLen ≤ m.cols) (hr : g.rLen ≤ c.rows) (hc : g.cLen ≤ c.cols)
    (hF : ∀ i j, i < g.rLen → j < g.cLen → c.cell i j = F.cell (g.rStart + i) (g.cStart + j)) :
    ∃ x, combineInto comb (ofMat m) g (ofMat c) = .ok x ∧ (toMat x).rows = m.rows ∧ (toMat x).cols = m.cols ∧
      ∀ i j, i < m.rows → j < m.cols → (toMat x).cell i j =
        if (g.rStart ≤ i ∧ i < g.rStart + g.rLen) ∧ (g.cStart ≤ j ∧ j < g.cStart + g.cLen) then F.cell i j else m.cell i j := by
  have hloop : Res.Ok (forLoop 0 g.rLen (ofMat m).mem fun r b =>
      (ofMat c).mem.copy ((ofMat c).h.start + r * (ofMat c).h.rowSkip) b
        ((ofMat m).h.start + g.rStart * (ofMat m).h.rowSkip + r * (ofMat m).h.rowSkip + g.cStart) g.cLen)
      (fun b => b.size = m.rows * m.cols ∧ ∀ i j, i < m.rows → j < m.cols → b.data (0 + i * m.cols + j) =
        if (g.rStart ≤ i ∧ i < g.rStart + g.rLen) ∧ (g.cStart ≤ j ∧ j < g.cStart + g.cLen) then F.cell i j else m.cell i j) := by
    refine forLoop_post (fun k (b : Buf V) => b.size = m.rows * m.cols ∧ ∀ i j, i < m.rows → j < m.cols → b.data (0 + i * m.cols + j) =
        if (g.rStart ≤ i ∧ i < g.rStart + k) ∧ (g.cStart ≤ j ∧ j < g.cStart + g.cLen) then F.cell i j else m.cell i j)
      0 g.rLen _ (Nat.zero_le _) ⟨rfl, ?_⟩ ?_ (fun b h => h)
    · intro i j hi hj
      rw [if_neg (by omega)]
      have := (ofMat_is m).2.2.2 i j hi hj
      have hw := (ofMat_is m).1.get (r := i) (c := j) hi hj
      rw [hw] at this
      injection this with this
    · rintro k b hk0 hk ⟨hs, hb⟩
      have e1 : (ofMat c).h.start = 0 := new_start _ _
      have e2 : (ofMat m).h.start = 0 := new_start _ _
      have e3 : (ofMat c).h.rowSkip = c.cols := rfl
      have e4 : (ofMat m).h.rowSkip = m.cols := rfl
      rw [e1, e2, e3, e4]
      have hsrc : g.cLen = 0 ∨ 0 + k * c.cols + g.cLen ≤ (ofMat c).mem.size := by
        by_cases h0 : g.cLen = 0
        · exact Or.inl h0
        · right
          show 0 + k * c.cols + g.cLen ≤ c.rows * c.cols
          have h1 : (k + 1) * c.cols ≤ c.rows * c.cols := Nat.mul_le_mul_right _ (by omega)
          have h2 : (k + 1) * c.cols = k * c.cols + c.cols := by ring
          omega
      have hrow : 0 + g.rStart * m.cols + k * m.cols + g.cStart = (g.rStart + k) * m.cols + g.cStart := by ring
      have hdst : g.cLen = 0 ∨ 0 + g.rStart * m.cols + k * m.cols + g.cStart + g.cLen ≤ b.size := by
        right
        rw [hs, hrow]
        have h1 : (g.rStart + k + 1) * m.cols ≤ m.rows * m.cols := Nat.mul_le_mul_right _ (by omega)
        have h2 : (g.rStart + k + 1) * m.cols = (g.rStart + k) * m.cols + m.cols := by ring
        omega
      refine (Buf.copy_ok hsrc hdst).mono ?_
      rintro b' ⟨hs', hb'⟩
      refine ⟨hs'.trans hs, fun i j hi hj => ?_⟩
      rw [hb', hrow, hb i j hi hj]
      have hseg := rm_seg_iff (s := m.cols) (r := i) (r' := g.rStart + k) (c := j) (c0 := g.cStart) (c1 := g.cStart + g.cLen) hj hC
      have hq : ((g.rStart + k) * m.cols + g.cStart ≤ 0 + i * m.cols + j ∧
          0 + i * m.cols + j < (g.rStart + k) * m.cols + g.cStart + g.cLen) ↔ (i = g.rStart + k ∧ g.cStart ≤ j ∧ j < g.cStart + g.cLen) := by
        rw [← hseg]
        constructor <;> (rintro ⟨h1, h2⟩; constructor <;> omega)
      by_cases hin : i = g.rStart + k ∧ g.cStart ≤ j ∧ j < g.cStart + g.cLen
      · rw [if_pos (hq.2 hin), if_pos (by omega)]
        obtain ⟨rfl, h1, h2⟩ := hin
        have hidx : 0 + k * c.cols + (0 + (g.rStart + k) * m.cols + j - ((g.rStart + k) * m.cols + g.cStart)) = k * c.cols + (j - g.cStart) := by
          omega
        rw [hidx]
        have := (ofMat_is c).2.2.2 k (j - g.cStart) (by omega) (by omega)
        have hw := (ofMat_is c).1.get (r := k) (c := j - g.cStart) (show k < c.rows by omega) (show j - g.cStart < c.cols by omega)
        rw [hw] at this
        injection this with this
        have h5 : (ofMat c).mem.data (k * c.cols + (j - g.cStart)) = c.cell k (j - g.cStart) := by
          simpa [ofMat, Hdr.new] using this
        rw [h5, hF k (j - g.cStart) (by omega) (by omega), show g.cStart + (j - g.cStart) = j by omega]
      · rw [if_neg (fun h => hin (hq.1 h))]
        have : ((g.rStart ≤ i ∧ i < g.rStart + k) ∧ g.cStart ≤ j ∧ j < g.cStart + g.cLen) ↔
            ((g.rStart ≤ i ∧ i < g.rStart + (k + 1)) ∧ g.cStart ≤ j ∧ j < g.cStart + g.cLen) := by
          constructor
          · rintro ⟨⟨h1, h2⟩, h3⟩; exact ⟨⟨h1, by omega⟩, h3⟩
          · rintro ⟨⟨h1, h2⟩, h3⟩
            refine ⟨⟨h1, ?_⟩, h3⟩
            by_contra hx
            exact hin ⟨by omega, h3⟩
        simp only [this]
  obtain ⟨b, hb, hs, hcell⟩ := hloop
  refine ⟨⟨(ofMat m).h, b⟩, ?_, rfl, rfl, ?_⟩
  · unfold combineInto
    rw [if_neg hne, hb]
    rfl
  · intro i j hi hj
    have e : toMat ⟨(ofMat m).h, b⟩ = ⟨m.rows, m.cols, fun i j => b.data (0 + i * m.cols + j)⟩ := toMat_new _ _ _
    rw [e]
    exact hcell i j hi hj

/-- Adding a piece to the result. -/
theorem add_piece [Add V] {m c : Mat V} {g : Range} (hr : c.rows = m.rows) (hc : c.cols = m.cols) :
    ∃ x, combineInto .add (ofMat m) g (ofMat c) = .ok x ∧ (toMat x).rows = m.rows ∧ (toMat x).cols = m.cols ∧
      ∀ i j, i < m.rows → j < m.cols → (toMat x).cell i j = m.cell i j + c.cell i j := by
  obtain ⟨z, hz, hzi, hzh⟩ := C38_ewBinaryMat_inPlace (· + ·) (ofMat m) (ofMat c) m c (ofMat_is m) (ofMat_is c) hr hc
  refine ⟨z, by unfold combineInto; rw [if_pos rfl]; exact hz, ?_, ?_, ?_⟩
  · show z.h.numRows = m.rows; rw [hzh]; rfl
  · show z.h.numCols = m.cols; rw [hzh]; rfl
  · intro i j hi hj
    have h1 := hzi.2.2.2 i j hi hj
    have h2 := hzi.1.get (r := i) (c := j) (by rw [hzh]; exact hi) (by rw [hzh]; exact hj)
    rw [h2] at h1
    injection h1 with h1
    show z.mem.data (z.addr i j) = _
    unfold DM.addr
    rw [hzi.1.start]
    exact h1

/-- What a placement stands for when it is fetched. -/
def Fetched (w : World V) (p : Placement) (c : Mat V) : Prop := ∃ id, p.ident = some id ∧ (w.workers p.loc).data id = some (.mat c)

/-- The state while an output is being fetched; `C` describes its contents. -/
structure Fetching (ref : Nat) (w0 : World V) (C : List Placement → Mat V → Prop) (rs : List Placement) (w : World V) : Prop where
  workers : w.workers = w0.workers
  dp : w.nextDp = w0.nextDp
  nref : w.nextRef = w0.nextRef
  others : ∀ r, r ≠ ref → w.objs r = w0.objs r
  obj : ∃ m pls, w.objs ref = some ⟨.mat m, pls⟩ ∧ ObjCore w.nextDp (⟨.mat m, pls⟩ : Obj V) ∧ C rs m ∧
    ∀ p ∈ pls, p.placed = true → ∃ q ∈ rs, q.id = p.id

theorem transfer_step [Add V] {comb : Combine} {ref : Nat} {w0 : World V} {C : List Placement → Mat V → Prop} {p : Placement}
    {rs : List Placement} {w w' : World V} (hj : Fetching ref w0 C (p :: rs) w) (h : transfer comb ref w p = .ok w')
    (hC : ∀ m c x, C (p :: rs) m → Fetched w0 p c → combineInto comb (ofMat m) p.range (ofMat c) = .ok x → C rs (toMat x)) :
    Fetching ref w0 C rs w' := by
  obtain ⟨m, pls, ho, hc, hCm, hpl⟩ := hj.obj
  unfold transfer at h
  rw [ho] at h
  simp only at h
  obtain ⟨v, hv, h⟩ := bind_ok h
  cases v with
  | scalar s => cases h
  | mat c =>
    simp only at h
    obtain ⟨x, hx, h⟩ := bind_ok h
    injection h with h
    subst h
    have hf : Fetched w0 p c := by
      rw [hj.workers] at hv
      cases hid : p.ident with
      | none => rw [hid] at hv; cases hv
      | some id =>
        rw [hid] at hv
        simp only [Worker.lookup] at hv
        refine ⟨id, hid, ?_⟩
        cases hd : (w0.workers p.loc).data id with
        | none => rw [hd] at hv; cases hv
        | some u => rw [hd] at hv; cases hv; rfl
    refine ⟨hj.workers, hj.dp, hj.nref, fun r hr => ?_, toMat x, _, by simp only [World.setObj, if_true, Obj.update]; rfl, ?_, hC m c x hCm hf hx, ?_⟩
    · simp only [World.setObj, if_neg hr]
      exact hj.others r hr
    · exact update_core (o := ⟨.mat (toMat x), pls⟩) (f := fun p => { p with placed := false }) (id := p.id)
        ⟨hc.locs, hc.ids, hc.lt⟩ (fun _ _ _ => ⟨rfl, rfl⟩)
    · intro q hq hqp
      obtain ⟨q0, hq0, rfl⟩ := List.mem_map.1 hq
      split at hqp
      · simp at hqp
      · rename_i hne
        rw [if_neg hne]
        obtain ⟨r, hr, e⟩ := hpl q0 hq0 hqp
        simp only [List.mem_cons] at hr
        rcases hr with rfl | hr
        · exact absurd e.symm hne
        · exact ⟨r, hr, e⟩

theorem transfer_ok [Add V] {comb : Combine} {ref : Nat} {w0 : World V} {C : List Placement → Mat V → Prop} {p : Placement}
    {rs : List Placement} {w : World V} (hj : Fetching ref w0 C (p :: rs) w)
    (hC : ∀ m, C (p :: rs) m → ∃ c, Fetched w0 p c ∧ ∃ x, combineInto comb (ofMat m) p.range (ofMat c) = .ok x) :
    ∃ w', transfer comb ref w p = .ok w' := by
  obtain ⟨m, pls, ho, hc, hCm, hpl⟩ := hj.obj
  obtain ⟨c, ⟨id, hid, hd⟩, x, hx⟩ := hC m hCm
  refine ⟨w.setObj ref (Obj.update ⟨.mat (toMat x), pls⟩ p.id (fun p => { p with placed := false })), ?_⟩
  unfold transfer
  rw [ho]
  simp only [hid, hj.workers, Worker.lookup, hd, Res.ok_bind, hx]

/-- Fetching, whatever was computed: only this output changes, and afterwards it is not marked as stored at any worker. -/
theorem collect_inv [Add V] {ord : Order} (hord : ord.Valid) {k ref : Nat} {comb : Combine} {w w' : World V} {S : Nat → Prop}
    (hi : Inv S w) (h : collect ord k ref comb w = .ok w') :
    Inv (fun r => S r ∧ r ≠ ref) w' ∧ (∀ r, r ≠ ref → w'.objs r = w.objs r) ∧ w'.workers = w.workers ∧ w'.nextRef = w.nextRef ∧
      w'.nextDp = w.nextDp ∧ ∃ o, w'.objs ref = some o := by
  unfold collect at h
  cases ho : w.objs ref with
  | none => rw [ho] at h; cases h
  | some o =>
    rw [ho] at h
    simp only at h
    cases hv : o.val with
    | scalar s =>
      -- such an object cannot be fetched, unless it has no placements
      cases hl : ord Placement k o.pls with
      | nil =>
        rw [hl] at h
        simp only [List.foldlM_nil] at h
        cases h
        have hnil : o.pls = [] := by
          have := hord Placement k o.pls
          rw [hl] at this
          exact List.Perm.nil_eq this |>.symm
        refine ⟨⟨hi.fresh, hi.wfresh, hi.core, fun r o' ho' hn p hp hpl => ?_⟩, fun _ _ => rfl, rfl, rfl, rfl, o, ho⟩
        by_cases e : r = ref
        · subst e
          rw [ho] at ho'
          cases ho'
          rw [hnil] at hp
          simp at hp
        · exact hi.backed r o' ho' (fun hs => hn ⟨hs, e⟩) p hp hpl
      | cons p ps =>
        rw [hl, List.foldlM_cons] at h
        obtain ⟨w1, h1, -⟩ := bind_ok h
        unfold transfer at h1
        obtain ⟨ov, opl⟩ := o
        simp only at hv
        subst hv
        rw [ho] at h1
        cases h1
    | mat m =>
      have hbase : Fetching ref w (fun _ _ => True) (ord Placement k o.pls) w := by
        refine ⟨rfl, rfl, rfl, fun _ _ => rfl, m, o.pls, ?_, ?_, trivial, fun p hp _ => ⟨p, (hord _ _ _).mem_iff.2 hp, rfl⟩⟩
        · rw [ho, ← hv]
        · have hc := hi.core ref o ho
          exact ⟨hc.locs, hc.ids, hc.lt⟩
      have hfin := foldlM_partial (Fetching ref w (fun _ _ => True))
        (fun x xs s s' hJ he => transfer_step hJ he (fun _ _ _ _ _ _ => trivial)) _ _ _ h hbase
      obtain ⟨m', pls', ho', hc', -, hpl⟩ := hfin.obj
      refine ⟨⟨?_, ?_, ?_, ?_⟩, hfin.others, hfin.workers, hfin.nref, hfin.dp, _, ho'⟩
      · intro r hr
        rw [hfin.nref] at hr
        have : r ≠ ref := by rintro rfl; rw [hi.fresh r hr] at ho; cases ho
        rw [hfin.others r this]
        exact hi.fresh r hr
      · rw [hfin.workers]; exact hi.wfresh
      · intro r o1 h1
        by_cases e : r = ref
        · subst e; rw [ho'] at h1; cases h1; exact hc'
        · rw [hfin.others r e] at h1; rw [hfin.dp]; exact hi.core r o1 h1
      · intro r o1 h1 hn p hp hpp
        by_cases e : r = ref
        · subst e
          rw [ho'] at h1
          cases h1
          obtain ⟨q, hq, -⟩ := hpl p hp hpp
          simp at hq
        · rw [hfin.others r e] at h1
          rw [hfin.workers]
          exact hi.backed r o1 h1 (fun hs => hn ⟨hs, e⟩) p hp hpp

/-- Fetching an output that is combined by rows or columns. -/
theorem collect_rc [Add V] {ord : Order} (hord : ord.Valid) {k ref : Nat} {comb : Combine} (hne : comb ≠ .add) {w : World V} {o : Obj V} {m F : Mat V}
    (ho : w.objs ref = some o) (hv : o.val = .mat m) (hc : ObjCore w.nextDp o) (hR : m.rows = F.rows) (hC : m.cols = F.cols)
    (hp : ∀ p ∈ o.pls, p.range.rStart + p.range.rLen ≤ F.rows ∧ p.range.cStart + p.range.cLen ≤ F.cols ∧
      ∃ c, Fetched w p c ∧ p.range.rLen ≤ c.rows ∧ p.range.cLen ≤ c.cols ∧
        ∀ i j, i < p.range.rLen → j < p.range.cLen → c.cell i j = F.cell (p.range.rStart + i) (p.range.cStart + j))
    (hcov : ∀ i j, i < F.rows → j < F.cols → ∃ p ∈ o.pls, (p.range.rStart ≤ i ∧ i < p.range.rStart + p.range.rLen) ∧
      (p.range.cStart ≤ j ∧ j < p.range.cStart + p.range.cLen)) :
    ∃ w', collect ord k ref comb w = .ok w' ∧ w'.HasMat ref F := by
  let C : List Placement → Mat V → Prop := fun rs m => m.rows = F.rows ∧ m.cols = F.cols ∧ (∀ p ∈ rs, p ∈ o.pls) ∧
    ∀ p ∈ o.pls, p ∈ rs ∨ ∀ i j, (p.range.rStart ≤ i ∧ i < p.range.rStart + p.range.rLen) →
      (p.range.cStart ≤ j ∧ j < p.range.cStart + p.range.cLen) → m.cell i j = F.cell i j
  have hstep : ∀ p rs w1, Fetching ref w C (p :: rs) w1 → ∃ w2, transfer comb ref w1 p = .ok w2 ∧ Fetching ref w C rs w2 := by
    intro p rs w1 hJ
    have key : ∀ m, C (p :: rs) m → ∀ c, Fetched w p c → ∃ x, combineInto comb (ofMat m) p.range (ofMat c) = .ok x ∧ C rs (toMat x) := by
      rintro m ⟨h1, h2, h3, h4⟩ c hf
      obtain ⟨a1, a2, c', hf', a3, a4, a5⟩ := hp p (h3 p (by simp))
      have : c' = c := by
        obtain ⟨i, e1, e2⟩ := hf
        obtain ⟨i', e1', e2'⟩ := hf'
        rw [e1] at e1'
        cases e1'
        rw [e2] at e2'
        injection e2' with e2'
        injection e2' with e2'
        exact e2'.symm
      subst this
      obtain ⟨x, hx, x1, x2, x3⟩ := copy_piece (m := m) (F := F) (g := p.range) hne (by omega) (by omega) a3 a4 a5
      refine ⟨x, hx, x1.trans h1, x2.trans h2, fun q hq => h3 q (by simp [hq]), fun q hq => ?_⟩
      by_cases hqp : q = p
      · subst hqp
        refine Or.inr fun i j hi hj => ?_
        rw [x3 i j (by omega) (by omega), if_pos ⟨hi, hj⟩]
      · rcases h4 q hq with h | h
        · simp only [List.mem_cons] at h
          rcases h with h | h
          · exact absurd h hqp
          · exact Or.inl h
        · obtain ⟨b1, b2, -⟩ := hp q hq
          refine Or.inr fun i j hi hj => ?_
          rw [x3 i j (by omega) (by omega)]
          split
          · rfl
          · exact h i j hi hj
    obtain ⟨w2, hw2⟩ := transfer_ok (comb := comb) hJ (fun m hm => by
      obtain ⟨-, -, c, hf, -⟩ := hp p (hm.2.2.1 p (by simp))
      obtain ⟨x, hx, -⟩ := key m hm c hf
      exact ⟨c, hf, x, hx⟩)
    refine ⟨w2, hw2, transfer_step hJ hw2 (fun m c x hm hf hx => ?_)⟩
    obtain ⟨x', hx', hCx⟩ := key m hm c hf
    rw [hx] at hx'
    cases hx'
    exact hCx
  have hbase : Fetching ref w C (ord Placement k o.pls) w := by
    refine ⟨rfl, rfl, rfl, fun _ _ => rfl, m, o.pls, ?_, ?_, ⟨hR, hC, fun p hpm => (hord _ _ _).mem_iff.1 hpm, fun p hpm => Or.inl ((hord _ _ _).mem_iff.2 hpm)⟩,
      fun p hpm _ => ⟨p, (hord _ _ _).mem_iff.2 hpm, rfl⟩⟩
    · rw [ho, ← hv]
    · exact ⟨hc.locs, hc.ids, hc.lt⟩
  obtain ⟨w', hw', hfin⟩ := foldlM_total (Fetching ref w C) (fun x xs s hJ => hstep x xs s hJ) _ _ hbase
  obtain ⟨m', pls', ho', -, ⟨h1, h2, -, h4⟩, -⟩ := hfin.obj
  refine ⟨w', by unfold collect; rw [ho]; exact hw', m', pls', ho', h1, h2, fun i j hi hj => ?_⟩
  obtain ⟨p, hpm, hin⟩ := hcov i j (by omega) (by omega)
  rcases h4 p hpm with h | h
  · simp at h
  · exact h i j hin.1 hin.2

/-- Fetching an output that is summed up. -/
theorem collect_add [AddCommMonoid V] {ord : Order} (hord : ord.Valid) {k ref : Nat} {w : World V} {o : Obj V} {m : Mat V} {F : Mat V} {G : Nat → Mat V}
    (ho : w.objs ref = some o) (hv : o.val = .mat m) (hc : ObjCore w.nextDp o) (hR : m.rows = F.rows) (hC : m.cols = F.cols)
    (hz : ∀ i j, m.cell i j = 0)
    (hp : ∀ p ∈ o.pls, Fetched w p (G p.loc) ∧ (G p.loc).rows = F.rows ∧ (G p.loc).cols = F.cols)
    (hsum : ∀ i j, i < F.rows → j < F.cols → ((o.pls.map (·.loc)).map (fun a => (G a).cell i j)).sum = F.cell i j) :
    ∃ w', collect ord k ref .add w = .ok w' ∧ w'.HasMat ref F := by
  let C : List Placement → Mat V → Prop := fun rs m => m.rows = F.rows ∧ m.cols = F.cols ∧ (∀ p ∈ rs, p ∈ o.pls) ∧
    ∀ i j, i < F.rows → j < F.cols → m.cell i j + (rs.map (fun p => (G p.loc).cell i j)).sum = F.cell i j
  have hstep : ∀ p rs w1, Fetching ref w C (p :: rs) w1 → ∃ w2, transfer .add ref w1 p = .ok w2 ∧ Fetching ref w C rs w2 := by
    intro p rs w1 hJ
    have key : ∀ m, C (p :: rs) m → ∀ c, Fetched w p c → ∃ x, combineInto .add (ofMat m) p.range (ofMat c) = .ok x ∧ C rs (toMat x) := by
      rintro m ⟨h1, h2, h3, h4⟩ c hf
      obtain ⟨hf', a1, a2⟩ := hp p (h3 p (by simp))
      have : G p.loc = c := by
        obtain ⟨i, e1, e2⟩ := hf
        obtain ⟨i', e1', e2'⟩ := hf'
        rw [e1] at e1'
        cases e1'
        rw [e2] at e2'
        injection e2' with e2'
        injection e2' with e2'
        exact e2'.symm
      subst this
      obtain ⟨x, hx, x1, x2, x3⟩ := add_piece (m := m) (c := G p.loc) (g := p.range) (by omega) (by omega)
      refine ⟨x, hx, x1.trans h1, x2.trans h2, fun q hq => h3 q (by simp [hq]), fun i j hi hj => ?_⟩
      rw [x3 i j (by omega) (by omega), add_assoc]
      have := h4 i j hi hj
      simpa using this
    obtain ⟨w2, hw2⟩ := transfer_ok (comb := .add) hJ (fun m hm => by
      obtain ⟨hf, -⟩ := hp p (hm.2.2.1 p (by simp))
      obtain ⟨x, hx, -⟩ := key m hm _ hf
      exact ⟨_, hf, x, hx⟩)
    refine ⟨w2, hw2, transfer_step hJ hw2 (fun m c x hm hf hx => ?_)⟩
    obtain ⟨x', hx', hCx⟩ := key m hm c hf
    rw [hx] at hx'
    cases hx'
    exact hCx
  have hbase : Fetching ref w C (ord Placement k o.pls) w := by
    refine ⟨rfl, rfl, rfl, fun _ _ => rfl, m, o.pls, ?_, ?_, ⟨hR, hC, fun p hpm => (hord _ _ _).mem_iff.1 hpm, fun i j hi hj => ?_⟩,
      fun p hpm _ => ⟨p, (hord _ _ _).mem_iff.2 hpm, rfl⟩⟩
    · rw [ho, ← hv]
    · exact ⟨hc.locs, hc.ids, hc.lt⟩
    · rw [hz, zero_add, ← hsum i j hi hj, List.map_map]
      exact ((hord Placement k o.pls).map _).sum_eq
  obtain ⟨w', hw', hfin⟩ := foldlM_total (Fetching ref w C) (fun x xs s hJ => hstep x xs s hJ) _ _ hbase
  obtain ⟨m', pls', ho', -, ⟨h1, h2, -, h4⟩, -⟩ := hfin.obj
  refine ⟨w', by unfold collect; rw [ho]; exact hw', m', pls', ho', h1, h2, fun i j hi hj => ?_⟩
  have := h4 i j (by omega) (by omega)
  simpa using this

end Verif.Dist
