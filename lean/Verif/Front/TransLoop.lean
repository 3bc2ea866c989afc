/-
  Correctness of the translation of loops.
-/
import Verif.Front.TransStmt

namespace Verif.Front

section
variable {ν F Val W : Type} [DecidableEq ν] {S : Sem F Val W}

/-- The state of a loop: values of the names the loop changes; all other variables are as before the loop. -/
def LoopRel (ns : List ν) (σ0 : Vars ν Val) (p : Vars ν Val × W) (q : List Val × W) : Prop :=
  p.2 = q.2 ∧ ns.map p.1 = q.1.map some ∧ ∀ n, n ∉ ns → p.1 n = σ0 n

theorem nodup_vals {s : Syms ν} {nx : Nat} {ns : List ν} (hi : Inv s nx) (hn : ns.Nodup) (hns : ∀ n ∈ ns, (s.look n).isSome) :
    (ns.map (valOf s)).Nodup := by
  induction ns with
  | nil => simp
  | cons n ns ih =>
    have hn' := List.nodup_cons.1 hn
    simp only [List.map_cons, List.nodup_cons]
    refine ⟨fun h => ?_, ih hn'.2 fun m hm => hns m (by simp [hm])⟩
    obtain ⟨m, hm, e⟩ := List.mem_map.1 h
    obtain ⟨i, hi'⟩ := Option.isSome_iff_exists.1 (hns n (by simp))
    obtain ⟨j, hj⟩ := Option.isSome_iff_exists.1 (hns m (by simp [hm]))
    rw [valOf_eq hi', valOf_eq hj] at e
    have := hi.inj m n j i hj hi' e
    subst this
    exact hn'.1 hm

theorem vals_lt {s : Syms ν} {nx : Nat} {ns : List ν} (hi : Inv s nx) (hns : ∀ n ∈ ns, (s.look n).isSome) :
    ∀ v ∈ ns.map (valOf s), v < nx := by
  intro v hv
  obtain ⟨n, hn, rfl⟩ := List.mem_map.1 hv
  obtain ⟨i, hi'⟩ := Option.isSome_iff_exists.1 (hns n hn)
  rw [valOf_eq hi']
  exact hi.look_lt hi'

/-- At the start of an iteration, with the uses of the old values replaced by the block arguments, the symbol table describes the current
values of the variables. -/
theorem body_env {s : Syms ν} {nx a : Nat} {ns : List ν} (hi : Inv s nx) (hn : ns.Nodup) (hns : ∀ n ∈ ns, (s.look n).isSome) (ha : nx ≤ a)
    {ρ ρb : Env Val} {σ0 σ : Vars ν Val} {xs : List Val} (hr : Rel s ρ σ0) (h1 : ns.map σ = xs.map some) (h2 : ∀ n, n ∉ ns → σ n = σ0 n)
    (hb : (news a ns.length).map ρb = xs.map some) (hf : ∀ v, v < nx → ρb v = ρ v) :
    Rel s (ρb ∘ replAll (ns.map (valOf s)) (news a ns.length)) σ := by
  have hlen : ns.length = (news a ns.length).length := (length_news _ _).symm
  refine ⟨fun n i hl => ?_, fun n hl => ?_⟩
  · by_cases hm : n ∈ ns
    · obtain ⟨b, hz⟩ := exists_zip hlen hm
      have hz' : (valOf s n, b) ∈ (ns.map (valOf s)).zip (news a ns.length) := by
        rw [List.zip_map_left]
        exact List.mem_map.2 ⟨_, hz, rfl⟩
      have hd : ∀ o ∈ ns.map (valOf s), o ∉ news a ns.length := fun o ho hm => by
        have := vals_lt hi hns o ho
        have := (mem_news.1 hm).1
        omega
      have e1 := replAll_zip _ _ (nodup_vals hi hn hns) hd _ hz'
      have e2 := zip_of_map (h1.trans hb.symm) _ hz
      simp only at e1 e2
      have : (σ n).isSome := by
        have hm' : σ n ∈ ns.map σ := List.mem_map_of_mem hm
        rw [h1] at hm'
        obtain ⟨x, _, hx⟩ := List.mem_map.1 hm'
        rw [← hx]; rfl
      obtain ⟨v, hv⟩ := Option.isSome_iff_exists.1 this
      refine ⟨v, ?_, hv⟩
      rw [Function.comp, ← valOf_eq hl, e1, ← e2, hv]
    · rw [h2 n hm]
      have : i.value ∉ ns.map (valOf s) := fun h => by
        obtain ⟨m, hm', e⟩ := List.mem_map.1 h
        obtain ⟨j, hj⟩ := Option.isSome_iff_exists.1 (hns m hm')
        rw [valOf_eq hj] at e
        have := hi.inj m n j i hj hl e
        subst this
        exact hm hm'
      rw [Function.comp, replAll_other _ _ _ this, hf _ (hi.look_lt hl)]
      exact hr.1 n i hl
  · have hm : n ∉ ns := fun hm => by have := hns n hm; rw [hl] at this; cases this
    rw [h2 n hm]
    exact hr.2 n hl

theorem owVals_eq {s : Syms ν} {ow : Tab ν Nat} (hu : ow.Uniq) : ow.map (fun e => e.2.value) = (ow.map Prod.fst).map (valOfWith s ow) := by
  rw [List.map_map]
  apply List.map_congr_left
  rintro ⟨n, i⟩ he
  have := (Tab.find_mem hu).2 he
  simp [valOfWith, this]

/-- Values of the variables at the start of a loop. -/
theorem inits_ok {s : Syms ν} {ns : List ν} {ρ : Env Val} {σ : Vars ν Val} (hr : Rel s ρ σ) (hns : ∀ n ∈ ns, (s.look n).isSome) :
    ∃ xs : List Val, ns.map σ = xs.map some ∧ (ns.map (valOf s)).map ρ = xs.map some := by
  induction ns with
  | nil => exact ⟨[], rfl, rfl⟩
  | cons n ns ih =>
    obtain ⟨xs, h1, h2⟩ := ih fun m hm => hns m (by simp [hm])
    obtain ⟨i, hi⟩ := Option.isSome_iff_exists.1 (hns n (by simp))
    obtain ⟨v, e1, e2⟩ := hr.1 n i hi
    exact ⟨v :: xs, by simp [e2, h1], by simp only [List.map_cons, h2, valOf_eq hi, e1]⟩

theorem map_replAll_news {os : List Nat} {ns : List Nat} {nx a k : Nat} (ho : ∀ o ∈ os, o < nx) (ha : nx ≤ a) :
    (news a k).map (replAll os ns) = news a k := by
  rw [List.map_congr_left (g := id)]
  · simp
  · intro v hv
    refine replAll_other _ _ _ fun h => ?_
    have := ho v h
    have := (mem_news.1 hv).1
    omega

theorem allDefs_mapUses (g : Nat → Nat) (c : Code F) : (c.mapUses g).allDefs = c.allDefs := by
  induction c <;> simp_all [Code.mapUses, Code.allDefs]

theorem defs_mapUses (g : Nat → Nat) (c : Code F) : (c.mapUses g).defs = c.defs := by
  induction c <;> simp_all [Code.mapUses, Code.defs]

/-- The end of a while-loop. -/
theorem finishWhile_ok {e : Expr ν F} {b : Stmt ν F} {s s1 : Syms ν} {nx nx1 nx2 nx' v : Nat} {bc ac c : Code F} {ow : Tab ν Nat} {s' : Syms ν}
    (hi : Inv s nx) (he : EOk S e nx s bc v nx1) (hb : SOk S b nx1 s.push ac nx2 s1) (ho : Ow s s1 ow)
    (h : finishWhile false s bc v ac ow nx2 = .ok (c, nx', s')) : SOk S (.while e b) nx s c nx' s' := by
  have hns := ho.dom
  have hl : (ow.map Prod.fst).length = ow.length := by simp
  have l1 := he.le
  have l2 := hb.le
  obtain ⟨s2, p1, p2, p3, p4, p5⟩ := putVals_ok (Val := Val) (a := nx2 + 2 * ow.length) hi ho.uniq hns (by omega)
  rw [hl] at p1 p2 p5
  simp only [finishWhile, getVals_ok hns, p1] at h
  cases h
  have hk : nx2 + 2 * ow.length + ow.length = nx2 + 3 * ow.length := by omega
  rw [hk] at p2
  have hvl := vals_lt hi hns
  refine ⟨by omega, p2, p3, p4, ?_, ?_⟩
  · intro d hd
    simp only [Code.allDefs, List.append_nil, List.mem_append, mem_news, replCode_eq] at hd
    rw [allDefs_mapUses, allDefs_mapUses] at hd
    rcases hd with (((hd | hd) | hd) | hd) | hd
    · omega
    · omega
    · have := he.defs d hd; omega
    · omega
    · have := hb.defs d hd; omega
  · intro fuel ρ σ w hr
    obtain ⟨xs, hx1, hx2⟩ := inits_ok hr hns
    simp only [Code.exec, Stmt.run, getAll_eq.2 hx2, Run.ok_bind, if_false, Bool.false_eq_true]
    refine RunRel.bind_right (P := LoopRel (ow.map Prod.fst) σ) ?_ ?_
    · refine RunRel.iterate (P := LoopRel (ow.map Prod.fst) σ) ?_ fuel (σ, w) (xs, w) ⟨rfl, hx1, fun _ _ => rfl⟩
      rintro ⟨σi, wi⟩ ⟨ys, wi'⟩ ⟨q1, q2, q3⟩
      simp only at q1 q2 q3
      subst q1
      have hlen : ys.length = ow.length := by have := congrArg List.length q2; simpa using this.symm
      obtain ⟨ρb, b1, b2, b3⟩ := setAll_ok (xs := ys) (rs := news nx2 ow.length) ρ (by rw [length_news, hlen]) (nodup_news _ _)
      have hfb : ∀ v, v < nx → ρb v = ρ v := fun v hv => b3 v fun hm => by have := (mem_news.1 hm).1; omega
      have hrb := body_env (a := nx2) hi ho.uniq hns (by omega) hr q2 q3 (by rw [hl]; exact b2) hfb
      rw [hl] at hrb
      have keep1 : Keeps (replAll ((ow.map Prod.fst).map (valOf s)) (news nx2 ow.length)) bc.allDefs :=
        keeps_replAll hvl (fun n hn => (mem_news.1 hn).1) fun d hd => by have := he.defs d hd; omega
      have hsim := he.sim fuel _ _ wi hrb
      rw [exec_mapUses fuel _ bc keep1] at hsim
      have hsim := hsim.of_map
      simp only [b1, Run.ok_bind]
      rw [replCode_eq]
      refine hsim.bind fun p q _ hq ⟨g1, g2⟩ => ?_
      simp only [Function.comp] at g1 g2
      rw [get_eq.2 g1, Run.ok_bind]
      have hargs : (news nx2 ow.length).map (replAll ((ow.map Prod.fst).map (valOf s)) (news nx2 ow.length)) = news nx2 ow.length :=
        map_replAll_news hvl (by omega)
      have hq2 : (news nx2 ow.length).map q.1 = ys.map some := by
        rw [← b2]
        apply List.map_congr_left
        intro u hu
        refine exec_frame (ρ' := q.1) (w' := q.2) hq u fun hm => ?_
        rw [defs_mapUses] at hm
        have := he.defs u (defs_subset _ _ hm)
        have := (mem_news.1 hu).1
        omega
      rw [hargs, getAll_eq.2 hq2, Run.ok_bind]
      split
      · -- the body runs
        obtain ⟨ρa, a1, a2, a3⟩ := setAll_ok (xs := ys) (rs := news (nx2 + ow.length) ow.length) ρ (by rw [length_news, hlen]) (nodup_news _ _)
        have hfa : ∀ v, v < nx → ρa v = ρ v := fun v hv => a3 v fun hm => by have := (mem_news.1 hm).1; omega
        have hra := body_env (a := nx2 + ow.length) hi ho.uniq hns (by omega) hr q2 q3 (by rw [hl]; exact a2) hfa
        rw [hl] at hra
        have keep2 : Keeps (replAll ((ow.map Prod.fst).map (valOf s)) (news (nx2 + ow.length) ow.length)) ac.allDefs :=
          keeps_replAll hvl (fun n hn => (mem_news.1 hn).1) fun d hd => by have := hb.defs d hd; omega
        have hbr := branch hb hi (by omega) ho hns (fun n hn => hn) fuel _ σi σi q.2 hra hra.push
        rw [exec_mapUses fuel _ ac keep2] at hbr
        rw [a1, Run.ok_bind, replCode_eq, ← g2]
        simp only [bind_assoc, Run.ok_bind, getAll_comp] at hbr
        rw [owVals_eq (s := s) ho.uniq]
        have := hbr.bind (Q := StepRel (LoopRel (W := W) (ow.map Prod.fst) σ) (LoopRel (W := W) (ow.map Prod.fst) σ))
          (f := fun p => .ok (Sum.inl p)) (g := fun p => .ok (Sum.inl p))
          fun p q _ _ ⟨r1, r2, r3⟩ => RunRel.ok ⟨r1, r2, fun n hn => (r3 n hn).trans (q3 n hn)⟩
        simpa only [bind_assoc, Run.ok_bind] using this
      · exact RunRel.ok ⟨g2.symm, q2, q3⟩
    · rintro ⟨σ', w1⟩ ⟨ys, w2⟩ _ _ ⟨q1, q2, q3⟩
      simp only at q1 q2 q3
      subst q1
      have hlen : ys.length = ow.length := by have := congrArg List.length q2; simpa using this.symm
      obtain ⟨ρ', e1, e2, e3⟩ := setAll_ok (xs := ys) (rs := news (nx2 + 2 * ow.length) ow.length) ρ (by rw [length_news, hlen]) (nodup_news _ _)
      refine ⟨(ρ', w1), by rw [e1]; rfl, rfl, ?_⟩
      exact p5 ρ ρ' σ σ' ys hr q3 (fun u hu => e3 u fun hm => by have := (mem_news.1 hm).1; omega) q2 e2

theorem all_some {ns : List ν} {σ : Vars ν Val} (h : ∀ n ∈ ns, (σ n).isSome) : ∃ zs : List Val, ns.map σ = zs.map some := by
  induction ns with
  | nil => exact ⟨[], rfl⟩
  | cons n ns ih =>
    obtain ⟨zs, hz⟩ := ih fun m hm => h m (by simp [hm])
    obtain ⟨z, hz'⟩ := Option.isSome_iff_exists.1 (h n (by simp))
    exact ⟨z :: zs, by simp [hz, hz']⟩

/-- The end of a do-while-loop. -/
theorem finishDoWhile_ok {e : Expr ν F} {b : Stmt ν F} {s s1 s3 : Syms ν} {nx nx1 nx2 nx' v : Nat} {bc dc c : Code F} {ow : Tab ν Nat}
    {s' : Syms ν} (hi : Inv s nx) (hb : SOk S b nx s.push.push bc nx1 s1) (ho : Ow s.push s1 ow) (hi3 : Inv s3 nx1)
    (hs3 : ∀ (ρ1 : Env Val) (σ σ1 : Vars ν Val), (∀ n, (σ n).isSome = (s.look n).isSome) → Rel s1 ρ1 σ1 → Rel s3 ρ1 (leave σ σ1))
    (he : EOk S e nx1 s3 dc v nx2) (h : finishWhile true s (bc.app dc) v .done ow nx2 = .ok (c, nx', s')) :
    SOk S (.doWhile b e) nx s c nx' s' := by
  have hns : ∀ n ∈ ow.map Prod.fst, (s.look n).isSome := fun n hn => by have := ho.dom n hn; rwa [look_push] at this
  have hl : (ow.map Prod.fst).length = ow.length := by simp
  have l1 := he.le
  have l2 := hb.le
  obtain ⟨s2, p1, p2, p3, p4, p5⟩ := putVals_ok (Val := Val) (a := nx2 + 2 * ow.length) hi ho.uniq hns (by omega)
  rw [hl] at p1 p2 p5
  simp only [finishWhile, getVals_ok hns, p1] at h
  cases h
  have hk : nx2 + 2 * ow.length + ow.length = nx2 + 3 * ow.length := by omega
  rw [hk] at p2
  have hvl := vals_lt hi hns
  have hdefs : ∀ d ∈ (bc.app dc).allDefs, nx ≤ d ∧ d < nx2 := by
    intro d hd
    rw [allDefs_app] at hd
    rcases List.mem_append.1 hd with hd | hd
    · have := hb.defs d hd; omega
    · have := he.defs d hd; omega
  refine ⟨by omega, p2, p3, p4, ?_, ?_⟩
  · intro d hd
    simp only [Code.allDefs, List.append_nil, List.mem_append, mem_news, replCode_eq, allDefs_mapUses, Code.mapUses] at hd
    rcases hd with ((hd | hd) | hd) | hd
    · omega
    · omega
    · have := hdefs d hd; omega
    · omega
  · intro fuel ρ σ w hr
    obtain ⟨xs, hx1, hx2⟩ := inits_ok hr hns
    simp only [Code.exec, Stmt.run, getAll_eq.2 hx2, Run.ok_bind, if_true]
    refine RunRel.bind_right (P := LoopRel (ow.map Prod.fst) σ) ?_ ?_
    · refine RunRel.iterate (P := LoopRel (ow.map Prod.fst) σ) ?_ fuel (σ, w) (xs, w) ⟨rfl, hx1, fun _ _ => rfl⟩
      rintro ⟨σi, wi⟩ ⟨ys, wi'⟩ ⟨q1, q2, q3⟩
      simp only at q1 q2 q3
      subst q1
      have hlen : ys.length = ow.length := by have := congrArg List.length q2; simpa using this.symm
      obtain ⟨ρb, b1, b2, b3⟩ := setAll_ok (xs := ys) (rs := news nx2 ow.length) ρ (by rw [length_news, hlen]) (nodup_news _ _)
      have hfb : ∀ v, v < nx → ρb v = ρ v := fun v hv => b3 v fun hm => by have := (mem_news.1 hm).1; omega
      have hrb := body_env (a := nx2) hi ho.uniq hns (by omega) hr q2 q3 (by rw [hl]; exact b2) hfb
      rw [hl] at hrb
      have keep1 : Keeps (replAll ((ow.map Prod.fst).map (valOf s)) (news nx2 ow.length)) (bc.app dc).allDefs :=
        keeps_replAll hvl (fun n hn => (mem_news.1 hn).1) hdefs
      simp only [b1, Run.ok_bind]
      rw [replCode_eq]
      -- body and condition on the renamed values
      have hsim : RunRel (fun (p : Vars ν Val × Val × W) (q : Env Val × W) => q.2 = p.2.2 ∧ q.1 v = some p.2.1 ∧
            (ow.map Prod.fst).map p.1 = ((ow.map Prod.fst).map (valOfWith s ow)).map q.1 ∧
            (∀ n ∈ ow.map Prod.fst, (p.1 n).isSome) ∧ ∀ n, n ∉ ow.map Prod.fst → p.1 n = σi n)
          (b.run S fuel σi wi >>= fun q => e.eval S (leave σi q.1) q.2 >>= fun p => .ok (leave σi q.1, p.1, p.2))
          ((bc.app dc).exec S fuel (ρb ∘ replAll ((ow.map Prod.fst).map (valOf s)) (news nx2 ow.length)) wi) := by
        rw [exec_app]
        refine (hb.sim fuel _ σi wi hrb.push.push).bind fun p q _ hq ⟨g1, g2⟩ => ?_
        rw [← g1]
        have hd : ∀ n, (σi n).isSome = (s.look n).isSome := hrb.isSome
        have hr3 := hs3 q.1 σi p.1 hd g2
        refine (he.sim fuel q.1 _ p.2 hr3).bind_left fun p2 q2' _ hq2 ⟨t1, t2⟩ => ?_
        have hlv := fun n hn => ho.leave_val (σ := σi) g2 (fun n => by rw [look_push]; exact hd n) n hn
        have hval : ∀ n, valOfWith s.push ow n = valOfWith s ow n := fun n => by simp only [valOfWith, look_push]
        refine ⟨_, rfl, t2, t1, ?_, ?_, ?_⟩
        · refine Eq.trans (List.map_congr_left (g := q2'.1 ∘ valOfWith s ow) fun n hn => ?_) List.map_map.symm
          obtain ⟨x, f1, f2⟩ := hlv n (ho.dom n hn)
          rw [hval] at f1
          simp only [Function.comp]
          rw [f2, ← f1]
          refine (frame_lt (fun d hd => (he.defs d hd).1) hq2 _ ?_).symm
          obtain ⟨⟨n', i⟩, hm, rfl⟩ := List.mem_map.1 hn
          have hf := (Tab.find_mem ho.uniq).2 hm
          obtain ⟨t, ht, hmt⟩ := ho.mem _ hm
          simp only [valOfWith, hf]
          exact hb.inv.lt t ht _ hmt
        · intro n hn
          obtain ⟨x, f1, f2⟩ := hlv n (ho.dom n hn)
          simp [f2]
        · intro n hn
          cases hln : s.look n with
          | none =>
            dsimp only
            rw [leave_none hd n hln]
            exact (hrb.2 n hln).symm
          | some i =>
            obtain ⟨x, f1, f2⟩ := hlv n (by rw [look_push, hln]; rfl)
            have hf : ow.find n = none := find_none_of_not_mem hn
            rw [hval, valOfWith_none hf, valOf_eq hln] at f1
            have hfr := frame_lt (fun d hd => (hb.defs d hd).1) hq i.value (hi.look_lt hln)
            obtain ⟨y, y1, y2⟩ := hrb.1 n i hln
            dsimp only
            rw [f2, y2, ← f1, hfr, y1]
      rw [exec_mapUses fuel _ _ keep1] at hsim
      have hsim := hsim.of_map
      have hsrc : (b.run S fuel σi wi >>= fun q => e.eval S (leave σi q.1) q.2 >>= fun p =>
            if S.toBool p.1 then (.ok (.inl (leave σi q.1, p.2)) : Run (Vars ν Val × W ⊕ Vars ν Val × W)) else .ok (.inr (leave σi q.1, p.2)))
          = (b.run S fuel σi wi >>= fun q => e.eval S (leave σi q.1) q.2 >>= fun p => .ok (leave σi q.1, p.1, p.2)) >>= fun r =>
            if S.toBool r.2.1 then .ok (.inl (r.1, r.2.2)) else .ok (.inr (r.1, r.2.2)) := by
        simp only [bind_assoc, Run.ok_bind]
      rw [hsrc]
      refine hsim.bind fun p q _ hq ⟨g1, g2, g3, g4, g5⟩ => ?_
      simp only [Function.comp] at g1 g2
      rw [get_eq.2 g2, Run.ok_bind]
      have := all_some g4
      obtain ⟨zs, hz⟩ := this
      have hga : q.1.getAll ((ow.map fun e => e.2.value).map (replAll ((ow.map Prod.fst).map (valOf s)) (news nx2 ow.length))) = .ok zs := by
        rw [getAll_eq, owVals_eq (s := s) ho.uniq, ← hz, g3]
        simp only [List.map_map]; rfl
      rw [hga, Run.ok_bind]
      have hzl : zs.length = ow.length := by have := congrArg List.length hz; simpa using this.symm
      split
      · obtain ⟨ρa, a1, a2, a3⟩ := setAll_ok (xs := zs) (rs := news (nx2 + ow.length) ow.length) ρ (by rw [length_news, hzl]) (nodup_news _ _)
        have hargs : (news (nx2 + ow.length) ow.length).map (replAll ((ow.map Prod.fst).map (valOf s)) (news (nx2 + ow.length) ow.length))
            = news (nx2 + ow.length) ow.length := map_replAll_news hvl (by omega)
        rw [a1, Run.ok_bind, replCode_eq, hargs]
        simp only [Code.mapUses, Code.exec, Run.ok_bind, getAll_eq.2 a2]
        exact RunRel.ok ⟨g1.symm, hz, fun n hn => (g5 n hn).trans (q3 n hn)⟩
      · exact RunRel.ok ⟨g1.symm, hz, fun n hn => (g5 n hn).trans (q3 n hn)⟩
    · rintro ⟨σ', w1⟩ ⟨ys, w2⟩ _ _ ⟨q1, q2, q3⟩
      simp only at q1 q2 q3
      subst q1
      have hlen : ys.length = ow.length := by have := congrArg List.length q2; simpa using this.symm
      obtain ⟨ρ', e1, e2, e3⟩ := setAll_ok (xs := ys) (rs := news (nx2 + 2 * ow.length) ow.length) ρ (by rw [length_news, hlen]) (nodup_news _ _)
      refine ⟨(ρ', w1), by rw [e1]; rfl, rfl, ?_⟩
      exact p5 ρ ρ' σ σ' ys hr q3 (fun u hu => e3 u fun hm => by have := (mem_news.1 hm).1; omega) q2 e2

end

end Verif.Front
