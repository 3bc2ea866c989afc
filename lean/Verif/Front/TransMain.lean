/-
  The translation of scripts is correct.
-/
import Verif.Front.TransFor

namespace Verif.Front

section
variable {ν F Val W : Type} [DecidableEq ν] {S : Sem F Val W}

theorem Ow.push_iff {s s1 : Syms ν} {nx : Nat} (hi : Inv s1 nx) (ht : s1.drop 1 = s.push.drop 1) :
    ∃ ow, s1.pop = .ok (ow, s) ∧ Ow s s1 ow := pop_ok hi (by simpa [Scopes.push] using ht)

/-- What the bounds of a for-loop evaluate to. -/
theorem forBounds_exec (hS : S.Lawful) {lo hi st dir nx : Nat} {ρ : Env Val} {a b step : Int} {xlo xhi xst : Val} (fuel : Nat) (w : W)
    (hlo : ρ lo = some xlo) (hhi : ρ hi = some xhi) (hst : ρ st = some xst) (hdir : ρ dir = some (S.ofInt step.sign))
    (ea : S.toInt xlo = a) (eb : S.toInt xhi = b) (es : S.toInt xst = step) (hr : ForRange a b step)
    (l1 : lo < nx) (l3 : st < nx) (l4 : dir < nx) :
    ∃ ρ', (forBounds (F := F) lo hi st dir nx).1.exec S fuel ρ w = .ok (ρ', w) ∧ (∀ v, v < nx → ρ' v = ρ v) ∧
      ρ' (nx + 1) = some (S.ofInt (a * step.sign)) ∧ ρ' (nx + 2) = some (S.ofInt ((b + step.sign) * step.sign)) ∧
      ρ' (nx + 3) = some (S.ofInt (step * step.sign)) := by
  have d1 : step.sign = 1 ∨ step.sign = 0 ∨ step.sign = -1 := by
    rcases Int.lt_trichotomy step 0 with h | h | h
    · exact .inr (.inr (Int.sign_eq_neg_one_of_neg h))
    · exact .inr (.inl (by rw [h]; rfl))
    · exact .inl (Int.sign_eq_one_of_pos h)
  unfold ForRange at hr
  have i4 : S.toInt (S.ofInt step.sign) = step.sign := hS _ (by unfold InI64; rcases d1 with e | e | e <;> rw [e] <;> omega)
  have j1 : wrap64 (b + step.sign) = b + step.sign := wrap64_eq (by unfold InI64; rcases d1 with e | e | e <;> rw [e] <;> omega)
  have j2 : wrap64 (a * step.sign) = a * step.sign := wrap64_eq (by unfold InI64; rcases d1 with e | e | e <;> rw [e] <;> omega)
  have j3 : wrap64 ((b + step.sign) * step.sign) = (b + step.sign) * step.sign :=
    wrap64_eq (by unfold InI64; rcases d1 with e | e | e <;> rw [e] <;> omega)
  have j4 : wrap64 (step * step.sign) = step * step.sign := wrap64_eq (by unfold InI64; rcases d1 with e | e | e <;> rw [e] <;> omega)
  have i5 : S.toInt (S.ofInt (b + step.sign)) = b + step.sign := hS _ (by unfold InI64; rcases d1 with e | e | e <;> rw [e] <;> omega)
  have rd : ∀ (ρ : Env Val) (r v : Nat) (x y : Val), v ≠ r → ρ v = some y → (ρ.upd r x) v = some y := by
    intro ρ r v x y hne h; simp only [Env.upd, if_neg hne, h]
  refine ⟨(((ρ.upd nx (S.ofInt (b + step.sign))).upd (nx + 1) (S.ofInt (a * step.sign))).upd (nx + 2)
    (S.ofInt ((b + step.sign) * step.sign))).upd (nx + 3) (S.ofInt (step * step.sign)), ?_, ?_, ?_, ?_, ?_⟩
  · have n1 : (ρ.upd nx (S.ofInt (b + step.sign))) nx = some (S.ofInt (b + step.sign)) := by simp [Env.upd]
    have k1 := rd ρ nx dir (S.ofInt (b + step.sign)) _ (by omega) hdir
    have k2 := rd ρ nx lo (S.ofInt (b + step.sign)) _ (by omega) hlo
    have k3 := rd ρ nx st (S.ofInt (b + step.sign)) _ (by omega) hst
    have m1 := rd _ (nx + 1) dir (S.ofInt (a * step.sign)) _ (by omega) k1
    have m2 := rd _ (nx + 1) nx (S.ofInt (a * step.sign)) _ (by omega) n1
    have m3 := rd _ (nx + 1) st (S.ofInt (a * step.sign)) _ (by omega) k3
    have o1 := rd _ (nx + 2) dir (S.ofInt ((b + step.sign) * step.sign)) _ (by omega) m1
    have o3 := rd _ (nx + 2) st (S.ofInt ((b + step.sign) * step.sign)) _ (by omega) m3
    simp only [forBounds, Code.exec, Env.getAll, get_eq.2 hhi, get_eq.2 hdir, get_eq.2 hlo, Run.ok_bind, List.map_cons, List.map_nil, Arith.eval,
      eb, i4, j1, get_eq.2 k1, get_eq.2 k2, ea, j2, get_eq.2 m1, get_eq.2 m2, i5, j3, get_eq.2 o1, get_eq.2 o3, es, j4]
  · intro v hv
    simp only [Env.upd]
    rw [if_neg (by omega), if_neg (by omega), if_neg (by omega), if_neg (by omega)]
  · simp [Env.upd]
  · simp [Env.upd]
  · simp [Env.upd]

/-- The step of a for-loop without step: 1 or -1. -/
theorem stepCode_exec (hS : S.Lawful) {vlo vhi nx : Nat} {ρ : Env Val} {xlo xhi : Val} (fuel : Nat) (w : W) (l1 : vlo < nx) (l2 : vhi < nx)
    (hlo : ρ vlo = some xlo) (hhi : ρ vhi = some xhi) :
    ∃ ρ', (Code.arith nx (.const (-1)) [] (.arith (nx + 1) (.const 2) [] (.arith (nx + 2) .ge [vhi, vlo]
      (.arith (nx + 3) .mul [nx + 1, nx + 2] (.arith (nx + 4) .add [nx, nx + 3] .done)))) : Code F).exec S fuel ρ w = .ok (ρ', w) ∧
      (∀ v, v < nx → ρ' v = ρ v) ∧ ρ' (nx + 4) = some (S.ofInt (if S.toInt xlo ≤ S.toInt xhi then 1 else -1)) := by
  have rd : ∀ (ρ : Env Val) (r v : Nat) (x y : Val), v ≠ r → ρ v = some y → (ρ.upd r x) v = some y := by
    intro ρ r v x y hne h; simp only [Env.upd, if_neg hne, h]
  have i1 : S.toInt (S.ofInt (-1)) = -1 := hS _ (by unfold InI64; omega)
  have i2 : S.toInt (S.ofInt 2) = 2 := hS _ (by unfold InI64; omega)
  have i3 : ∀ (p : Prop) [Decidable p], S.toInt (S.ofInt (if p then 1 else 0)) = if p then 1 else 0 := fun p _ =>
    hS _ (by unfold InI64; split <;> omega)
  have i4 : ∀ (p : Prop) [Decidable p], S.toInt (S.ofInt (2 * (if p then 1 else 0))) = 2 * if p then 1 else 0 := fun p _ =>
    hS _ (by unfold InI64; split <;> omega)
  have w1 : ∀ (p : Prop) [Decidable p], wrap64 (2 * (if p then 1 else 0)) = 2 * if p then 1 else 0 := fun p _ =>
    wrap64_eq (by unfold InI64; split <;> omega)
  have w2 : ∀ (p : Prop) [Decidable p], wrap64 (-1 + 2 * (if p then 1 else 0)) = if p then 1 else -1 := fun p _ => by
    rw [wrap64_eq (by unfold InI64; split <;> omega)]; split <;> omega
  have h1 := rd _ nx vlo (S.ofInt (-1)) _ (by omega) hlo
  have h2 := rd _ nx vhi (S.ofInt (-1)) _ (by omega) hhi
  have h3 : (ρ.upd nx (S.ofInt (-1))) nx = some (S.ofInt (-1)) := by simp [Env.upd]
  have g1 := rd _ (nx + 1) vlo (S.ofInt 2) _ (by omega) h1
  have g2 := rd _ (nx + 1) vhi (S.ofInt 2) _ (by omega) h2
  have g3 := rd _ (nx + 1) nx (S.ofInt 2) _ (by omega) h3
  have g4 : ((ρ.upd nx (S.ofInt (-1))).upd (nx + 1) (S.ofInt 2)) (nx + 1) = some (S.ofInt 2) := by simp [Env.upd]
  have f3 := rd _ (nx + 2) nx (S.ofInt (if S.toInt xlo ≤ S.toInt xhi then 1 else 0)) _ (by omega) g3
  have f4 := rd _ (nx + 2) (nx + 1) (S.ofInt (if S.toInt xlo ≤ S.toInt xhi then 1 else 0)) _ (by omega) g4
  have f5 : (((ρ.upd nx (S.ofInt (-1))).upd (nx + 1) (S.ofInt 2)).upd (nx + 2) (S.ofInt (if S.toInt xlo ≤ S.toInt xhi then 1 else 0))) (nx + 2)
    = some (S.ofInt (if S.toInt xlo ≤ S.toInt xhi then 1 else 0)) := by simp [Env.upd]
  have e3 := rd _ (nx + 3) nx (S.ofInt (2 * (if S.toInt xlo ≤ S.toInt xhi then 1 else 0))) _ (by omega) f3
  have e5 : ((((ρ.upd nx (S.ofInt (-1))).upd (nx + 1) (S.ofInt 2)).upd (nx + 2) (S.ofInt (if S.toInt xlo ≤ S.toInt xhi then 1 else 0))).upd (nx + 3)
    (S.ofInt (2 * (if S.toInt xlo ≤ S.toInt xhi then 1 else 0)))) (nx + 3) = some (S.ofInt (2 * (if S.toInt xlo ≤ S.toInt xhi then 1 else 0))) := by
    simp [Env.upd]
  refine ⟨_, by
    simp only [Code.exec, Env.getAll, Run.ok_bind, List.map_cons, List.map_nil, Arith.eval, get_eq.2 g1, get_eq.2 g2, get_eq.2 f4, get_eq.2 f5,
      get_eq.2 e3, get_eq.2 e5, i1, i2, i3, i4, w1, w2]
    rfl, ?_, ?_⟩
  · intro v hv
    simp only [Env.upd]
    rw [if_neg (by omega), if_neg (by omega), if_neg (by omega), if_neg (by omega), if_neg (by omega)]
  · simp [Env.upd]

theorem transS_ok (hS : S.Lawful) (st : Stmt ν F) (nx : Nat) (s : Syms ν) (hi : Inv s nx) (c : Code F) (nx' : Nat) (s' : Syms ν)
    (h : transS st nx s = .ok (c, nx', s')) : SOk S st nx s c nx' s' := by
  induction st generalizing nx s c nx' s' with
  | skip =>
    simp only [transS] at h
    cases h
    exact ⟨Nat.le_refl _, hi, rfl, fun _ h => h, by simp [Code.allDefs], fun fuel ρ σ w hr => RunRel.ok ⟨rfl, hr⟩⟩
  | seq a b iha ihb =>
    simp only [transS] at h
    obtain ⟨⟨c1, nx1, s1⟩, h1, h⟩ := except_bind_ok h
    obtain ⟨⟨c2, nx2, s2⟩, h2, h⟩ := except_bind_ok h
    dsimp only at h; cases h
    have ha := iha nx s hi c1 nx1 s1 h1
    have hb := ihb nx1 s1 ha.inv c2 _ _ h2
    have l1 := ha.le
    have l2 := hb.le
    refine ⟨by omega, hb.inv, hb.tail.trans ha.tail, fun n hn => hb.dom n (ha.dom n hn), ?_, ?_⟩
    · intro d hd
      rw [allDefs_app] at hd
      rcases List.mem_append.1 hd with hd | hd
      · have := ha.defs d hd; omega
      · have := hb.defs d hd; omega
    · intro fuel ρ σ w hr
      rw [exec_app]
      simp only [Stmt.run]
      refine (ha.sim fuel ρ σ w hr).bind fun p q _ _ ⟨g1, g2⟩ => ?_
      rw [g1]
      exact hb.sim fuel q.1 p.1 q.2 g2
  | expr e =>
    simp only [transS] at h
    obtain ⟨⟨c1, v, nx1⟩, h1, h⟩ := except_bind_ok h
    dsimp only at h; cases h
    have he := transE_ok (S := S) e nx s hi _ v _ h1
    refine ⟨he.le, hi.mono he.le, rfl, fun _ h => h, he.defs, fun fuel ρ σ w hr => ?_⟩
    simp only [Stmt.run]
    refine (he.sim fuel ρ σ w hr).bind_left fun p q _ hq ⟨g1, g2⟩ => ⟨_, rfl, g2.symm, ?_⟩
    exact hr.frame hi fun u hu => frame_lt (fun d hd => (he.defs d hd).1) hq u hu
  | assign x e =>
    simp only [transS] at h
    obtain ⟨⟨c1, v, nx1⟩, h1, h⟩ := except_bind_ok h
    obtain ⟨⟨c2, nx2, s2⟩, h2, h⟩ := except_bind_ok h
    dsimp only at h; cases h
    have he := transE_ok (S := S) e nx s hi c1 v nx1 h1
    have ha := assignPart_ok (S := S) (hi.mono he.le) he.lt h2
    have l1 := he.le
    have l2 := ha.le
    refine ⟨by omega, ha.inv, ha.tail, ha.dom, ?_, ?_⟩
    · intro d hd
      rw [allDefs_app] at hd
      rcases List.mem_append.1 hd with hd | hd
      · have := he.defs d hd; omega
      · have := ha.defs d hd; omega
    · intro fuel ρ σ w hr
      rw [exec_app]
      simp only [Stmt.run]
      refine (he.sim fuel ρ σ w hr).bind fun p q _ hq ⟨g1, g2⟩ => ?_
      have hr' := hr.frame hi fun u hu => frame_lt (fun d hd => (he.defs d hd).1) hq u hu
      obtain ⟨ρ', e1, r1⟩ := ha.sim fuel q.1 σ q.2 p.1 hr' g1
      rw [e1]
      exact RunRel.ok ⟨g2.symm, r1⟩
  | assigns xs f as =>
    simp only [transS] at h
    obtain ⟨⟨c1, vs, nx1⟩, h1, h⟩ := except_bind_ok h
    obtain ⟨⟨c2, nx2, s2⟩, h2, h⟩ := except_bind_ok h
    dsimp only at h; cases h
    have ha := transA_ok (S := S) as nx s hi c1 vs nx1 h1
    have l1 := ha.le
    obtain ⟨g1, g2, g3, g4, g5, g6⟩ := assignParts_ok (S := S) (hi.mono (show nx ≤ nx1 + xs.length by omega))
      (fun v hv => (mem_news.1 hv).2) (length_news _ _).symm h2
    refine ⟨by omega, g2, g3, g4, ?_, ?_⟩
    · intro d hd
      simp only [allDefs_app, Code.allDefs, List.mem_append, mem_news] at hd
      rcases hd with hd | hd | hd
      · have := ha.defs d hd; omega
      · omega
      · have := g5 d hd; omega
    · intro fuel ρ σ w hr
      rw [exec_app]
      simp only [Stmt.run]
      refine (ha.sim fuel ρ σ w hr).bind fun p q _ hq ⟨e1, e2⟩ => ?_
      simp only [Code.exec, getAll_eq.2 e1, Run.ok_bind, e2]
      have hr' := hr.frame hi fun u hu => frame_lt (fun d hd => (ha.defs d hd).1) hq u hu
      by_cases hlen : (S.op f p.1 p.2).1.length = xs.length
      · obtain ⟨ρ1, t1, t2, t3⟩ := setAll_ok (xs := (S.op f p.1 p.2).1) (rs := news nx1 xs.length) q.1 (by rw [length_news, hlen]) (nodup_news _ _)
        have hr1 := hr'.frame hi fun u hu => t3 u fun hm => by have := (mem_news.1 hm).1; omega
        obtain ⟨ρ2, σ2, u1, u2, u3⟩ := g6 fuel ρ1 σ (S.op f p.1 p.2).2 _ hr1 t2
        rw [t1, Run.ok_bind, u1, u2]
        exact RunRel.ok ⟨rfl, u3⟩
      · have : ∀ (xs : List ν) (ys : List Val) (σ : Vars ν Val), ys.length ≠ xs.length → σ.setAll xs ys = .error .undef := by
          intro xs
          induction xs with
          | nil => intro ys σ h; cases ys <;> first | rfl | simp at h
          | cons x xs ih =>
            intro ys σ h
            cases ys with
            | nil => rfl
            | cons y ys => exact ih ys _ (by simpa using h)
        rw [this _ _ _ hlen]
        trivial
  | block b ih =>
    simp only [transS] at h
    obtain ⟨⟨c1, nx1, s1⟩, h1, h⟩ := except_bind_ok h
    obtain ⟨⟨ow, s2⟩, h2, h⟩ := except_bind_ok h
    obtain ⟨s3, h3, h⟩ := except_bind_ok h
    dsimp only at h; cases h
    have hb := ih nx s.push hi.push _ _ _ h1
    obtain ⟨ow', e1, ho⟩ := Ow.push_iff hb.inv hb.tail
    rw [e1] at h2; cases h2
    have hd : ∀ n, (s.look n).isSome → (s1.look n).isSome := fun n hn => hb.dom n (by rw [look_push]; exact hn)
    obtain ⟨s4, q1, q2, q3, q4, _, q6⟩ := putOw_ok (Val := Val) hi.ne hi.uniq (hi.mono hb.le).lt hb.inv ho hd
    rw [q1] at h3; cases h3
    refine ⟨hb.le, q2, q3, fun n hn => by rw [q4]; exact hn, hb.defs, fun fuel ρ σ w hr => ?_⟩
    simp only [Stmt.run]
    exact (hb.sim fuel ρ σ w hr.push).bind_left fun p q _ _ ⟨g1, g2⟩ => ⟨_, rfl, g1, q6 _ _ _ hr.isSome g2⟩
  | ifThen e t ih =>
    simp only [transS] at h
    obtain ⟨⟨c1, v, nx1⟩, h1, h⟩ := except_bind_ok h
    obtain ⟨⟨tc, nx2, s1⟩, h2, h⟩ := except_bind_ok h
    obtain ⟨⟨ow, s2⟩, h3, h⟩ := except_bind_ok h
    obtain ⟨⟨d, nx3, s3⟩, h4, h⟩ := except_bind_ok h
    dsimp only at h; cases h
    have he := transE_ok (S := S) e nx s hi c1 v nx1 h1
    have hi1 := hi.mono he.le
    have hb := ih nx1 s.push hi1.push tc nx2 s1 h2
    obtain ⟨ow', e1, ho⟩ := Ow.push_iff hb.inv hb.tail
    rw [e1] at h3; cases h3
    have l1 := he.le
    have l2 := hb.le
    obtain ⟨q1, q2, q3, q4, q5, q6⟩ := finishIf_ok (S := S) hi (show nx ≤ nx2 by omega) ho.uniq (by simp [Tab.Uniq]) ho.dom (by simp) h4
    refine ⟨by omega, q2, q3, q4, ?_, ?_⟩
    · intro d hd
      rw [allDefs_app] at hd
      rcases List.mem_append.1 hd with hd | hd
      · have := he.defs d hd; omega
      · rcases q5 d hd with hd | hd | hd
        · have := hb.defs d hd; omega
        · simp [Code.allDefs] at hd
        · omega
    · intro fuel ρ σ w hr
      rw [exec_app]
      simp only [Stmt.run]
      refine (he.sim fuel ρ σ w hr).bind fun p q _ hq ⟨g1, g2⟩ => ?_
      have hr' := hr.frame hi fun u hu => frame_lt (fun d hd => (he.defs d hd).1) hq u hu
      rw [← g2]
      have hns : ∀ n ∈ mergeSymbols ow [], (s.look n).isSome := fun n hn => by
        rcases mem_mergeSymbols.1 hn with h | h
        · exact ho.dom n h
        · simp at h
      refine q6 fuel q.1 σ q.2 p.1 _ _ hr' g1 ?_ ?_
      · exact branch hb hi1 (Nat.le_refl _) ho hns (fun n hn => mem_mergeSymbols.2 (.inl hn)) fuel q.1 σ σ q.2 hr' hr'.push
      · obtain ⟨xs, t1, t2⟩ := inits_ok hr' hns
        simp only [Code.exec, Run.ok_bind]
        have : (mergeSymbols ow []).map (valOfWith s []) = (mergeSymbols ow []).map (valOf s) :=
          List.map_congr_left fun n _ => valOfWith_none rfl
        rw [this, getAll_eq.2 t2]
        exact RunRel.ok ⟨rfl, t1, fun _ _ => rfl⟩
  | ifElse e t f iht ihf =>
    simp only [transS] at h
    obtain ⟨⟨c1, v, nx1⟩, h1, h⟩ := except_bind_ok h
    obtain ⟨⟨tc, nx2, s1⟩, h2, h⟩ := except_bind_ok h
    obtain ⟨⟨ow, s2⟩, h3, h⟩ := except_bind_ok h
    obtain ⟨⟨fc, nx3, s3⟩, h4, h⟩ := except_bind_ok h
    obtain ⟨⟨ow2, s4⟩, h5, h⟩ := except_bind_ok h
    obtain ⟨⟨d, nx4, s5⟩, h6, h⟩ := except_bind_ok h
    dsimp only at h; cases h
    have he := transE_ok (S := S) e nx s hi c1 v nx1 h1
    have l1 := he.le
    have hi1 := hi.mono he.le
    have hb := iht nx1 s.push hi1.push tc nx2 s1 h2
    have l2 := hb.le
    obtain ⟨ow', e1, ho⟩ := Ow.push_iff hb.inv hb.tail
    rw [e1] at h3; cases h3
    have hi2 := hi1.mono hb.le
    have hf := ihf nx2 s.push hi2.push fc nx3 s3 h4
    have l3 := hf.le
    obtain ⟨ow2', e2, ho2⟩ := Ow.push_iff hf.inv hf.tail
    rw [e2] at h5; cases h5
    obtain ⟨q1, q2, q3, q4, q5, q6⟩ := finishIf_ok (S := S) hi (show nx ≤ nx3 by omega) ho.uniq ho2.uniq ho.dom ho2.dom h6
    refine ⟨by omega, q2, q3, q4, ?_, ?_⟩
    · intro d hd
      rw [allDefs_app] at hd
      rcases List.mem_append.1 hd with hd | hd
      · have := he.defs d hd; omega
      · rcases q5 d hd with hd | hd | hd
        · have := hb.defs d hd; omega
        · have := hf.defs d hd; omega
        · omega
    · intro fuel ρ σ w hr
      rw [exec_app]
      simp only [Stmt.run]
      refine (he.sim fuel ρ σ w hr).bind fun p q _ hq ⟨g1, g2⟩ => ?_
      have hr' := hr.frame hi fun u hu => frame_lt (fun d hd => (he.defs d hd).1) hq u hu
      rw [← g2]
      have hns : ∀ n ∈ mergeSymbols ow ow2, (s.look n).isSome := fun n hn => by
        rcases mem_mergeSymbols.1 hn with h | h
        · exact ho.dom n h
        · exact ho2.dom n h
      refine q6 fuel q.1 σ q.2 p.1 _ _ hr' g1 ?_ ?_
      · exact branch hb hi1 (Nat.le_refl _) ho hns (fun n hn => mem_mergeSymbols.2 (.inl hn)) fuel q.1 σ σ q.2 hr' hr'.push
      · exact branch hf hi2 (Nat.le_refl _) ho2 hns (fun n hn => mem_mergeSymbols.2 (.inr hn)) fuel q.1 σ σ q.2 hr' hr'.push
  | «while» e b ih =>
    simp only [transS] at h
    obtain ⟨⟨c1, v, nx1⟩, h1, h⟩ := except_bind_ok h
    obtain ⟨⟨bc, nx2, s1⟩, h2, h⟩ := except_bind_ok h
    obtain ⟨⟨ow, s2⟩, h3, h⟩ := except_bind_ok h
    dsimp only at h
    have he := transE_ok (S := S) e nx s hi c1 v nx1 h1
    have hb := ih nx1 s.push (hi.mono he.le).push bc nx2 s1 h2
    obtain ⟨ow', e1, ho⟩ := Ow.push_iff hb.inv hb.tail
    rw [e1] at h3; cases h3
    exact finishWhile_ok hi he hb ho h
  | doWhile b e ih =>
    simp only [transS] at h
    obtain ⟨⟨bc, nx1, s1⟩, h1, h⟩ := except_bind_ok h
    obtain ⟨⟨ow, s2⟩, h2, h⟩ := except_bind_ok h
    obtain ⟨s3, h3, h⟩ := except_bind_ok h
    obtain ⟨⟨dc, v, nx2⟩, h4, h⟩ := except_bind_ok h
    obtain ⟨⟨x, s4⟩, h5, h⟩ := except_bind_ok h
    dsimp only at h
    have hb := ih nx s.push.push hi.push.push bc nx1 s1 h1
    obtain ⟨ow', e1, ho⟩ := Ow.push_iff (s := s.push) hb.inv hb.tail
    rw [e1] at h2; cases h2
    have hd : ∀ n, (Scopes.look s.push n).isSome → (s1.look n).isSome := fun n hn => hb.dom n (by rw [look_push]; exact hn)
    have hp := hi.push
    obtain ⟨s5, q1, q2, q3, q4, _, q6⟩ := putOw_ok (Val := Val) hp.ne hp.uniq (hp.mono hb.le).lt hb.inv ho hd
    dsimp only at h3
    rw [q1] at h3; cases h3
    have he := transE_ok (S := S) e nx1 s3 q2 dc v nx2 h4
    obtain ⟨ow2, e2, _⟩ := pop_ok (s := s) q2 (by rw [q3]; rfl)
    rw [e2] at h5; cases h5
    exact finishDoWhile_ok hi hb ho q2 (fun ρ1 σ σ1 hd hr => q6 ρ1 σ σ1 (fun n => by rw [look_push]; exact hd n) hr) he h
  | «for» x lo hi' b ih =>
    simp only [transS, startFor_eq, Res.ok_bind] at h
    obtain ⟨⟨c1, vlo, nx1⟩, h1, h⟩ := except_bind_ok h
    obtain ⟨⟨c2, vhi, nx2⟩, h2, h⟩ := except_bind_ok h
    dsimp only [forBounds] at h
    obtain ⟨⟨c6, nx4, s1⟩, h3, h⟩ := except_bind_ok h
    obtain ⟨⟨ow, s2⟩, h4, h⟩ := except_bind_ok h
    dsimp only at h
    obtain ⟨⟨c7, nx5, s3⟩, h5, h⟩ := except_bind_ok h
    dsimp only at h; cases h
    have he := transE_ok (S := S) lo nx s hi c1 vlo nx1 h1
    have l1 := he.le
    have he2 := transE_ok (S := S) hi' nx1 s (hi.mono l1) c2 vhi nx2 h2
    have l2 := he2.le
    have hi2 := hi.mono (show nx ≤ nx2 by omega)
    have hb := ih _ _ (startFor_inv (x := x) hi2 (show nx2 ≤ nx2 + 5 + 4 by omega)) c6 nx4 s1 h3
    obtain ⟨ow', e1, ho⟩ := pop_ok (s := s) hb.inv (by rw [hb.tail]; rfl)
    rw [e1] at h4; cases h4
    obtain ⟨m1, m2, m3, m4, m5, m6, m7⟩ := finishFor_ok hS hi2 (show nx2 ≤ nx2 + 4 ∧ nx2 + 4 < nx2 + 5 + 4 by omega) hb ho h5
    have hlt1 := he.lt
    have hlt2 := he2.lt
    refine ⟨by omega, m3, m4, m5, ?_, ?_⟩
    · intro d hd
      simp only [allDefs_app, Code.allDefs, List.mem_append, List.mem_cons, List.not_mem_nil, or_false] at hd
      rcases hd with hd | hd | hd | hd | hd
      · have := he.defs d hd; omega
      · have := he2.defs d hd; omega
      · omega
      · omega
      · have := m6 d hd; omega
    · intro fuel ρ σ w hr
      rw [exec_app]
      simp only [Stmt.run]
      refine (he.sim fuel ρ σ w hr).bind fun p q _ hq ⟨g1, g2⟩ => ?_
      have hr' := hr.frame hi fun u hu => frame_lt (fun d hd => (he.defs d hd).1) hq u hu
      rw [← g2, exec_app]
      refine (he2.sim fuel q.1 σ q.2 hr').bind fun p2 q2 _ hq2 ⟨g3, g4⟩ => ?_
      have hr2 := hr'.frame (hi.mono l1) fun u hu => frame_lt (fun d hd => (he2.defs d hd).1) hq2 u hu
      have g1' : q2.1 vlo = some p.1 := by rw [frame_lt (fun d hd => (he2.defs d hd).1) hq2 vlo hlt1]; exact g1
      rw [← g4, exec_app]
      obtain ⟨ρ3, x1, x2, x3⟩ := stepCode_exec (F := F) hS (nx := nx2) fuel q2.2 (by omega) hlt2 g1' g3
      rw [x1, Run.ok_bind, exec_app]
      by_cases hrange : ForRange (S.toInt p.1) (S.toInt p2.1) (if S.toInt p.1 ≤ S.toInt p2.1 then 1 else -1)
      · have hsg : (if S.toInt p.1 ≤ S.toInt p2.1 then (1 : Int) else -1).sign = if S.toInt p.1 ≤ S.toInt p2.1 then 1 else -1 := by
          split <;> rfl
        have hst : S.toInt (S.ofInt (if S.toInt p.1 ≤ S.toInt p2.1 then 1 else -1)) = if S.toInt p.1 ≤ S.toInt p2.1 then 1 else -1 :=
          hS _ (by unfold InI64; split <;> omega)
        obtain ⟨ρ4, y1, y2, y3, y4, y5⟩ := forBounds_exec (F := F) hS (nx := nx2 + 5) (lo := vlo) (hi := vhi) (st := nx2 + 4) (dir := nx2 + 4)
          (step := if S.toInt p.1 ≤ S.toInt p2.1 then 1 else -1) fuel q2.2
          (by rw [x2 vlo (by omega)]; exact g1') (by rw [x2 vhi (by omega)]; exact g3) x3 (by rw [hsg]; exact x3) rfl rfl hst hrange
          (by omega) (by omega) (by omega)
        dsimp only [forBounds] at y1
        rw [y1, Run.ok_bind]
        refine m7 fuel ρ4 σ q2.2 _ _ _ ?_ hrange y3 y4 y5 ?_
        · exact hr2.frame hi2 fun u hu => by rw [y2 u (by omega), x2 u hu]
        · rw [y2 _ (by omega), x3, hsg]
      · rw [forRun, if_neg hrange]; trivial
  | forStep x lo hi' step b ih =>
    simp only [transS, startFor_eq, Res.ok_bind] at h
    obtain ⟨⟨c1, vlo, nx1⟩, h1, h⟩ := except_bind_ok h
    obtain ⟨⟨c2, vhi, nx2⟩, h2, h⟩ := except_bind_ok h
    obtain ⟨⟨c3, vst, nx3⟩, h2', h⟩ := except_bind_ok h
    dsimp only [forBounds] at h
    obtain ⟨⟨c6, nx4, s1⟩, h3, h⟩ := except_bind_ok h
    obtain ⟨⟨ow, s2⟩, h4, h⟩ := except_bind_ok h
    dsimp only at h
    obtain ⟨⟨c7, nx5, s3⟩, h5, h⟩ := except_bind_ok h
    dsimp only at h; cases h
    have he := transE_ok (S := S) lo nx s hi c1 vlo nx1 h1
    have l1 := he.le
    have he2 := transE_ok (S := S) hi' nx1 s (hi.mono l1) c2 vhi nx2 h2
    have l2 := he2.le
    have hi2 := hi.mono (show nx ≤ nx2 by omega)
    have he3 := transE_ok (S := S) step nx2 s hi2 c3 vst nx3 h2'
    have l3 := he3.le
    have hi3 := hi.mono (show nx ≤ nx3 by omega)
    have hb := ih _ _ (startFor_inv (x := x) hi3 (show nx3 ≤ nx3 + 1 + 4 by omega)) c6 nx4 s1 h3
    obtain ⟨ow', e1, ho⟩ := pop_ok (s := s) hb.inv (by rw [hb.tail]; rfl)
    rw [e1] at h4; cases h4
    obtain ⟨m1, m2, m3, m4, m5, m6, m7⟩ := finishFor_ok hS hi3 (show nx3 ≤ nx3 ∧ nx3 < nx3 + 1 + 4 by omega) hb ho h5
    have hlt1 := he.lt
    have hlt2 := he2.lt
    have hlt3 := he3.lt
    refine ⟨by omega, m3, m4, m5, ?_, ?_⟩
    · intro d hd
      simp only [allDefs_app, Code.allDefs, List.mem_append, List.mem_cons, List.not_mem_nil, or_false] at hd
      rcases hd with hd | hd | hd | hd | hd | hd
      · have := he.defs d hd; omega
      · have := he2.defs d hd; omega
      · have := he3.defs d hd; omega
      · omega
      · omega
      · have := m6 d hd; omega
    · intro fuel ρ σ w hr
      rw [exec_app]
      simp only [Stmt.run]
      refine (he.sim fuel ρ σ w hr).bind fun p q _ hq ⟨g1, g2⟩ => ?_
      have hr' := hr.frame hi fun u hu => frame_lt (fun d hd => (he.defs d hd).1) hq u hu
      rw [← g2, exec_app]
      refine (he2.sim fuel q.1 σ q.2 hr').bind fun p2 q2 _ hq2 ⟨g3, g4⟩ => ?_
      have fr2 := fun u hu => frame_lt (fun d hd => (he2.defs d hd).1) hq2 u hu
      have hr2 := hr'.frame (hi.mono l1) fr2
      rw [← g4, exec_app]
      refine (he3.sim fuel q2.1 σ q2.2 hr2).bind fun p3 q3 _ hq3 ⟨g5, g6⟩ => ?_
      have fr3 := fun u hu => frame_lt (fun d hd => (he3.defs d hd).1) hq3 u hu
      have hr3 := hr2.frame hi2 fr3
      have g1' : q3.1 vlo = some p.1 := by rw [fr3 vlo (by omega), fr2 vlo (by omega)]; exact g1
      have g3' : q3.1 vhi = some p2.1 := by rw [fr3 vhi (by omega)]; exact g3
      rw [← g6, exec_app]
      have x1 : (Code.arith nx3 .sign [vst] .done : Code F).exec S fuel q3.1 q3.2 = .ok (q3.1.upd nx3 (S.ofInt (S.toInt p3.1).sign), q3.2) := by
        simp only [Code.exec, Env.getAll, get_eq.2 g5, Run.ok_bind, List.map_cons, List.map_nil, Arith.eval]
      have x2 : ∀ v, v < nx3 → (q3.1.upd nx3 (S.ofInt (S.toInt p3.1).sign)) v = q3.1 v := fun v hv => by
        simp only [Env.upd]; rw [if_neg (by omega)]
      have x3 : (q3.1.upd nx3 (S.ofInt (S.toInt p3.1).sign)) nx3 = some (S.ofInt (S.toInt p3.1).sign) := by simp [Env.upd]
      rw [x1, Run.ok_bind, exec_app]
      by_cases hrange : ForRange (S.toInt p.1) (S.toInt p2.1) (S.toInt p3.1)
      · obtain ⟨ρ4, y1, y2, y3, y4, y5⟩ := forBounds_exec (F := F) hS (nx := nx3 + 1) (lo := vlo) (hi := vhi) (st := vst) (dir := nx3)
          (step := S.toInt p3.1) fuel q3.2
          (by rw [x2 vlo (by omega)]; exact g1') (by rw [x2 vhi (by omega)]; exact g3') (by rw [x2 vst hlt3]; exact g5) x3 rfl rfl rfl hrange
          (by omega) (by omega) (by omega)
        dsimp only [forBounds] at y1
        rw [y1, Run.ok_bind]
        refine m7 fuel ρ4 σ q3.2 _ _ _ ?_ hrange y3 y4 y5 ?_
        · exact hr3.frame hi3 fun u hu => by rw [y2 u (by omega), x2 u hu]
        · rw [y2 _ (by omega), x3]
      · rw [forRun, if_neg hrange]; trivial

end

end Verif.Front
