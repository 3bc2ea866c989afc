/-
  Correctness of the translation of for-loops.
-/
import Verif.Front.TransLoop

namespace Verif.Front

/-- Counting upwards with an exclusive bound, and undoing the direction, gives the values of the for-loop. -/
theorem scfVals_eq (a b s : Int) : scfVals (a * s.sign) ((b + s.sign) * s.sign) (s * s.sign) = .ok ((forVals a b s).map (· * s.sign)) := by
  unfold scfVals forVals
  rcases Int.lt_trichotomy s 0 with h | h | h
  · have hs : s.sign = -1 := Int.sign_eq_neg_one_of_neg h
    rw [hs]
    simp only [Int.mul_neg, Int.mul_one, if_neg (show ¬ 0 < s by omega), if_pos h, List.map_map]
    by_cases hc : -(b + -1) ≤ -a
    · rw [if_pos hc]
      have h0 : (a - b) / (-s) < 0 := by
        have h1 : a - b < 0 := by omega
        exact Int.ediv_neg_of_neg_of_pos h1 (by omega)
      rw [show ((a - b) / (-s) + 1).toNat = 0 by omega]; rfl
    · rw [if_neg hc, if_neg (by omega)]
      rw [show -(b + -1) - -a - 1 = a - b by omega]
      congr 1
      apply List.map_congr_left
      intro k _
      simp only [Function.comp, Int.mul_neg]; omega
  · subst h; simp
  · have hs : s.sign = 1 := Int.sign_eq_one_of_pos h
    rw [hs]
    simp only [Int.mul_one, if_pos h]
    by_cases hc : b + 1 ≤ a
    · rw [if_pos hc]
      have h0 : (b - a) / s < 0 := Int.ediv_neg_of_neg_of_pos (by omega) h
      rw [show ((b - a) / s + 1).toNat = 0 by omega]; rfl
    · rw [if_neg hc, if_neg (by omega)]
      rw [show b + 1 - a - 1 = b - a by omega]
      simp

theorem forVals_range {a b s z : Int} (h : ForRange a b s) (hz : z ∈ forVals a b s) : -2 ^ 63 < z ∧ z < 2 ^ 63 ∧ (s.sign = 1 ∨ s.sign = -1) := by
  obtain ⟨h0, ⟨k, rfl⟩, h1, h2⟩ := (mem_forVals a b s z).1 hz
  unfold ForRange at h
  rcases Int.lt_trichotomy s 0 with hs | hs | hs
  · have := h2 hs
    have hk : (k : Int) * s ≤ 0 := Int.mul_nonpos_of_nonneg_of_nonpos (by omega) (by omega)
    exact ⟨by omega, by omega, .inr (Int.sign_eq_neg_one_of_neg hs)⟩
  · exact absurd hs h0
  · have := h1 hs
    have hk : 0 ≤ (k : Int) * s := Int.mul_nonneg (by omega) (by omega)
    exact ⟨by omega, by omega, .inl (Int.sign_eq_one_of_pos hs)⟩

theorem Keeps.comp {f g : Nat → Nat} {ds : List Nat} (hf : Keeps f ds) (hg : Keeps g ds) : Keeps (g ∘ f) ds := by
  intro r hr
  refine ⟨by simp only [Function.comp, (hf r hr).1, (hg r hr).1], fun v hv => ?_⟩
  exact (hf r hr).2 v ((hg r hr).2 _ hv)

theorem repl_eq (o n : Nat) : repl o n = replAll [o] [n] := rfl

section
variable {ν F Val W : Type} [DecidableEq ν] {S : Sem F Val W}

/-- The table at the start of the body of a for-loop. -/
theorem startFor_eq {x : ν} {dir ph : Nat} {s : Syms ν} : startFor (F := F) x dir ph s =
    .ok (.arith ph (.const 123) [] (.arith (ph + 1) .mul [ph, dir] .done), ph + 2, [(x, ⟨ph + 1, true⟩)] :: s) := rfl

theorem startFor_inv {x : ν} {ph nx : Nat} {s : Syms ν} (hi : Inv s nx) (hle : nx ≤ ph) : Inv ([(x, ⟨ph + 1, true⟩)] :: s) (ph + 2) := by
  have : Inv ([] :: s) nx := hi.push
  exact this.put x ⟨ph + 1, true⟩ (by omega) (by simp) fun n j hl => by
    have := this.look_lt hl
    simp only; omega

/-- The end of a for-loop. -/
theorem finishFor_ok {b : Stmt ν F} {x : ν} {s s1 : Syms ν} {nx ph nx2 nx' lb ub st dir : Nat} {c6 c : Code F} {ow : Tab ν Nat} {s' : Syms ν}
    (hS : S.Lawful) (hi : Inv s nx) (hdir : nx ≤ dir ∧ dir < ph)
    (hb : SOk S b (ph + 2) ([(x, ⟨ph + 1, true⟩)] :: s) c6 nx2 s1) (ho : Ow s s1 ow)
    (h : finishFor s lb ub st ph ((Code.arith ph (.const 123) [] (.arith (ph + 1) .mul [ph, dir] .done)).app c6) ow nx2 = .ok (c, nx', s')) :
    ph + 2 ≤ nx2 ∧ nx2 ≤ nx' ∧ Inv s' nx' ∧ s'.drop 1 = s.drop 1 ∧ (∀ n, (s.look n).isSome → (s'.look n).isSome) ∧
    (∀ d ∈ c.allDefs, ph ≤ d ∧ d < nx') ∧
    ∀ fuel (ρ : Env Val) (σ : Vars ν Val) (w : W) (a b' step : Int), Rel s ρ σ → ForRange a b' step →
      ρ lb = some (S.ofInt (a * step.sign)) → ρ ub = some (S.ofInt ((b' + step.sign) * step.sign)) →
      ρ st = some (S.ofInt (step * step.sign)) → ρ dir = some (S.ofInt step.sign) →
      RunRel (fun p q => p.2 = q.2 ∧ Rel s' q.1 p.1) (forRun S (b.run S fuel) x σ w a b' step) (c.exec S fuel ρ w) := by
  have hns := ho.dom
  have hl : (ow.map Prod.fst).length = ow.length := by simp
  have l2 := hb.le
  obtain ⟨s2, p1, p2, p3, p4, p5⟩ := putVals_ok (Val := Val) (a := nx2 + 1 + ow.length) hi ho.uniq hns (by omega)
  rw [hl] at p1 p2 p5
  simp only [finishFor, getVals_ok hns, p1] at h
  cases h
  have hk : nx2 + 1 + ow.length + ow.length = nx2 + 1 + 2 * ow.length := by omega
  rw [hk] at p2
  have hvl := vals_lt hi hns
  refine ⟨l2, by omega, p2, p3, p4, ?_, ?_⟩
  · intro d hd
    simp only [Code.allDefs, List.append_nil, List.mem_append, mem_news, replCode_eq, allDefs_mapUses, Code.app, List.mem_cons] at hd
    rcases hd with (hd | hd | hd) | hd | hd | hd
    · omega
    · omega
    · omega
    · omega
    · omega
    · have := hb.defs d hd; omega
  · intro fuel ρ σ w a b' step hr hrange hlb hub hst hdirv
    obtain ⟨xs, hx1, hx2⟩ := inits_ok hr hns
    have d1 : step.sign = 1 ∨ step.sign = 0 ∨ step.sign = -1 := by
      rcases Int.lt_trichotomy step 0 with h | h | h
      · exact .inr (.inr (Int.sign_eq_neg_one_of_neg h))
      · exact .inr (.inl (by rw [h]; rfl))
      · exact .inl (Int.sign_eq_one_of_pos h)
    have hrg := hrange
    unfold ForRange at hrg
    have i1 : S.toInt (S.ofInt (a * step.sign)) = a * step.sign := hS _ (by unfold InI64; rcases d1 with e | e | e <;> rw [e] <;> omega)
    have i2 : S.toInt (S.ofInt ((b' + step.sign) * step.sign)) = (b' + step.sign) * step.sign :=
      hS _ (by unfold InI64; rcases d1 with e | e | e <;> rw [e] <;> omega)
    have i3 : S.toInt (S.ofInt (step * step.sign)) = step * step.sign := hS _ (by unfold InI64; rcases d1 with e | e | e <;> rw [e] <;> omega)
    have i4 : S.toInt (S.ofInt step.sign) = step.sign := hS _ (by unfold InI64; rcases d1 with e | e | e <;> rw [e] <;> omega)
    simp only [Code.exec, forRun, if_pos hrange, getAll_eq.2 hx2, get_eq.2 hlb, get_eq.2 hub, get_eq.2 hst, Run.ok_bind, i1, i2, i3, scfVals_eq]
    refine RunRel.bind_right (P := LoopRel (ow.map Prod.fst) σ) ?_ ?_
    · refine RunRel.fold _ ?_ (σ, w) (xs, w) ⟨rfl, hx1, fun _ _ => rfl⟩
      rintro z hz ⟨σi, wi⟩ ⟨ys, wi'⟩ ⟨q1, q2, q3⟩
      simp only at q1 q2 q3
      subst q1
      have hlen : ys.length = ow.length := by have := congrArg List.length q2; simpa using this.symm
      obtain ⟨z1, z2, hd⟩ := forVals_range hrange hz
      have iz : S.toInt (S.ofInt (z * step.sign)) = z * step.sign := hS _ (by unfold InI64; rcases hd with e | e <;> rw [e] <;> omega)
      obtain ⟨ρb, b1, b2, b3⟩ := setAll_ok (xs := ys) (rs := news (nx2 + 1) ow.length) (ρ.upd nx2 (S.ofInt (z * step.sign)))
        (by rw [length_news, hlen]) (nodup_news _ _)
      have hfb : ∀ v, v < nx2 → ρb v = ρ v := fun v hv => by
        rw [b3 v fun hm => by have := (mem_news.1 hm).1; omega]
        simp only [Env.upd]; rw [if_neg (by omega)]
      have hiv : ρb nx2 = some (S.ofInt (z * step.sign)) := by
        rw [b3 nx2 fun hm => by have := (mem_news.1 hm).1; omega]
        simp [Env.upd]
      have hrb := body_env (a := nx2 + 1) hi ho.uniq hns (by omega) hr q2 q3 (by rw [hl]; exact b2) fun v hv => hfb v (by omega)
      rw [hl] at hrb
      simp only [b1, Run.ok_bind]
      rw [replCode_eq, mapUses_mapUses, mapUses_app, exec_app]
      -- the placeholder and the loop variable
      have f1 : (replAll ((ow.map Prod.fst).map (valOf s)) (news (nx2 + 1) ow.length) ∘ repl ph nx2) ph = nx2 := by
        simp only [Function.comp, repl, if_true]
        exact replAll_other _ _ _ fun hm => by have := hvl _ hm; omega
      have f2 : (replAll ((ow.map Prod.fst).map (valOf s)) (news (nx2 + 1) ow.length) ∘ repl ph nx2) dir = dir := by
        simp only [Function.comp, repl, if_neg (show ¬ dir = ph by omega)]
        exact replAll_other _ _ _ fun hm => by have := hvl _ hm; omega
      have f3 : (replAll ((ow.map Prod.fst).map (valOf s)) (news (nx2 + 1) ow.length) ∘ repl ph nx2) (ph + 1) = ph + 1 := by
        simp only [Function.comp, repl, if_neg (show ¬ ph + 1 = ph by omega)]
        exact replAll_other _ _ _ fun hm => by have := hvl _ hm; omega
      have hpre : ((Code.arith ph (.const 123) [] (.arith (ph + 1) .mul [ph, dir] .done) : Code F).mapUses
            (replAll ((ow.map Prod.fst).map (valOf s)) (news (nx2 + 1) ow.length) ∘ repl ph nx2)).exec S fuel ρb wi
          = .ok ((ρb.upd ph (S.ofInt 123)).upd (ph + 1) (S.ofInt z), wi) := by
        have e1 : (ρb.upd ph (S.ofInt 123)) nx2 = some (S.ofInt (z * step.sign)) := by
          simp only [Env.upd]; rw [if_neg (by omega)]; exact hiv
        have e2 : (ρb.upd ph (S.ofInt 123)) dir = some (S.ofInt step.sign) := by
          simp only [Env.upd]; rw [if_neg (by omega), hfb dir (by omega)]; exact hdirv
        have e3 : wrap64 (z * step.sign * step.sign) = z := by
          rw [wrap64_eq]
          · rcases hd with e | e <;> rw [e] <;> omega
          · unfold InI64; rcases hd with e | e <;> rw [e] <;> omega
        simp only [Code.mapUses, List.map_nil, List.map_cons, f1, f2]
        have g1 : Env.getAll (ρb.upd ph (S.ofInt 123)) [nx2, dir] = .ok [S.ofInt (z * step.sign), S.ofInt step.sign] := by
          rw [getAll_eq]; simp [e1, e2]
        simp only [Code.exec, Env.getAll, Run.ok_bind, List.map_nil, Arith.eval]
        simp only [get_eq.2 e1, get_eq.2 e2, Run.ok_bind, List.map_cons, List.map_nil, iz, i4, Arith.eval, e3]
      rw [hpre, Run.ok_bind]
      -- the body
      have hrc : Rel s (((ρb.upd ph (S.ofInt 123)).upd (ph + 1) (S.ofInt z)) ∘
          (replAll ((ow.map Prod.fst).map (valOf s)) (news (nx2 + 1) ow.length) ∘ repl ph nx2)) σi := by
        refine hrb.frame hi fun v hv => ?_
        simp only [Function.comp, repl, if_neg (show ¬ v = ph by omega)]
        have : replAll ((ow.map Prod.fst).map (valOf s)) (news (nx2 + 1) ow.length) v ≠ ph ∧
            replAll ((ow.map Prod.fst).map (valOf s)) (news (nx2 + 1) ow.length) v ≠ ph + 1 := by
          rcases replAll_range ((ow.map Prod.fst).map (valOf s)) (news (nx2 + 1) ow.length) v with e | e
          · omega
          · have := (mem_news.1 e).1; omega
        simp only [Env.upd, if_neg this.1, if_neg this.2]
      have hrs : Rel ([(x, ⟨ph + 1, true⟩)] :: s) (((ρb.upd ph (S.ofInt 123)).upd (ph + 1) (S.ofInt z)) ∘
          (replAll ((ow.map Prod.fst).map (valOf s)) (news (nx2 + 1) ow.length) ∘ repl ph nx2)) (σi.set x (S.ofInt z)) := by
        refine Rel.set (t := []) hrc.push x ⟨ph + 1, true⟩ _ ?_
        rw [Function.comp, f3]; simp [Env.upd]
      have keep : Keeps (replAll ((ow.map Prod.fst).map (valOf s)) (news (nx2 + 1) ow.length) ∘ repl ph nx2) c6.allDefs := by
        refine Keeps.comp ?_ ?_
        · rw [repl_eq]
          exact keeps_replAll (a := ph + 2) (b := nx2) (by simp) (by simp) hb.defs
        · exact keeps_replAll (a := ph + 2) (b := nx2) (fun o ho => by have := hvl o ho; omega)
            (fun n hn => by have := (mem_news.1 hn).1; omega) hb.defs
      have hbr := branch hb hi (by omega) ho hns (fun n hn => hn) fuel _ σi _ wi hrc hrs
      rw [exec_mapUses fuel _ c6 keep] at hbr
      simp only [bind_assoc, Run.ok_bind, getAll_comp] at hbr
      rw [owVals_eq (s := s) ho.uniq, List.map_map (f := repl ph nx2)]
      exact hbr.mono fun p q _ _ ⟨r1, r2, r3⟩ => ⟨r1, r2, fun n hn => (r3 n hn).trans (q3 n hn)⟩
    · rintro ⟨σ', w1⟩ ⟨ys, w2⟩ _ _ ⟨q1, q2, q3⟩
      simp only at q1 q2 q3
      subst q1
      have hlen : ys.length = ow.length := by have := congrArg List.length q2; simpa using this.symm
      obtain ⟨ρ', e1, e2, e3⟩ := setAll_ok (xs := ys) (rs := news (nx2 + 1 + ow.length) ow.length) ρ (by rw [length_news, hlen]) (nodup_news _ _)
      refine ⟨(ρ', w1), by rw [e1]; rfl, rfl, ?_⟩
      exact p5 ρ ρ' σ σ' ys hr q3 (fun u hu => e3 u fun hm => by have := (mem_news.1 hm).1; omega) q2 e2

end

end Verif.Front
