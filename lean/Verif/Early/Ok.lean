/-
  When the pass succeeds.
-/
import Verif.Early.Inv
import Mathlib.Tactic.Tauto

namespace Verif.Early
variable {V F W : Type}

/-- Values are defined before they are used; `S`: those that are defined before the block. -/
def WS (S : List Nat) : Block F → Prop
  | .nil => True
  | .op rs _ args k => (∀ x ∈ args, x ∈ S) ∧ WS (rs ++ S) k
  | .ite rs c t e k => c ∈ S ∧ WS S t ∧ WS S e ∧ WS (rs ++ S) k
  | .yield vs k => (∀ x ∈ vs, x ∈ S) ∧ WS S k
  | .ret vs k => (∀ x ∈ vs, x ∈ S) ∧ WS S k

theorem WS.mono : ∀ {b : Block F} {S S' : List Nat}, (∀ x ∈ S, x ∈ S') → WS S b → WS S' b
  | .nil, _, _, _, _ => trivial
  | .op rs _ args k, S, S', h, hw => ⟨fun x hx => h x (hw.1 x hx), WS.mono (b := k) (fun x hx => by
      rw [List.mem_append] at hx ⊢
      exact hx.imp_right (h x)) hw.2⟩
  | .ite rs c t e k, S, S', h, hw => ⟨h c hw.1, WS.mono h hw.2.1, WS.mono h hw.2.2.1, WS.mono (b := k) (fun x hx => by
      rw [List.mem_append] at hx ⊢
      exact hx.imp_right (h x)) hw.2.2.2⟩
  | .yield vs k, S, S', h, hw => ⟨fun x hx => h x (hw.1 x hx), WS.mono h hw.2⟩
  | .ret vs k, S, S', h, hw => ⟨fun x hx => h x (hw.1 x hx), WS.mono h hw.2⟩

theorem WS.uses : ∀ {b : Block F} {S : List Nat}, WS S b → ∀ x ∈ Early.uses b, x ∈ S ∨ x ∈ defs b
  | .nil, _, _, x, hx => by cases hx
  | .op rs _ args k, S, hw, x, hx => by
    simp only [Early.uses, List.mem_append] at hx
    rcases hx with hx | hx
    · exact .inl (hw.1 x hx)
    · have := WS.uses hw.2 x hx
      simp only [List.mem_append, defs] at this ⊢
      tauto
  | .ite rs c t e k, S, hw, x, hx => by
    simp only [Early.uses, List.mem_append, List.mem_cons] at hx
    rcases hx with rfl | hx | hx | hx
    · exact .inl hw.1
    · have := WS.uses hw.2.1 x hx
      simp only [List.mem_append, defs] at this ⊢
      tauto
    · have := WS.uses hw.2.2.1 x hx
      simp only [List.mem_append, defs] at this ⊢
      tauto
    · have := WS.uses hw.2.2.2 x hx
      simp only [List.mem_append, defs] at this ⊢
      tauto
  | .yield vs k, S, hw, x, hx => by
    simp only [Early.uses, List.mem_append] at hx
    rcases hx with hx | hx
    · exact .inl (hw.1 x hx)
    · exact WS.uses hw.2 x hx
  | .ret vs k, S, hw, x, hx => by
    simp only [Early.uses, List.mem_append] at hx
    rcases hx with hx | hx
    · exact .inl (hw.1 x hx)
    · exact WS.uses hw.2 x hx

/-- The block yields `a` values, or returns. -/
def endsY (a : Nat) : Block F → Prop
  | .nil => a = 0
  | .op _ _ _ k => endsY a k
  | .ite _ _ _ _ k => endsY a k
  | .yield vs .nil => vs.length = a
  | .yield _ k => endsY a k
  | .ret _ .nil => True
  | .ret _ k => endsY a k

/-- The last operation is a return. -/
def endsRet : Block F → Bool
  | .nil => false
  | .op _ _ _ k => endsRet k
  | .ite _ _ _ _ k => endsRet k
  | .yield _ k => endsRet k
  | .ret _ .nil => true
  | .ret _ k => endsRet k

/-- The last operation, or the one before the yield if `y`, is a return. -/
def endR (y : Bool) : Block F → Prop
  | .nil => False
  | .op _ _ _ k => endR y k
  | .ite _ _ _ _ k => endR y k
  | .yield _ _ => False
  | .ret _ k => k = .nil ∨ (y = true ∧ ∃ us, k = .yield us .nil) ∨ endR y k

/-- The block returns: at its end, or in both branches of an `if` at its end. -/
def Top (y : Bool) : Block F → Prop
  | .nil => False
  | .op _ _ _ k => Top y k
  | .yield _ _ => False
  | .ret _ k => k = .nil ∨ (y = true ∧ ∃ us, k = .yield us .nil) ∨ Top y k
  | .ite _ _ t e k => (dep t = 0 ∧ dep e = 0 ∧ Top y k) ∨ endR y k ∨ ((k = .nil ∨ (y = true ∧ ∃ us, k = .yield us .nil)) ∧ Top true t ∧ Top true e)

/-- Returns of `M` values; the results of `if`s with returns are not used, or these `if`s are new ones. -/
def U (M : Nat) : Block F → Prop
  | .nil => True
  | .op _ _ _ k => U M k
  | .yield _ k => U M k
  | .ret vs k => vs.length = M ∧ U M k
  | .ite rs _ t e k => U M t ∧ U M e ∧ U M k ∧
    (0 < dep t ∨ 0 < dep e → (rs = [] ∨ (rs.length = M ∧ rs.Nodup ∧ (k = .ret rs .nil ∨ k = .yield rs .nil) ∧ (dep t = 0 ∨ dep e = 0)) ∨ k = .nil) ∧ endsY rs.length t ∧ endsY rs.length e)

/-- The `if`s around a block where both branches return. -/
def SureF : List (List Nat × Block F) → Prop
  | [] => True
  | [(_, k)] => k = .nil
  | (_, k) :: p :: outer => (k = .nil ∨ ∃ us, k = .yield us .nil) ∧ SureF (p :: outer)

/-- The `if`s around a block that are followed by a return. -/
def Chain (M : Nat) : List Nat → List (List Nat × Block F) → Prop
  | _, [] => False
  | S, (rs, k) :: outer => ∃ S', (∀ x ∈ S', x ∈ S) ∧ WS (rs ++ S') k ∧ U M k ∧ (rs = [] ∨ (rs.length = M ∧ rs.Nodup ∧ (k = .ret rs .nil ∨ k = .yield rs .nil))) ∧
    ((∃ us, k = .ret us .nil) ∨ ∃ us rs' k' o, k = .yield us .nil ∧ outer = (rs', k') :: o ∧ us.length = rs'.length ∧ Chain M S' outer)

/-- How a block ends in these `if`s. -/
def Ctx (M : Nat) (S : List Nat) (outer : List (List Nat × Block F)) (b : Block F) : Prop :=
  (SureF outer ∧ Top (!outer.isEmpty) b) ∨ (∃ rs k o, outer = (rs, k) :: o ∧ Chain M S outer ∧ closed b = true ∧ endsY rs.length b)

theorem Chain.mono {M : Nat} {S S' : List Nat} {outer : List (List Nat × Block F)} (h : ∀ x ∈ S, x ∈ S') (hc : Chain M S outer) : Chain M S' outer := by
  rcases outer with _ | ⟨⟨rs, k⟩, outer⟩
  · exact hc
  · obtain ⟨S0, h0, hr⟩ := hc
    exact ⟨S0, fun x hx => h x (h0 x hx), hr⟩

theorem Ctx.mono {M : Nat} {S S' : List Nat} {outer : List (List Nat × Block F)} {b : Block F} (h : ∀ x ∈ S, x ∈ S') (hc : Ctx M S outer b) : Ctx M S' outer b := by
  rcases hc with hc | ⟨rs, k, o, h1, h2, h3⟩
  · exact .inl hc
  · exact .inr ⟨rs, k, o, h1, h2.mono h, h3⟩

theorem Chain.not_sure {M : Nat} : ∀ {outer : List (List Nat × Block F)} {S : List Nat}, Chain M S outer → ¬SureF outer
  | [], S, h, _ => h
  | [(rs, k)], S, ⟨S', _, _, _, _, h5⟩, h => by
    cases h
    rcases h5 with ⟨us, h5⟩ | ⟨us, rs', k', o, h5, -⟩ <;> cases h5
  | (rs, k) :: q :: outer, S, ⟨S', _, _, _, _, h5⟩, h => by
    rcases h5 with ⟨us, rfl⟩ | ⟨us, rs', k', o, rfl, hq, -, h7⟩
    · rcases h.1 with h | ⟨us, h⟩ <;> cases h
    · exact Chain.not_sure h7 h.2

theorem endR.top {y : Bool} : ∀ {b : Block F}, endR y b → Top y b
  | .nil, h => h
  | .op _ _ _ k, h => endR.top (b := k) h
  | .ite _ _ _ _ k, h => .inr (.inl h)
  | .yield _ _, h => h
  | .ret _ k, h => h.imp_right fun h => h.imp_right fun h => endR.top h

theorem Top.hasRet {y : Bool} : ∀ {b : Block F}, Top y b → dep b ≤ 1 → hasRet b = true
  | .nil, h, _ => by cases h
  | .op _ _ _ k, h, hd => Top.hasRet (b := k) h hd
  | .ite rs c t e k, h, hd => by
    simp only [dep] at hd
    have h1 : dep t ≤ 0 := up_le (by omega)
    rcases h with h | h | h
    · exact Top.hasRet (b := k) h.2.2 (by omega)
    · exact Top.hasRet (b := k) h.top (by omega)
    · have h2 := hasRet_dep (Top.hasRet h.2.1 (by omega))
      omega
  | .yield _ _, h, _ => by cases h
  | .ret _ k, h, _ => rfl

theorem substD_nil : ∀ b : Block F, substD [] b = b
  | .nil => rfl
  | .op rs f args k => by simp [substD, substD_nil k, show ren [] = id from funext ren_nil]
  | .ite rs c t e k => by simp [substD, substD_nil k, ren_nil]
  | .yield vs k => by simp [substD, substD_nil k, show ren [] = id from funext ren_nil]
  | .ret vs k => by simp [substD, substD_nil k, show ren [] = id from funext ren_nil]

theorem map_ren : ∀ {rs vs : List Nat}, rs.Nodup → vs.length = rs.length → rs.map (ren (rs.zip vs)) = vs
  | [], [], _, _ => rfl
  | r :: rs, v :: vs, hn, hl => by
    rw [List.nodup_cons] at hn
    have h0 : ren ((r :: rs).zip (v :: vs)) r = v := by simp [ren]
    rw [List.map_cons, h0]
    congr 1
    rw [← map_ren (rs := rs) (vs := vs) hn.2 (by simpa using hl)]
    refine List.map_congr_left fun x hx => ?_
    have hne : (r == x) = false := by
      simp only [beq_eq_false_iff_ne]
      rintro rfl
      exact hn.1 hx
    rw [map_ren (rs := rs) (vs := vs) hn.2 (by simpa using hl)]
    simp [ren, List.zip_cons_cons, hne]

/-- What follows a yield. -/
theorem attach_yield {M : Nat} : ∀ {rs : List Nat} {k : Block F} {outer : List (List Nat × Block F)} {S vs : List Nat}, Chain M S ((rs, k) :: outer) → (∀ x ∈ vs, x ∈ S) → vs.length = rs.length →
    ∃ us, attach outer (substD (rs.zip vs) k) = .ret us .nil ∧ us.length = M ∧ (∀ x ∈ us, x ∈ S) ∧ (rs ≠ [] → us = vs)
  | rs, k, outer, S, vs, ⟨S', h0, h2, h3, h4, h5⟩, hv, hl => by
    have hret : ∀ us, attach outer (Block.ret us .nil : Block F) = .ret us .nil := by
      intro us
      rcases outer with _ | ⟨⟨rs', k'⟩, outer⟩ <;> rfl
    rcases h4 with rfl | ⟨h4, h4n, h4k⟩
    · rw [List.zip_nil_left, substD_nil]
      rcases h5 with ⟨us, rfl⟩ | ⟨us, rs', k', o, rfl, rfl, h6, h7⟩
      · exact ⟨us, hret us, h3.1, fun x hx => h0 x (h2.1 x hx), fun h => absurd rfl h⟩
      · obtain ⟨ws, hw1, hw2, hw3, -⟩ := attach_yield (vs := us) h7 (fun x hx => h2.1 x hx) h6
        exact ⟨ws, hw1, hw2, fun x hx => h0 x (hw3 x hx), fun h => absurd rfl h⟩
    · rcases h4k with rfl | rfl
      · refine ⟨vs, ?_, by omega, hv, fun _ => rfl⟩
        simp only [substD, map_ren h4n hl]
        exact hret vs
      · simp only [substD, map_ren h4n hl]
        rcases h5 with ⟨us, h5⟩ | ⟨us, rs', k', o, h5, rfl, h6, h7⟩
        · cases h5
        · cases h5
          obtain ⟨ws, hw1, hw2, hw3, hw4⟩ := attach_yield (vs := vs) (h7.mono h0) hv (by omega)
          refine ⟨ws, hw1, hw2, hw3, fun hne => hw4 ?_⟩
          rintro rfl
          exact hne (List.length_eq_zero_iff.1 (by simpa using h6))

theorem attach_nil (outer : List (List Nat × Block F)) : attach outer (.nil : Block F) = .nil := by
  rcases outer with _ | ⟨⟨rs, k⟩, outer⟩ <;> rfl

theorem attach_sure : ∀ {p : List Nat × Block F} {outer : List (List Nat × Block F)}, SureF (p :: outer) → ∀ vs, attach outer (substD (p.1.zip vs) p.2) = .nil
  | (rs, k), [], h, vs => by
    cases h
    rfl
  | (rs, k), q :: outer, h, vs => by
    rcases h.1 with h1 | ⟨us, h1⟩
    · subst h1
      exact attach_nil _
    · subst h1
      exact attach_sure h.2 _

theorem endsY_ite {a : Nat} {rs : List Nat} {c : Nat} {t e k : Block F} : endsY a (.ite rs c t e k) = endsY a k := rfl

theorem toYield_of_endsRet {M : Nat} : ∀ {b : Block F}, endsRet b = true → U M b → K b → ∃ b', toYield b = some (b', M)
  | .nil, h, _, _ => by cases h
  | .op rs f args k, h, hU, hK => by
    obtain ⟨b', hb⟩ := toYield_of_endsRet (b := k) h hU hK
    exact ⟨.op rs f args b', by simp only [toYield, hb, Option.map_some]⟩
  | .ite rs c t e k, h, hU, hK => by
    obtain ⟨b', hb⟩ := toYield_of_endsRet (b := k) h hU.2.2.1 hK.2.2.1
    exact ⟨.ite rs c t e b', by simp only [toYield, hb, Option.map_some]⟩
  | .yield vs k, h, hU, hK => by
    cases hK
    cases h
  | .ret vs k, h, hU, hK => by
    by_cases hk : k = .nil
    · subst hk
      exact ⟨.yield vs .nil, by rw [← hU.1]; rfl⟩
    · rw [toYield_ret hk]
      have hk' : endsRet k = true := by cases k <;> first | exact h | exact absurd rfl hk
      obtain ⟨b', hb⟩ := toYield_of_endsRet hk' hU.2 hK
      exact ⟨.ret vs b', by simp only [hb, Option.map_some]⟩

theorem endsRet_ret {vs : List Nat} {k : Block F} (h : endsRet k = true) : endsRet (.ret vs k) = true := by
  cases k <;> first | rfl | exact h

theorem endsY_ret {a : Nat} {vs : List Nat} {k : Block F} (hk : k ≠ .nil) : endsY a (.ret vs k) = endsY a k := by
  cases k <;> first | rfl | exact absurd rfl hk

/-- A block where a return of the values that the block would yield is at the end instead. -/
theorem onYield_ok {M : Nat} {f : List Nat → Block F} {a : Nat} {S0 : List Nat} : ∀ {b : Block F} {S : List Nat}, (∀ vs : List Nat, vs.length = a → ∀ S' : List Nat, (∀ x ∈ S0, x ∈ S') → (∀ x ∈ vs, x ∈ S') → ∃ us, f vs = .ret us .nil ∧ us.length = M ∧ (∀ x ∈ us, x ∈ S') ∧ (a ≠ 0 → us = vs)) →
    K b → WS S b → U M b → closed b = true → endsY a b → (∀ x ∈ S0, x ∈ S) → WS S (onYield f b) ∧ U M (onYield f b) ∧ endsRet (onYield f b) = true
  | .nil, S, _, _, _, _, hc, _, _ => by cases hc
  | .op rs g args k, S, hf, hK, hW, hU, hc, hE, hS => by
    obtain ⟨h1, h2, h3⟩ := onYield_ok (b := k) hf hK hW.2 hU hc hE (fun x hx => by simp [hS x hx])
    exact ⟨⟨hW.1, h1⟩, h2, h3⟩
  | .ite rs c t e k, S, hf, hK, hW, hU, hc, hE, hS => by
    obtain ⟨h1, h2, h3⟩ := onYield_ok (b := k) hf hK.2.2.1 hW.2.2.2 hU.2.2.1 hc hE (fun x hx => by simp [hS x hx])
    refine ⟨⟨hW.1, hW.2.1, hW.2.2.1, h1⟩, ⟨hU.1, hU.2.1, h2, fun hd => ⟨?_, (hU.2.2.2 hd).2⟩⟩, h3⟩
    rcases (hU.2.2.2 hd).1 with h | ⟨h4, h5, h6, h7⟩ | rfl
    · exact .inl h
    · by_cases hrs : rs = []
      · exact .inl hrs
      · refine .inr (.inl ⟨h4, h5, .inl ?_, h7⟩)
        rcases h6 with rfl | rfl
        · rfl
        · obtain ⟨us, hu1, -, -, hu2⟩ := hf rs hE (rs ++ S) (fun x hx => by simp [hS x hx]) (fun x hx => by simp [hx])
          have ha : a ≠ 0 := by
            rintro rfl
            exact hrs (List.length_eq_zero_iff.1 hE)
          rw [hu2 ha] at hu1
          exact hu1
    · cases hc
  | .yield vs k, S, hf, hK, hW, hU, hc, hE, hS => by
    cases hK
    obtain ⟨us, hu1, hu2, hu3, -⟩ := hf vs hE S hS hW.1
    simp only [onYield, hu1]
    exact ⟨⟨hu3, trivial⟩, ⟨hu2, trivial⟩, rfl⟩
  | .ret vs k, S, hf, hK, hW, hU, hc, hE, hS => by
    by_cases hk : k = .nil
    · subst hk
      exact ⟨hW, hU, rfl⟩
    · rw [endsY_ret hk] at hE
      have hc' : closed k = true := by cases k <;> first | exact hc | exact absurd rfl hk
      obtain ⟨h1, h2, h3⟩ := onYield_ok (b := k) hf hK hW.2 hU.2 hc' hE hS
      exact ⟨⟨hW.1, h1⟩, ⟨hU.1, h2⟩, endsRet_ret h3⟩

/-- A block without its yield. -/
theorem dropYield_ok {M : Nat} {f : List Nat → Block F} (hf : ∀ vs, f vs = .nil) : ∀ {b : Block F} {S : List Nat}, WS S b → U M b → endR true b → WS S (onYield f b) ∧ U M (onYield f b) ∧ endsRet (onYield f b) = true
  | .nil, S, _, _, hc => by cases hc
  | .op rs g args k, S, hW, hU, hc => by
    obtain ⟨h1, h2, h3⟩ := dropYield_ok hf (b := k) hW.2 hU hc
    exact ⟨⟨hW.1, h1⟩, h2, h3⟩
  | .ite rs c t e k, S, hW, hU, hc => by
    obtain ⟨h1, h2, h3⟩ := dropYield_ok hf (b := k) hW.2.2.2 hU.2.2.1 hc
    refine ⟨⟨hW.1, hW.2.1, hW.2.2.1, h1⟩, ⟨hU.1, hU.2.1, h2, fun hd => ⟨?_, (hU.2.2.2 hd).2⟩⟩, h3⟩
    rcases (hU.2.2.2 hd).1 with h | ⟨h4, h5, h6, h7⟩ | rfl
    · exact .inl h
    · refine .inr (.inl ⟨h4, h5, .inl ?_, h7⟩)
      rcases h6 with rfl | rfl
      · rfl
      · cases hc
    · cases hc
  | .yield vs k, S, hW, hU, hc => by cases hc
  | .ret vs k, S, hW, hU, hc => by
    rcases hc with rfl | ⟨-, us, rfl⟩ | hc
    · exact ⟨hW, hU, rfl⟩
    · simp only [onYield, hf]
      exact ⟨⟨hW.1, trivial⟩, ⟨hU.1, trivial⟩, rfl⟩
    · obtain ⟨h1, h2, h3⟩ := dropYield_ok hf (b := k) hW.2 hU.2 hc
      exact ⟨⟨hW.1, h1⟩, ⟨hU.1, h2⟩, endsRet_ret h3⟩

theorem endR_false : ∀ {b : Block F}, endR false b → endsRet b = true
  | .nil, h => by cases h
  | .op _ _ _ k, h => endR_false (b := k) h
  | .ite _ _ _ _ k, h => endR_false (b := k) h
  | .yield _ _, h => by cases h
  | .ret _ k, h => by
    rcases h with rfl | ⟨h, -⟩ | h
    · rfl
    · cases h
    · exact endsRet_ret (endR_false h)

theorem attach_chain {M : Nat} {rs : List Nat} {k : Block F} {outer : List (List Nat × Block F)} {S S0 : List Nat} {b : Block F} (hC : Chain M S0 ((rs, k) :: outer)) (hS : ∀ x ∈ S0, x ∈ S) (hK : K b) (hW : WS S b) (hU : U M b)
    (hc : closed b = true) (hE : endsY rs.length b) : WS S (attach ((rs, k) :: outer) b) ∧ U M (attach ((rs, k) :: outer) b) ∧ endsRet (attach ((rs, k) :: outer) b) = true := by
  refine onYield_ok (a := rs.length) (S0 := S0) ?_ hK hW hU hc hE hS
  intro vs hl S' hS' hv
  obtain ⟨us, h1, h2, h3, h4⟩ := attach_yield (hC.mono hS') hv hl
  exact ⟨us, h1, h2, h3, fun ha => h4 (by rintro rfl; exact ha rfl)⟩

/-- What follows an `if`, in these `if`s. -/
def After (M : Nat) (S : List Nat) (outer : List (List Nat × Block F)) (b : Block F) : Prop :=
  (SureF outer ∧ endR (!outer.isEmpty) b) ∨ (∃ rs k o, outer = (rs, k) :: o ∧ Chain M S outer ∧ closed b = true ∧ endsY rs.length b)

theorem attach_ok {M : Nat} {outer : List (List Nat × Block F)} {S : List Nat} {b : Block F} (hA : After M S outer b) (hK : K b) (hW : WS S b) (hU : U M b) :
    WS S (attach outer b) ∧ U M (attach outer b) ∧ endsRet (attach outer b) = true := by
  rcases hA with ⟨h1, h2⟩ | ⟨rs, k, o, rfl, h2, h3, h4⟩
  · rcases outer with _ | ⟨⟨rs, k⟩, outer⟩
    · exact ⟨hW, hU, endR_false h2⟩
    · exact dropYield_ok (attach_sure h1) hW hU h2
  · exact attach_chain h2 (fun x hx => hx) hK hW hU h3 h4

theorem WS.trunc : ∀ {b : Block F} {S : List Nat}, WS S b → WS S (Early.trunc b)
  | .nil, _, h => h
  | .op rs f args k, S, h => ⟨h.1, WS.trunc (b := k) h.2⟩
  | .ite rs c t e k, S, h => ⟨h.1, h.2.1, h.2.2.1, WS.trunc (b := k) h.2.2.2⟩
  | .yield vs k, S, h => ⟨h.1, WS.trunc (b := k) h.2⟩
  | .ret vs k, S, h => ⟨h.1, trivial⟩

theorem U.trunc {M : Nat} : ∀ {b : Block F}, U M b → U M (Early.trunc b)
  | .nil, h => h
  | .op rs f args k, h => U.trunc (b := k) h
  | .ite rs c t e k, h => by
    refine ⟨h.1, h.2.1, U.trunc (b := k) h.2.2.1, fun hd => ⟨?_, (h.2.2.2 hd).2⟩⟩
    rcases (h.2.2.2 hd).1 with h0 | ⟨h4, h5, h6, h7⟩ | rfl
    · exact .inl h0
    · refine .inr (.inl ⟨h4, h5, ?_, h7⟩)
      rcases h6 with rfl | rfl
      · exact .inl rfl
      · exact .inr rfl
    · exact .inr (.inr rfl)
  | .yield vs k, h => U.trunc (b := k) h
  | .ret vs k, h => ⟨h.1, trivial⟩

theorem endsRet_trunc : ∀ {b : Block F}, hasRet b = true → endsRet (trunc b) = true
  | .nil, h => by cases h
  | .op rs f args k, h => endsRet_trunc (b := k) h
  | .ite rs c t e k, h => endsRet_trunc (b := k) h
  | .yield vs k, h => endsRet_trunc (b := k) h
  | .ret vs k, h => rfl

theorem addYield_ok {M a : Nat} : ∀ {b : Block F} {S : List Nat}, K b → dep b = 0 → WS S b → U M b → endsY a b → WS S (addYield b) ∧ U M (addYield b) ∧ closed (addYield b) = true ∧ endsY a (addYield b)
  | .nil, S, _, _, _, _, hE => ⟨⟨fun x hx => (by cases hx), trivial⟩, trivial, rfl, (hE : a = 0).symm⟩
  | .op rs g args k, S, hK, hd, hW, hU, hE => by
    obtain ⟨h1, h2, h3, h4⟩ := addYield_ok (b := k) hK hd hW.2 hU hE
    exact ⟨⟨hW.1, h1⟩, h2, h3, h4⟩
  | .ite rs c t e k, S, hK, hd, hW, hU, hE => by
    obtain ⟨d1, d2, d3⟩ := dep_ite_zero hd
    obtain ⟨h1, h2, h3, h4⟩ := addYield_ok (b := k) hK.2.2.1 d3 hW.2.2.2 hU.2.2.1 hE
    exact ⟨⟨hW.1, hW.2.1, hW.2.2.1, h1⟩, ⟨hU.1, hU.2.1, h2, fun hh => absurd hh (by omega)⟩, h3, h4⟩
  | .yield vs k, S, hK, hd, hW, hU, hE => by
    cases hK
    exact ⟨hW, hU, rfl, hE⟩
  | .ret vs k, S, hK, hd, hW, hU, hE => by
    simp only [dep] at hd
    omega

theorem toYield_ok {M : Nat} : ∀ {b b' : Block F} {m : Nat} {S : List Nat}, toYield b = some (b', m) → K b → WS S b → U M b → WS S b' ∧ U M b' ∧ endsY M b'
  | .nil, b', m, S, h, _, _, _ => by cases h
  | .op rs f args k, b', m, S, h, hK, hW, hU => by
    simp only [toYield, Option.map_eq_some_iff] at h
    obtain ⟨⟨k', m'⟩, hk, h⟩ := h
    cases h
    obtain ⟨h1, h2, h3⟩ := toYield_ok hk hK hW.2 hU
    exact ⟨⟨hW.1, h1⟩, h2, h3⟩
  | .ite rs c t e k, b', m, S, h, hK, hW, hU => by
    simp only [toYield, Option.map_eq_some_iff] at h
    obtain ⟨⟨k', m'⟩, hk, h⟩ := h
    cases h
    obtain ⟨h1, h2, h3⟩ := toYield_ok hk hK.2.2.1 hW.2.2.2 hU.2.2.1
    refine ⟨⟨hW.1, hW.2.1, hW.2.2.1, h1⟩, ⟨hU.1, hU.2.1, h2, fun hd => ⟨?_, (hU.2.2.2 hd).2⟩⟩, h3⟩
    rcases (hU.2.2.2 hd).1 with h0 | ⟨h4, h5, h6, h7⟩ | rfl
    · exact .inl h0
    · refine .inr (.inl ⟨h4, h5, ?_, h7⟩)
      rcases h6 with rfl | rfl
      · cases hk
        exact .inr rfl
      · cases hk
    · cases hk
  | .yield vs k, b', m, S, h, hK, hW, hU => by
    cases hK
    cases h
  | .ret vs k, b', m, S, h, hK, hW, hU => by
    by_cases hk : k = .nil
    · subst hk
      cases h
      exact ⟨hW, trivial, hU.1⟩
    · rw [toYield_ret hk, Option.map_eq_some_iff] at h
      obtain ⟨⟨k', m'⟩, hk', h⟩ := h
      cases h
      obtain ⟨h1, h2, h3⟩ := toYield_ok hk' hK hW.2 hU.2
      refine ⟨⟨hW.1, h1⟩, ⟨hU.1, h2⟩, ?_⟩
      have hne : k' ≠ .nil := by
        rintro rfl
        have := (toYield_inv hk' hK).2.1
        cases this
      show endsY M (.ret vs k')
      rwa [endsY_ret hne]

/-- A branch of the new `if`. -/
theorem newCase_ok {M n : Nat} {rs : List Nat} {k : Block F} {outer : List (List Nat × Block F)} {b : Block F} {S : List Nat} (ho : ∀ p ∈ outer, Term p.2) (hKb : K b) (hdb : dep b ≤ 1) (hWb : WS S b) (hUb : U M b)
    (hr : hasRet b = true ∨ (endsY rs.length b ∧ K k ∧ WS (rs ++ S) k ∧ U M k ∧ After M S outer k ∧ (rs = [] ∨ (rs.length = M ∧ rs.Nodup ∧ (k = .ret rs .nil ∨ k = .yield rs .nil))))) :
    WS S (newCase n rs k outer b) ∧ U M (newCase n rs k outer b) ∧ endsRet (newCase n rs k outer b) = true := by
  unfold newCase
  split
  · next hr => exact ⟨hWb.trunc, hUb.trunc, endsRet_trunc hr⟩
  · next hr0 =>
    have hr' : hasRet b = false := by simpa using hr0
    obtain ⟨hEb, hKk, hWk, hUk, hA, hrs⟩ := hr.resolve_left hr0
    have hd0 := dep_hasRet hr' hdb
    unfold fixCase
    rw [map_clone ho]
    obtain ⟨h1, h2, h3, h4⟩ := addYield_ok hKb hd0 hWb hUb hEb
    obtain ⟨h5, h6⟩ := addYield_inv hKb hd0
    rcases hrs with rfl | hrs
    · obtain ⟨h7, h8, h9⟩ := attach_ok hA hKk hWk hUk
      simp only [attach, List.zip_nil_left, substD_nil]
      -- the operations of the branch, then these
      have main : ∀ {b : Block F} {S' : List Nat}, K b → dep b = 0 → WS S' b → U M b → closed b = true → (∀ x ∈ S, x ∈ S') →
          WS S' (onYield (fun _ => attach outer k) b) ∧ U M (onYield (fun _ => attach outer k) b) ∧ endsRet (onYield (fun _ => attach outer k) b) = true := by
        intro b
        induction b with
        | nil =>
          intro S' _ _ _ _ hc _
          cases hc
        | op rs g args k ih =>
          intro S' hK hd hW hU hc hS
          obtain ⟨i1, i2, i3⟩ := ih hK hd hW.2 hU hc (fun x hx => by simp [hS x hx])
          exact ⟨⟨hW.1, i1⟩, i2, i3⟩
        | ite rs c t e k _ _ ih =>
          intro S' hK hd hW hU hc hS
          obtain ⟨d1, d2, d3⟩ := dep_ite_zero hd
          obtain ⟨i1, i2, i3⟩ := ih hK.2.2.1 d3 hW.2.2.2 hU.2.2.1 hc (fun x hx => by simp [hS x hx])
          exact ⟨⟨hW.1, hW.2.1, hW.2.2.1, i1⟩, ⟨hU.1, hU.2.1, i2, fun hh => absurd hh (by omega)⟩, i3⟩
        | yield vs k _ =>
          intro S' hK hd hW hU hc hS
          exact ⟨h7.mono hS, h8, h9⟩
        | ret vs k _ =>
          intro S' hK hd hW hU hc hS
          simp only [dep] at hd
          omega
      exact main h5 h6 h1 h2 h3 fun x hx => hx
    · rcases hA with ⟨hs1, hs2⟩ | ⟨rs', k', o, rfl, hc1, hc2, hc3⟩
      · rcases hrs.2.2 with rfl | rfl
        · exact attach_chain (S0 := S) ⟨S, fun x hx => hx, hWk, hUk, .inr hrs, .inl ⟨_, rfl⟩⟩ (fun x hx => hx) h5 h1 h2 h3 h4
        · cases hs2
      · rcases hrs.2.2 with rfl | rfl
        · exact attach_chain (S0 := S) ⟨S, fun x hx => hx, hWk, hUk, .inr hrs, .inl ⟨_, rfl⟩⟩ (fun x hx => hx) h5 h1 h2 h3 h4
        · exact attach_chain (S0 := S) ⟨S, fun x hx => hx, hWk, hUk, .inr hrs, .inr ⟨_, rs', k', o, rfl, rfl, hc3, hc1⟩⟩ (fun x hx => hx) h5 h1 h2 h3 h4

/-! ### One round -/

/-- How the new block ends. -/
theorem step_end {n : Nat} : ∀ (d : Nat) (b : Block F) (outer : List (List Nat × Block F)) (b' : Block F), step n d b outer = .ok b' → (∀ y, endR y b → endR y b') ∧ ∀ a, endsY a b → endsY a b'
  | d, .nil, outer, b', hs => by cases hs
  | d, .op rs f args k, outer, b', hs => by
    simp only [step, bind_ok] at hs
    obtain ⟨k', hk', hs⟩ := hs
    cases hs
    exact step_end d k outer k' hk'
  | d, .yield vs k, outer, b', hs => by
    simp only [step, bind_ok] at hs
    obtain ⟨k', hk', hs⟩ := hs
    cases hs
    refine ⟨fun y h => h, fun a h => ?_⟩
    have hk : k ≠ .nil := by
      rintro rfl
      cases hk'
    have h2 := (step_end d k outer k' hk').2 a
    have he : endsY a k := by cases k <;> first | exact h | exact absurd rfl hk
    have hk2 : k' ≠ .nil := step_ne_nil hk'
    have := h2 he
    cases k' <;> first | exact this | exact absurd rfl hk2
  | d, .ret vs k, outer, b', hs => by
    simp only [step, bind_ok] at hs
    obtain ⟨k', hk', hs⟩ := hs
    cases hs
    have hk : k ≠ .nil := by
      rintro rfl
      cases hk'
    have hk2 : k' ≠ .nil := step_ne_nil hk'
    obtain ⟨h1, h2⟩ := step_end d k outer k' hk'
    refine ⟨fun y h => ?_, fun a h => ?_⟩
    · rcases h with h | ⟨-, us, rfl⟩ | h
      · exact absurd h hk
      · cases hk'
      · exact .inr (.inr (h1 y h))
    · rw [endsY_ret hk] at h
      rw [endsY_ret hk2]
      exact h2 a h
  | d, .ite rs c t e k, outer, b', hs => by
    rw [step] at hs
    split at hs
    · split at hs
      · obtain ⟨t', e', m, -, -, rfl, -⟩ := rectify_ok hs
        refine ⟨fun y h => ?_, fun a h => ?_⟩
        · show endR y (.ret (List.range' (2 * n) m) _)
          split
          · exact .inr (.inr h)
          · exact .inl rfl
        · show endsY a (.ret (List.range' (2 * n) m) _)
          split
          · by_cases hk : k = .nil
            · subst hk
              trivial
            · rw [endsY_ret hk]
              exact h
          · trivial
      · split at hs
        · rw [bind_ok] at hs
          obtain ⟨t', ht', hs⟩ := hs
          cases hs
          exact ⟨fun y h => h, fun a h => h⟩
        · rw [bind_ok] at hs
          obtain ⟨t', ht', hs⟩ := hs
          cases hs
          exact ⟨fun y h => h, fun a h => h⟩
    · rw [bind_ok] at hs
      obtain ⟨k', hk', hs⟩ := hs
      cases hs
      exact step_end d k outer k' hk'
where
  step_ne_nil {n d : Nat} {b b' : Block F} {outer : List (List Nat × Block F)} (h : step n d b outer = .ok b') : b' ≠ .nil := by
    rintro rfl
    cases b with
    | nil => cases h
    | op rs f args k =>
      simp only [step, bind_ok] at h
      obtain ⟨k', hk', hs⟩ := h
      cases hs
    | yield vs k =>
      simp only [step, bind_ok] at h
      obtain ⟨k', hk', hs⟩ := h
      cases hs
    | ret vs k =>
      simp only [step, bind_ok] at h
      obtain ⟨k', hk', hs⟩ := h
      cases hs
    | ite rs c t e k =>
      rw [step] at h
      split at h
      · split at h
        · obtain ⟨t', e', m, -, -, h, -⟩ := rectify_ok h
          cases h
        · split at h
          · rw [bind_ok] at h
            obtain ⟨k', hk', hs⟩ := h
            cases hs
          · rw [bind_ok] at h
            obtain ⟨k', hk', hs⟩ := h
            cases hs
      · rw [bind_ok] at h
        obtain ⟨k', hk', hs⟩ := h
        cases hs

theorem rectify_succ {M n : Nat} {rs : List Nat} {c : Nat} {t e k : Block F} {outer : List (List Nat × Block F)} {S : List Nat} (ho : ∀ p ∈ outer, Term p.2) (hK : K (.ite rs c t e k)) (hd : dep (.ite rs c t e k) = 2)
    (hd2 : dep t + 1 = 2 ∨ dep e + 1 = 2) (hC : Ctx M S outer (.ite rs c t e k)) (hW : WS S (.ite rs c t e k)) (hU : U M (.ite rs c t e k)) (hn : (defs (.ite rs c t e k)).Nodup) (hS : ∀ x ∈ defs (.ite rs c t e k), x ∉ S)
    (hb : ∀ x ∈ defs (.ite rs c t e k), x < n) : ∃ b', rectify n rs c t e k outer = .ok b' ∧ WS S b' ∧ U M b' ∧ (Top (!outer.isEmpty) (.ite rs c t e k) → Top (!outer.isEmpty) b') := by
  simp only [dep] at hd
  have hdt : dep t ≤ 1 := up_le (by omega)
  have hde : dep e ≤ 1 := up_le (by omega)
  have hdk : dep k ≤ 2 := by omega
  obtain ⟨hu1, hu2, hu3, hu4⟩ := hU
  obtain ⟨hu5, hu6, hu7⟩ := hu4 (by omega)
  have hone : hasRet t = true ∨ hasRet e = true := by
    rcases hd2 with h | h
    · left
      cases hh : hasRet t with
      | true => rfl
      | false =>
        have := dep_hasRet hh hdt
        omega
    · right
      cases hh : hasRet e with
      | true => rfl
      | false =>
        have := dep_hasRet hh hde
        omega
  -- both branches return, or something follows
  have hcase : (hasRet t = true ∧ hasRet e = true) ∨ (After M S outer k ∧ (rs = [] ∨ (rs.length = M ∧ rs.Nodup ∧ (k = .ret rs .nil ∨ k = .yield rs .nil)))) := by
    rcases hC with ⟨hs1, hs2⟩ | ⟨rs', k', o, rfl, hc1, hc2, hc3⟩
    · rcases hs2 with h | h | h
      · omega
      · refine .inr ⟨.inl ⟨hs1, h⟩, ?_⟩
        rcases hu5 with h5 | h5 | rfl
        · exact .inl h5
        · exact .inr ⟨h5.1, h5.2.1, h5.2.2.1⟩
        · cases h
      · exact .inl ⟨h.2.1.hasRet hdt, h.2.2.hasRet hde⟩
    · refine .inr ⟨.inr ⟨rs', k', o, rfl, hc1, hc2, hc3⟩, ?_⟩
      rcases hu5 with h5 | h5 | rfl
      · exact .inl h5
      · exact .inr ⟨h5.1, h5.2.1, h5.2.2.1⟩
      · cases hc2
  obtain ⟨t1, t2, t3⟩ := newCase_ok (n := n) (rs := rs) (k := k) ho hK.1 hdt hW.2.1 hu1 (hcase.imp (fun h => h.1) fun h => ⟨hu6, hK.2.2.1, hW.2.2.2, hu3, h⟩)
  obtain ⟨e1, e2, e3⟩ := newCase_ok (n := n) (rs := rs) (k := k) ho hK.2.1 hde hW.2.2.1 hu2 (hcase.imp (fun h => h.2) fun h => ⟨hu7, hK.2.2.1, hW.2.2.2, hu3, h⟩)
  obtain ⟨tk, tc, -⟩ := newCase_inv (n := n) (rs := rs) (k := k) ho hK.1 hdt hK.2.2.1 hdk
  obtain ⟨ek, ec, -⟩ := newCase_inv (n := n) (rs := rs) (k := k) ho hK.2.1 hde hK.2.2.1 hdk
  obtain ⟨t', ht⟩ := toYield_of_endsRet t3 t2 tk
  obtain ⟨e', he⟩ := toYield_of_endsRet e3 e2 ek
  obtain ⟨t4, t5, t6⟩ := toYield_ok ht tk t1 t2
  obtain ⟨e4, e5, e6⟩ := toYield_ok he ek e1 e2
  have htz := newCase_short ho hK.1 hdt hK.2.2.1 ht
  have hez := newCase_short ho hK.2.1 hde hK.2.2.1 he
  have htd := (toYield_inv ht tk).2.2.1
  have hed := (toYield_inv he ek).2.2.1
  have hboth : (hasRet t && hasRet e) = true → rs = [] ∨ k = .nil := by
    intro h
    rw [Bool.and_eq_true] at h
    rcases hu5 with h5 | h5 | h5
    · exact .inl h5
    · have h1 := hasRet_dep h.1
      have h2 := hasRet_dep h.2
      omega
    · exact .inr h5
  -- the new `if`
  have hWn : WS S (.ite (List.range' (2 * n) M) c t' e' (.ret (List.range' (2 * n) M) (if hasRet t && hasRet e then k else .nil))) := by
    refine ⟨hW.1, t4, e4, fun x hx => by simp [hx], ?_⟩
    split
    · next hbo =>
      rcases hboth hbo with h | rfl
      · have hwk := hW.2.2.2
        rw [h] at hwk
        exact WS.mono (fun x hx => by simp only [List.nil_append] at hx; simp [hx]) hwk
      · trivial
    · trivial
  have hUn : U M (.ite (List.range' (2 * n) M) c t' e' (.ret (List.range' (2 * n) M) (if hasRet t && hasRet e then k else .nil))) := by
    refine ⟨t5, e5, ⟨by simp, ?_⟩, fun hh => ⟨.inr (.inl ⟨by simp, List.nodup_range', .inl ?_, ?_⟩), by simpa using t6, by simpa using e6⟩⟩
    · split
      · exact hu3
      · trivial
    · rw [if_neg]
      intro hbo
      rw [Bool.and_eq_true] at hbo
      have h1 := htz (.inl hbo.1)
      have h2 := hez (.inl hbo.2)
      omega
    · exact hone.imp (fun h => htz (.inl h)) (fun h => hez (.inl h))
  have hEn : Top (!outer.isEmpty) (.ite rs c t e k) → Top (!outer.isEmpty) (.ite (List.range' (2 * n) M) c t' e' (.ret (List.range' (2 * n) M) (if hasRet t && hasRet e then k else .nil))) := by
    intro hs2
    refine .inr (.inl ?_)
    show endR _ (.ret (List.range' (2 * n) M) _)
    split
    · rcases hs2 with h | h | h
      · omega
      · exact .inr (.inr h)
      · rcases h.1 with h | h
        · exact .inl h
        · exact .inr (.inl h)
    · exact .inl rfl
  have hnot : ∀ x ∈ rs, x ∉ uses (Block.ite (List.range' (2 * n) M) c t' e' (.ret (List.range' (2 * n) M) (if hasRet t && hasRet e then k else .nil))) := by
    intro x hx hu
    have hxd : x ∈ defs (Block.ite rs c t e k) := by simp [defs, hx]
    have hcnt := List.nodup_iff_count.1 hn x
    simp only [defs, List.count_append] at hcnt
    have hx1 := List.count_pos_iff.2 hx
    rcases hWn.uses x hu with h | h
    · exact hS x hxd h
    · have h1 := List.count_pos_iff.2 h
      have h2 := tc x
      have h3 := ec x
      have h4 : (List.range' (2 * n) M).count x = 0 := by
        rw [List.count_eq_zero, List.mem_range'_1]
        have := hb x hxd
        omega
      have h5 : (defs (if hasRet t && hasRet e then k else .nil)).count x = 0 := by
        split
        · omega
        · rfl
      simp only [defs, List.count_append, htd, hed, h4, h5] at h1
      split at h2 <;> split at h3 <;> omega
  refine ⟨_, ?_, hWn, hUn, hEn⟩
  unfold rectify
  rw [ht, he]
  simp only [ne_eq, not_true_eq_false, if_false]
  rw [if_neg]
  simp only [List.any_eq_true, not_exists, not_and, List.contains_iff_mem]
  exact hnot

theorem step_succ {M n : Nat} : ∀ (d : Nat) (b : Block F) (outer : List (List Nat × Block F)) (S : List Nat), dep b = d → 2 ≤ d → K b → (∀ p ∈ outer, Term p.2) → Ctx M S outer b → WS S b → U M b → (defs b).Nodup →
    (∀ x ∈ defs b, x ∉ S) → (∀ x ∈ defs b, x < n) → ∃ b', step n d b outer = .ok b' ∧ WS S b' ∧ U M b' ∧ (SureF outer → Top (!outer.isEmpty) b → Top (!outer.isEmpty) b')
  | d, .nil, outer, S, hd, h2, hK, ho, hC, hW, hU, hn, hS, hb => by
    simp only [dep] at hd
    omega
  | d, .op rs f args k, outer, S, hd, h2, hK, ho, hC, hW, hU, hn, hS, hb => by
    obtain ⟨k', h1, h3, h4, h5⟩ := step_succ d k outer (rs ++ S) hd h2 hK ho (Ctx.mono (S := S) (fun x hx => by simp [hx]) hC) hW.2 hU (hn.sublist (List.sublist_append_right _ _)) (by
      intro x hx hm
      rw [List.mem_append] at hm
      rcases hm with hm | hm
      · simp only [defs, List.nodup_append] at hn
        exact hn.2.2 x hm x hx rfl
      · exact hS x (by simp [defs, hx]) hm) (fun x hx => hb x (by simp [defs, hx]))
    refine ⟨.op rs f args k', ?_, ⟨hW.1, h3⟩, h4, h5⟩
    rw [step, h1]
    rfl
  | d, .yield vs k, outer, S, hd, h2, hK, ho, hC, hW, hU, hn, hS, hb => by
    have hk : k = .nil := hK
    subst hk
    simp only [dep] at hd
    omega
  | d, .ret vs k, outer, S, hd, h2, hK, ho, hC, hW, hU, hn, hS, hb => by
    simp only [dep] at hd
    have hk : k ≠ .nil := by
      rintro rfl
      simp only [dep] at hd
      omega
    have htop : ∀ y, Top y (.ret vs k) → Top y k := by
      intro y h
      rcases h with h | ⟨-, us, rfl⟩ | h
      · exact absurd h hk
      · simp only [dep] at hd
        omega
      · exact h
    have hC' : Ctx M S outer k := by
      rcases hC with ⟨hs1, hs2⟩ | ⟨rs', k0, o, h1, hc1, hc2, hc3⟩
      · exact .inl ⟨hs1, htop _ hs2⟩
      · refine .inr ⟨rs', k0, o, h1, hc1, ?_, ?_⟩
        · cases k <;> first | exact hc2 | exact absurd rfl hk
        · rwa [endsY_ret hk] at hc3
    obtain ⟨k', h1, h3, h4, h5⟩ := step_succ d k outer S (by omega) h2 hK ho hC' hW.2 hU.2 hn hS hb
    refine ⟨.ret vs k', ?_, ⟨hW.1, h3⟩, ⟨hU.1, h4⟩, fun hs h => .inr (.inr (h5 hs (htop _ h)))⟩
    rw [step, h1]
    rfl
  | d, .ite rs c t e k, outer, S, hd, h2, hK, ho, hC, hW, hU, hn, hS, hb => by
    have hnn := nodup_ite hn
    rw [step]
    split
    · next hc =>
      split
      · next hd2 =>
        subst hd2
        obtain ⟨b', h1, h3, h4, h5⟩ := rectify_succ ho hK hd hc hC hW hU hn hS hb
        exact ⟨b', h1, h3, h4, fun _ => h5⟩
      · next hd2 =>
        have hT : Term k := hK.2.2.2.1 (by omega)
        obtain ⟨hu1, hu2, hu3, hu4⟩ := hU
        obtain ⟨hu5, hu6, hu7⟩ := hu4 (by omega)
        have ho' : ∀ p ∈ (rs, k) :: outer, Term p.2 := by
          intro p hp
          rcases List.mem_cons.1 hp with rfl | hp
          · exact hT
          · exact ho p hp
        have hframe : (SureF ((rs, k) :: outer) ∧ (k = .nil ∨ ((!outer.isEmpty) = true ∧ ∃ us, k = .yield us .nil)) ∧ Top true t ∧ Top true e) ∨ (Chain M S ((rs, k) :: outer) ∧ (SureF outer → endR (!outer.isEmpty) k)) := by
          have hrs : k ≠ .nil → (rs = [] ∨ (rs.length = M ∧ rs.Nodup ∧ (k = .ret rs .nil ∨ k = .yield rs .nil))) := by
            intro hk
            rcases hu5 with h5 | h5 | h5
            · exact .inl h5
            · exact .inr ⟨h5.1, h5.2.1, h5.2.2.1⟩
            · exact absurd h5 hk
          rcases hC with ⟨hs1, hs2⟩ | ⟨rs', k0, o, rfl, hc1, hc2, hc3⟩
          · rcases hs2 with h | h | h
            · omega
            · have hk : k ≠ .nil := by
                rintro rfl
                cases h
              rcases hT with h0 | ⟨us, h0⟩ | ⟨us, h0⟩
              · exact absurd h0 hk
              · exact .inr ⟨⟨S, fun x hx => hx, hW.2.2.2, hu3, hrs hk, .inl ⟨us, h0⟩⟩, fun _ => h⟩
              · rw [h0] at h
                cases h
            · refine .inl ⟨?_, h⟩
              rcases outer with _ | ⟨q, outer⟩
              · rcases h.1 with h | ⟨h, -⟩
                · exact h
                · cases h
              · exact ⟨h.1.imp_right fun h => h.2, hs1⟩
          · have hk : k ≠ .nil := by
              rintro rfl
              cases hc2
            rcases hT with h0 | ⟨us, h0⟩ | ⟨us, h0⟩
            · exact absurd h0 hk
            · exact .inr ⟨⟨S, fun x hx => hx, hW.2.2.2, hu3, hrs hk, .inl ⟨us, h0⟩⟩, fun hs => absurd hs hc1.not_sure⟩
            · refine .inr ⟨⟨S, fun x hx => hx, hW.2.2.2, hu3, hrs hk, .inr ⟨us, rs', k0, o, h0, rfl, ?_, hc1⟩⟩, fun hs => absurd hs hc1.not_sure⟩
              subst h0
              exact hc3
        have hctx : ∀ b : Block F, (Top true t → Top true e → Top true b) → closed b = true → endsY rs.length b → Ctx M S ((rs, k) :: outer) b := by
          intro b hb1 hb2 hb3
          rcases hframe with ⟨h1, -, h3, h4⟩ | ⟨h1, -⟩
          · exact .inl ⟨h1, hb1 h3 h4⟩
          · exact .inr ⟨rs, k, outer, rfl, h1, hb2, hb3⟩
        split
        · next hdt =>
          obtain ⟨t', h1, h3, h4, h5⟩ := step_succ (d - 1) t ((rs, k) :: outer) S (by omega) (by omega) hK.1 ho' (hctx t (fun h _ => h) (hK.2.2.2.2.1 (by omega)) hu6) hW.2.1 hu1 hnn.1
            (fun x hx => hS x (by simp [defs, hx])) (fun x hx => hb x (by simp [defs, hx]))
          refine ⟨.ite rs c t' e k, ?_, ⟨hW.1, h3, hW.2.2⟩, ⟨h4, hu2, hu3, fun _ => ⟨?_, (step_end _ _ _ _ h1).2 _ hu6, hu7⟩⟩, ?_⟩
          · rw [h1]
            rfl
          · refine hu5.imp_right fun h => h.imp_left fun h => ⟨h.1, h.2.1, h.2.2.1, .inr ?_⟩
            have := h.2.2.2
            omega
          · intro hs _
            rcases hframe with ⟨f1, f2, f3, f4⟩ | ⟨-, f2⟩
            · exact .inr (.inr ⟨f2, h5 f1 f3, f4⟩)
            · exact .inr (.inl (f2 hs))
        · next hdt =>
          obtain ⟨e', h1, h3, h4, h5⟩ := step_succ (d - 1) e ((rs, k) :: outer) S (by omega) (by omega) hK.2.1 ho' (hctx e (fun _ h => h) (hK.2.2.2.2.2 (by omega)) hu7) hW.2.2.1 hu2 hnn.2.1
            (fun x hx => hS x (by simp [defs, hx])) (fun x hx => hb x (by simp [defs, hx]))
          refine ⟨.ite rs c t e' k, ?_, ⟨hW.1, hW.2.1, h3, hW.2.2.2⟩, ⟨hu1, h4, hu3, fun _ => ⟨?_, hu6, (step_end _ _ _ _ h1).2 _ hu7⟩⟩, ?_⟩
          · rw [h1]
            rfl
          · refine hu5.imp_right fun h => h.imp_left fun h => ⟨h.1, h.2.1, h.2.2.1, .inl ?_⟩
            have := h.2.2.2
            omega
          · intro hs _
            rcases hframe with ⟨f1, f2, f3, f4⟩ | ⟨-, f2⟩
            · exact .inr (.inr ⟨f2, f3, h5 f1 f4⟩)
            · exact .inr (.inl (f2 hs))
    · next hc =>
      have hut : up (dep t) ≠ d := fun hh => hc (.inl ((up_eq h2).1 hh))
      have hue : up (dep e) ≠ d := fun hh => hc (.inr ((up_eq h2).1 hh))
      simp only [dep] at hd
      have hdk : dep k = d := by omega
      have hC' : Ctx M S outer k := by
        rcases hC with ⟨hs1, hs2⟩ | ⟨rs', k0, o, h1, hc1, hc2, hc3⟩
        · refine .inl ⟨hs1, ?_⟩
          rcases hs2 with h | h | h
          · exact h.2.2
          · exact h.top
          · rcases h.1 with rfl | ⟨-, us, rfl⟩
            · simp only [dep] at hdk
              omega
            · simp only [dep] at hdk
              omega
        · exact .inr ⟨rs', k0, o, h1, hc1, hc2, hc3⟩
      obtain ⟨k', h1, h3, h4, h5⟩ := step_succ d k outer (rs ++ S) hdk h2 hK.2.2.1 ho (hC'.mono fun x hx => by simp [hx]) hW.2.2.2 hU.2.2.1 (hnn.2.2.sublist (List.sublist_append_right _ _)) (by
        intro x hx hm
        rw [List.mem_append] at hm
        rcases hm with hm | hm
        · have := hnn.2.2
          rw [List.nodup_append] at this
          exact this.2.2 x hm x hx rfl
        · exact hS x (by simp [defs, hx]) hm) (fun x hx => hb x (by simp [defs, hx]))
      refine ⟨.ite rs c t e k', ?_, ⟨hW.1, hW.2.1, hW.2.2.1, h3⟩, ⟨hU.1, hU.2.1, h4, fun hh => ⟨?_, (hU.2.2.2 hh).2⟩⟩, ?_⟩
      · rw [h1]
        rfl
      · refine (hU.2.2.2 hh).1.imp_right fun h => ?_
        rcases h with h | rfl
        · rcases h.2.2.1 with rfl | rfl
          · simp only [dep] at hdk
            omega
          · simp only [dep] at hdk
            omega
        · simp only [dep] at hdk
          omega
      · intro hs hs2
        rcases hs2 with h | h | h
        · exact .inl ⟨h.1, h.2.1, h5 hs h.2.2⟩
        · exact .inr (.inl ((step_end _ _ _ _ h1).1 _ h))
        · rcases h.1 with rfl | ⟨-, us, rfl⟩
          · simp only [dep] at hdk
            omega
          · simp only [dep] at hdk
            omega

end Verif.Early
