/-
  What a round of the pass keeps, and why there are finitely many.
-/
import Verif.Early.Step

namespace Verif.Early
variable {V F W : Type}

theorem dep_hasRet : ∀ {b : Block F}, hasRet b = false → dep b ≤ 1 → dep b = 0
  | .nil, _, _ => rfl
  | .op rs f args k, h, hd => dep_hasRet (b := k) h hd
  | .ite rs c t e k, h, hd => by
    simp only [dep] at hd ⊢
    have := dep_hasRet (b := k) h (by omega)
    unfold up at hd ⊢
    split at hd <;> split at hd <;> simp_all <;> omega
  | .yield vs k, h, hd => dep_hasRet (b := k) h hd
  | .ret vs k, h, hd => by cases h

theorem hasRet_dep : ∀ {b : Block F}, hasRet b = true → 0 < dep b
  | .nil, h => by cases h
  | .op rs f args k, h => hasRet_dep (b := k) h
  | .ite rs c t e k, h => by
    have := hasRet_dep (b := k) h
    simp only [dep]
    omega
  | .yield vs k, h => hasRet_dep (b := k) h
  | .ret vs k, h => by
    simp only [dep]
    omega

theorem up_le {n m : Nat} (h : up n ≤ m + 1) : n ≤ m := by
  unfold up at h
  split at h <;> omega

theorem le_up (n : Nat) : n ≤ up n := by
  unfold up
  split <;> omega

theorem up_zero {n : Nat} (h : up n = 0) : n = 0 := by
  unfold up at h
  split at h <;> omega

theorem dep_trunc : ∀ b : Block F, dep (trunc b) ≤ dep b
  | .nil => Nat.le_refl _
  | .op rs f args k => dep_trunc k
  | .ite rs c t e k => by
    have := dep_trunc k
    simp only [trunc, dep]
    omega
  | .yield vs k => dep_trunc k
  | .ret vs k => by
    simp only [trunc, dep]
    omega

theorem size_trunc : ∀ b : Block F, size (trunc b) ≤ size b
  | .nil => Nat.le_refl _
  | .op rs f args k => Nat.succ_le_succ (size_trunc k)
  | .ite rs c t e k => Nat.succ_le_succ (size_trunc k)
  | .yield vs k => Nat.succ_le_succ (size_trunc k)
  | .ret vs k => by
    simp only [trunc, size]
    omega

theorem Term.trunc {k : Block F} (h : Term k) : Term (trunc k) := by
  rcases h with rfl | ⟨vs, rfl⟩ | ⟨vs, rfl⟩
  · exact .inl rfl
  · exact .inr (.inl ⟨_, rfl⟩)
  · exact .inr (.inr ⟨_, rfl⟩)

theorem K.trunc : ∀ {b : Block F}, K b → K (Early.trunc b)
  | .nil, h => h
  | .op rs f args k, h => K.trunc (b := k) h
  | .ite rs c t e k, h => ⟨h.1, h.2.1, K.trunc (b := k) h.2.2.1, fun hh => (h.2.2.2.1 hh).trunc, h.2.2.2.2⟩
  | .yield vs k, h => by
    cases h
    rfl
  | .ret vs k, h => trivial

theorem defs_trunc (x : Nat) : ∀ b : Block F, (defs (trunc b)).count x ≤ (defs b).count x
  | .nil => Nat.le_refl _
  | .op rs f args k => by
    have := defs_trunc x k
    simp only [trunc, defs, List.count_append]
    omega
  | .ite rs c t e k => by
    have := defs_trunc x k
    simp only [trunc, defs, List.count_append]
    omega
  | .yield vs k => defs_trunc x k
  | .ret vs k => by simp [trunc, defs]

/-! ### The last return -/

theorem toYield_ret {vs : List Nat} {k : Block F} (hk : k ≠ .nil) : toYield (.ret vs k) = (toYield k).map fun p => (.ret vs p.1, p.2) := by
  cases k <;> first | rfl | exact absurd rfl hk

theorem Term.toYield {k k' : Block F} {m : Nat} (h : Term k) (hk : toYield k = some (k', m)) : Term k' ∧ dep k' = 0 := by
  rcases h with rfl | ⟨vs, rfl⟩ | ⟨vs, rfl⟩
  · cases hk
  · cases hk
    exact ⟨.inr (.inr ⟨_, rfl⟩), rfl⟩
  · cases hk

theorem closed_ret {vs : List Nat} {k : Block F} (h : closed k = true) : closed (.ret vs k) = true := by
  cases k <;> first | rfl | exact h

theorem closed_yield {vs : List Nat} {k : Block F} (h : closed k = true) : closed (.yield vs k) = true := by
  cases k <;> first | rfl | exact h

/-- What is kept if the last return is replaced by a yield. -/
theorem toYield_inv : ∀ {b b' : Block F} {m : Nat}, toYield b = some (b', m) → K b → K b' ∧ closed b' = true ∧ defs b' = defs b ∧ size b' = size b ∧ dep b' ≤ dep b
  | .nil, b', m, h, _ => by cases h
  | .op rs f args k, b', m, h, hK => by
    simp only [toYield, Option.map_eq_some_iff] at h
    obtain ⟨⟨k', m'⟩, hk, h⟩ := h
    cases h
    obtain ⟨h1, h2, h3, h4, h5⟩ := toYield_inv hk hK
    exact ⟨h1, h2, by simp only [defs, h3], by simp only [size, h4], h5⟩
  | .ite rs c t e k, b', m, h, hK => by
    simp only [toYield, Option.map_eq_some_iff] at h
    obtain ⟨⟨k', m'⟩, hk, h⟩ := h
    cases h
    obtain ⟨h1, h2, h3, h4, h5⟩ := toYield_inv hk hK.2.2.1
    refine ⟨⟨hK.1, hK.2.1, h1, fun hh => ((hK.2.2.2.1 hh).toYield hk).1, hK.2.2.2.2⟩, h2, by simp only [defs, h3], by simp only [size, h4], ?_⟩
    simp only [dep]
    omega
  | .yield vs k, b', m, h, hK => by
    cases hK
    cases h
  | .ret vs k, b', m, h, hK => by
    by_cases hk : k = .nil
    · subst hk
      cases h
      refine ⟨rfl, rfl, rfl, rfl, ?_⟩
      simp only [dep]
      omega
    · rw [toYield_ret hk, Option.map_eq_some_iff] at h
      obtain ⟨⟨k', m'⟩, hk', h⟩ := h
      cases h
      obtain ⟨h1, h2, h3, h4, h5⟩ := toYield_inv hk' hK
      refine ⟨h1, closed_ret h2, by simp only [defs, h3], by simp only [size, h4], ?_⟩
      simp only [dep]
      omega

theorem toYield_trunc : ∀ {b b' : Block F} {m : Nat}, toYield (trunc b) = some (b', m) → K b → dep b ≤ 1 → dep b' = 0
  | .nil, b', m, h, _, _ => by cases h
  | .op rs f args k, b', m, h, hK, hd => by
    simp only [trunc, toYield, Option.map_eq_some_iff] at h
    obtain ⟨⟨k', m'⟩, hk, h⟩ := h
    cases h
    have := toYield_trunc (b := k) hk hK hd
    simpa only [dep] using this
  | .ite rs c t e k, b', m, h, hK, hd => by
    simp only [trunc, toYield, Option.map_eq_some_iff] at h
    obtain ⟨⟨k', m'⟩, hk, h⟩ := h
    cases h
    simp only [dep] at hd
    have h0 := toYield_trunc (b := k) hk hK.2.2.1 (by omega)
    have h1 : dep t ≤ 0 := up_le (by omega)
    have h2 : dep e ≤ 0 := up_le (by omega)
    have h1' : dep t = 0 := by omega
    have h2' : dep e = 0 := by omega
    simp [dep, h0, h1', h2', up]
  | .yield vs k, b', m, h, hK, hd => by
    cases hK
    cases h
  | .ret vs k, b', m, h, hK, hd => by
    cases h
    rfl

/-! ### Attaching what follows -/

theorem dep_ite_zero {rs : List Nat} {c : Nat} {t e k : Block F} (h : dep (.ite rs c t e k) = 0) : dep t = 0 ∧ dep e = 0 ∧ dep k = 0 := by
  simp only [dep] at h
  exact ⟨up_zero (by omega), up_zero (by omega), by omega⟩

theorem dep_ite_zero' {rs : List Nat} {c : Nat} {t e k : Block F} (ht : dep t = 0) (he : dep e = 0) (hk : dep k = 0) : dep (.ite rs c t e k) = 0 := by simp [dep, ht, he, hk, up]

theorem addYield_inv : ∀ {b : Block F}, K b → dep b = 0 → K (addYield b) ∧ dep (addYield b) = 0
  | .nil, _, _ => ⟨rfl, rfl⟩
  | .op rs f args k, h, hd => addYield_inv (b := k) h hd
  | .ite rs c t e k, h, hd => by
    obtain ⟨h1, h2, h3⟩ := dep_ite_zero hd
    obtain ⟨h4, h5⟩ := addYield_inv (b := k) h.2.2.1 h3
    exact ⟨⟨h.1, h.2.1, h4, fun hh => absurd hh (by omega), h.2.2.2.2⟩, dep_ite_zero' h1 h2 h5⟩
  | .yield vs k, h, _ => by
    cases h
    exact ⟨rfl, rfl⟩
  | .ret vs k, h, hd => by
    simp only [dep] at hd
    omega

/-- The rounds that are left, at most. -/
def mu : Block F → Nat
  | .nil => 0
  | .op _ _ _ k => mu k
  | .yield _ k => mu k
  | .ret _ k => mu k
  | .ite _ _ t e k => (if 0 < dep t ∨ 0 < dep e then 1 + size k else 0) + mu t + mu e + mu k

theorem mu_zero : ∀ {b : Block F}, dep b = 0 → mu b = 0
  | .nil, _ => rfl
  | .op rs f args k, h => mu_zero (b := k) h
  | .ite rs c t e k, h => by
    obtain ⟨h1, h2, h3⟩ := dep_ite_zero h
    simp [mu, h1, h2, mu_zero h1, mu_zero h2, mu_zero h3]
  | .yield vs k, h => mu_zero (b := k) h
  | .ret vs k, h => by
    simp only [dep] at h
    omega

theorem mu_one : ∀ {b : Block F}, dep b ≤ 1 → mu b = 0
  | .nil, _ => rfl
  | .op rs f args k, h => mu_one (b := k) h
  | .ite rs c t e k, h => by
    simp only [dep] at h
    have h1 : dep t ≤ 0 := up_le (by omega)
    have h2 : dep e ≤ 0 := up_le (by omega)
    have h1' : dep t = 0 := by omega
    have h2' : dep e = 0 := by omega
    simp [mu, h1', h2', mu_zero h1', mu_zero h2', mu_one (b := k) (by omega)]
  | .yield vs k, h => mu_one (b := k) h
  | .ret vs k, h => by
    simp only [dep] at h
    exact mu_one (b := k) (by omega)

theorem mu_toYield : ∀ {b b' : Block F} {m : Nat}, toYield b = some (b', m) → K b → mu b' = mu b
  | .nil, b', m, h, _ => by cases h
  | .op rs f args k, b', m, h, hK => by
    simp only [toYield, Option.map_eq_some_iff] at h
    obtain ⟨⟨k', m'⟩, hk, h⟩ := h
    cases h
    simp only [mu, mu_toYield hk hK]
  | .ite rs c t e k, b', m, h, hK => by
    simp only [toYield, Option.map_eq_some_iff] at h
    obtain ⟨⟨k', m'⟩, hk, h⟩ := h
    cases h
    simp only [mu, mu_toYield hk hK.2.2.1, (toYield_inv hk hK.2.2.1).2.2.2.1]
  | .yield vs k, b', m, h, hK => by
    cases hK
    cases h
  | .ret vs k, b', m, h, hK => by
    by_cases hk : k = .nil
    · subst hk
      cases h
      rfl
    · rw [toYield_ret hk, Option.map_eq_some_iff] at h
      obtain ⟨⟨k', m'⟩, hk', h⟩ := h
      cases h
      simp only [mu, mu_toYield hk' hK]

theorem mu_substD (s : List (Nat × Nat)) : ∀ b : Block F, mu (substD s b) = mu b ∧ size (substD s b) = size b
  | .nil => ⟨rfl, rfl⟩
  | .op rs f args k => by simp [substD, mu, size, mu_substD s k]
  | .ite rs c t e k => by simp [substD, mu, size, mu_substD s k]
  | .yield vs k => by simp [substD, mu, size, mu_substD s k]
  | .ret vs k => by simp [substD, mu, size, mu_substD s k]

/-- What is kept if something short follows instead of the yield. -/
theorem onYield_inv {f : List Nat → Block F} (hK : ∀ vs, K (f vs)) : ∀ {b : Block F}, K b → dep b ≤ 2 → K (onYield f b) ∧ (∀ x, ∀ c, (∀ vs, (defs (f vs)).count x ≤ c) → (defs (onYield f b)).count x ≤ (defs b).count x + c)
  | .nil, _, _ => ⟨trivial, fun x c _ => Nat.zero_le _⟩
  | .op rs g args k, h, hd => by
    obtain ⟨h1, h2⟩ := onYield_inv hK (b := k) h hd
    refine ⟨h1, fun x c hc => ?_⟩
    have := h2 x c hc
    simp only [onYield, defs, List.count_append]
    omega
  | .ite rs c t e k, h, hd => by
    simp only [dep] at hd
    obtain ⟨h1, h2⟩ := onYield_inv hK (b := k) h.2.2.1 (by omega)
    have h3 : dep t ≤ 1 := up_le (by omega)
    have h4 : dep e ≤ 1 := up_le (by omega)
    refine ⟨⟨h.1, h.2.1, h1, fun hh => absurd hh (by omega), h.2.2.2.2⟩, fun x c hc => ?_⟩
    have := h2 x c hc
    simp only [onYield, defs, List.count_append]
    omega
  | .yield vs k, h, hd => ⟨hK vs, fun x c hc => Nat.le_trans (hc vs) (by omega)⟩
  | .ret vs k, h, hd => by
    simp only [dep] at hd
    obtain ⟨h1, h2⟩ := onYield_inv hK (b := k) h (by omega)
    exact ⟨h1, h2⟩

theorem size_onYield {f : List Nat → Block F} (hf : ∀ vs, size (f vs) ≤ 1) : ∀ b : Block F, size (onYield f b) ≤ size b
  | .nil => Nat.le_refl _
  | .op rs g args k => Nat.succ_le_succ (size_onYield hf k)
  | .ite rs c t e k => Nat.succ_le_succ (size_onYield hf k)
  | .yield vs k => Nat.le_trans (hf vs) (by simp [size])
  | .ret vs k => Nat.succ_le_succ (size_onYield hf k)

theorem mu_onYield {f : List Nat → Block F} {c : Nat} (hc : ∀ vs, mu (f vs) ≤ c) : ∀ (b : Block F), ((∀ vs, size (f vs) ≤ 1) ∨ dep b = 0) → mu (onYield f b) ≤ mu b + c
  | .nil, _ => Nat.zero_le _
  | .op rs g args k, h => mu_onYield hc k h
  | .ite rs co t e k, h => by
    rcases h with h | h
    · have h1 := mu_onYield hc k (.inl h)
      have h2 := size_onYield h k
      simp only [onYield, mu]
      split <;> omega
    · obtain ⟨h1, h2, h3⟩ := dep_ite_zero h
      have h4 := mu_onYield hc k (.inr h3)
      simp only [onYield, mu, h1, h2]
      simp only [Nat.lt_irrefl, or_self, if_false]
      omega
  | .yield vs k, h => Nat.le_trans (hc vs) (by omega)
  | .ret vs k, h => by
    rcases h with h | h
    · exact mu_onYield hc k (.inl h)
    · simp only [dep] at h
      omega

theorem Term.inv {k : Block F} (h : Term k) : K k ∧ dep k ≤ 1 ∧ size k ≤ 1 ∧ mu k = 0 ∧ defs k = [] := by
  rcases h with rfl | ⟨vs, rfl⟩ | ⟨vs, rfl⟩
  · exact ⟨trivial, Nat.zero_le _, Nat.zero_le _, rfl, rfl⟩
  · exact ⟨trivial, Nat.le_refl _, Nat.le_refl _, rfl, rfl⟩
  · exact ⟨rfl, Nat.zero_le _, Nat.le_refl _, rfl, rfl⟩

theorem Term.attach : ∀ {outer : List (List Nat × Block F)} {b : Block F}, (∀ p ∈ outer, Term p.2) → Term b → Term (attach outer b)
  | [], b, _, h => h
  | (rs, k) :: outer, b, ho, h => by
    rcases h with rfl | ⟨vs, rfl⟩ | ⟨vs, rfl⟩
    · exact .inl rfl
    · exact .inr (.inl ⟨_, rfl⟩)
    · show Term (Early.attach outer (Early.substD (rs.zip vs) k))
      exact Term.attach (outer := outer) (fun p hp => ho p (List.mem_cons_of_mem _ hp)) (ho (rs, k) List.mem_cons_self).substD

theorem attach_inv {outer : List (List Nat × Block F)} {b : Block F} (ho : ∀ p ∈ outer, Term p.2) (hK : K b) (hd : dep b ≤ 2) :
    K (attach outer b) ∧ (∀ x, (defs (attach outer b)).count x ≤ (defs b).count x) ∧ mu (attach outer b) ≤ mu b := by
  rcases outer with _ | ⟨⟨rs, k⟩, outer⟩
  · exact ⟨hK, fun x => Nat.le_refl _, Nat.le_refl _⟩
  · have ht : ∀ vs, Term (attach outer (substD (rs.zip vs) k)) := fun vs => Term.attach (fun p hp => ho p (List.mem_cons_of_mem _ hp)) (ho (rs, k) List.mem_cons_self).substD
    obtain ⟨h1, h2⟩ := onYield_inv (f := fun vs => attach outer (substD (rs.zip vs) k)) (fun vs => (ht vs).inv.1) hK hd
    refine ⟨h1, fun x => ?_, ?_⟩
    · exact h2 x 0 fun vs => by rw [(ht vs).inv.2.2.2.2]; exact Nat.le_refl _
    · exact mu_onYield (f := fun vs => attach outer (substD (rs.zip vs) k)) (c := 0) (fun vs => by rw [(ht vs).inv.2.2.2.1]; exact Nat.le_refl _) b (.inl fun vs => (ht vs).inv.2.2.1)

theorem newCase_inv {n : Nat} {rs : List Nat} {k : Block F} {outer : List (List Nat × Block F)} {b : Block F} (ho : ∀ p ∈ outer, Term p.2) (hKb : K b) (hdb : dep b ≤ 1) (hKk : K k) (hdk : dep k ≤ 2) :
    K (newCase n rs k outer b) ∧ (∀ x, (defs (newCase n rs k outer b)).count x ≤ (defs b).count x + if hasRet b then 0 else (defs k).count x) ∧ mu (newCase n rs k outer b) ≤ if hasRet b then 0 else mu k := by
  unfold newCase
  split
  · next hr =>
    exact ⟨hKb.trunc, fun x => defs_trunc x b, by rw [mu_one (Nat.le_trans (dep_trunc b) hdb)]; exact Nat.le_refl _⟩
  · next hr =>
    have hr' : hasRet b = false := by simpa using hr
    have hd0 := dep_hasRet hr' hdb
    unfold fixCase
    rw [map_clone ho]
    obtain ⟨h1, h2⟩ := addYield_inv hKb hd0
    have hat : ∀ vs, _ := fun vs => attach_inv ho (K.substD (rs.zip vs) k hKk) (by rw [dep_substD]; exact hdk)
    obtain ⟨h3, h4⟩ := onYield_inv (f := fun vs => attach outer (substD (rs.zip vs) k)) (fun vs => (hat vs).1) h1 (by omega)
    have h5 := mu_onYield (f := fun vs => attach outer (substD (rs.zip vs) k)) (c := mu k) (fun vs => by have := (hat vs).2.2; rwa [(mu_substD _ k).1] at this) (addYield b) (.inr h2)
    rw [mu_zero h2] at h5
    simp only [attach]
    refine ⟨h3, fun x => ?_, by omega⟩
    have := h4 x ((defs k).count x) fun vs => by
      have := (hat vs).2.1 x
      rwa [defs_substD] at this
    rwa [defs_addYield] at this

/-- Nothing but a return is left if little followed. -/
theorem toYield_onYield {f : List Nat → Block F} (hf : ∀ vs y m, toYield (f vs) = some (y, m) → dep y = 0) : ∀ {b b' : Block F} {m : Nat}, dep b = 0 → toYield (onYield f b) = some (b', m) → dep b' = 0
  | .nil, b', m, _, h => by cases h
  | .op rs g args k, b', m, hd, h => by
    simp only [onYield, toYield, Option.map_eq_some_iff] at h
    obtain ⟨⟨k', m'⟩, hk, h⟩ := h
    cases h
    have := toYield_onYield hf (b := k) hd hk
    simpa only [dep] using this
  | .ite rs c t e k, b', m, hd, h => by
    simp only [onYield, toYield, Option.map_eq_some_iff] at h
    obtain ⟨⟨k', m'⟩, hk, h⟩ := h
    cases h
    obtain ⟨h1, h2, h3⟩ := dep_ite_zero hd
    exact dep_ite_zero' h1 h2 (toYield_onYield hf (b := k) h3 hk)
  | .yield vs k, b', m, hd, h => hf vs _ _ h
  | .ret vs k, b', m, hd, h => by
    simp only [dep] at hd
    omega

theorem short_toYield {outer : List (List Nat × Block F)} {s : List (Nat × Nat)} {k y : Block F} {m : Nat} (ho : ∀ p ∈ outer, Term p.2) (hK : K k) (hs : size k ≤ 1) (h : toYield (attach outer (substD s k)) = some (y, m)) : dep y = 0 := by
  have hterm : Term k → dep y = 0 := fun ht => ((Term.attach ho ht.substD).toYield h).2
  have hz : ∀ k' : Block F, size k' + 1 ≤ 1 → k' = .nil := by
    intro k' h
    cases k' <;> first | rfl | (simp only [size] at h; omega)
  cases k with
  | nil => exact hterm (.inl rfl)
  | op rs f args k =>
    cases hz k hs
    rcases outer with _ | ⟨⟨rs', k'⟩, outer⟩ <;> cases h
  | ite rs c t e k =>
    cases hz k hs
    rcases outer with _ | ⟨⟨rs', k'⟩, outer⟩ <;> cases h
  | yield vs k =>
    cases hz k hs
    exact hterm (.inr (.inr ⟨_, rfl⟩))
  | ret vs k =>
    cases hz k hs
    exact hterm (.inr (.inl ⟨_, rfl⟩))

theorem newCase_short {n : Nat} {rs : List Nat} {k : Block F} {outer : List (List Nat × Block F)} {b b' : Block F} {m : Nat} (ho : ∀ p ∈ outer, Term p.2) (hKb : K b) (hdb : dep b ≤ 1) (hKk : K k)
    (h : toYield (newCase n rs k outer b) = some (b', m)) (hs : hasRet b = true ∨ size k ≤ 1) : dep b' = 0 := by
  unfold newCase at h
  split at h
  · exact toYield_trunc h hKb hdb
  · next hr =>
    have hr' : hasRet b = false := by simpa using hr
    have hd0 := dep_hasRet hr' hdb
    unfold fixCase at h
    rw [map_clone ho] at h
    rcases hs with hs | hs
    · exact absurd hs hr
    · exact toYield_onYield (f := fun vs => attach outer (substD (rs.zip vs) k)) (fun vs y m hy => short_toYield ho hKk hs hy) (addYield_inv hKb hd0).2 h

/-! ### One round -/

theorem rectify_inv {n : Nat} {rs : List Nat} {c : Nat} {t e k b' : Block F} {outer : List (List Nat × Block F)} (hr : rectify n rs c t e k outer = .ok b') (hK : K (.ite rs c t e k)) (hd : dep (.ite rs c t e k) = 2)
    (hd2 : dep t + 1 = 2 ∨ dep e + 1 = 2) (ho : ∀ p ∈ outer, Term p.2) :
    K b' ∧ (closed k = true → closed b' = true) ∧ (∀ x, (defs b').count x ≤ (defs (.ite rs c t e k)).count x + if 2 * n ≤ x then 1 else 0) ∧ mu b' < mu (.ite rs c t e k) := by
  obtain ⟨t', e', m, ht, he, rfl, -⟩ := rectify_ok hr
  simp only [dep] at hd
  have hdt : dep t ≤ 1 := up_le (by omega)
  have hde : dep e ≤ 1 := up_le (by omega)
  have hdk : dep k ≤ 2 := by omega
  obtain ⟨ht1, ht2, ht3⟩ := newCase_inv (n := n) (rs := rs) (k := k) ho hK.1 hdt hK.2.2.1 hdk
  obtain ⟨he1, he2, he3⟩ := newCase_inv (n := n) (rs := rs) (k := k) ho hK.2.1 hde hK.2.2.1 hdk
  obtain ⟨ht4, ht5, ht6, ht7, -⟩ := toYield_inv ht ht1
  obtain ⟨he4, he5, he6, he7, -⟩ := toYield_inv he he1
  have ht8 := mu_toYield ht ht1
  have he8 := mu_toYield he he1
  have htz := newCase_short ho hK.1 hdt hK.2.2.1 ht
  have hez := newCase_short ho hK.2.1 hde hK.2.2.1 he
  have hcr : ∀ x, (List.range' (2 * n) m).count x ≤ if 2 * n ≤ x then 1 else 0 := by
    intro x
    split
    · exact List.nodup_iff_count.1 List.nodup_range' x
    · next hx =>
      rw [List.count_eq_zero.2]
      · exact Nat.le_refl _
      · rw [List.mem_range'_1]
        omega
  have hone : hasRet t = true ∨ hasRet e = true := by
    rcases hd2 with h | h
    · left
      cases hh : hasRet t with
      | true => rfl
      | false =>
        have := dep_hasRet hh hdt
        omega
    · right
      cases hh : hasRet e with
      | true => rfl
      | false =>
        have := dep_hasRet hh hde
        omega
  have hmu0 : mu (.ite rs c t e k) = 1 + size k + mu k := by
    simp only [mu, mu_one hdt, mu_one hde]
    rw [if_pos (by omega)]
    omega
  refine ⟨?_, ?_, ?_, ?_⟩
  · refine ⟨ht4, he4, ?_, ?_, fun _ => ht5, fun _ => he5⟩
    · show K (if hasRet t && hasRet e then k else .nil)
      split
      · exact hK.2.2.1
      · trivial
    · intro hh
      split
      · next hb =>
        rw [Bool.and_eq_true] at hb
        have := htz (.inl hb.1)
        have := hez (.inl hb.2)
        omega
      · exact .inr (.inl ⟨_, rfl⟩)
  · intro hc
    show closed (.ret _ _) = true
    split
    · exact closed_ret hc
    · rfl
  · intro x
    have h1 := hcr x
    have h2 := ht2 x
    have h3 := he2 x
    simp only [defs, List.count_append, ht6, he6]
    rcases hone with h | h
    · rw [h] at h2 ⊢
      cases h' : hasRet e with
      | true =>
        rw [h'] at h3
        simp only [Bool.and_self, if_true] at h2 h3 ⊢
        omega
      | false =>
        rw [h'] at h3
        simp only [Bool.and_false, Bool.false_eq_true, if_false, if_true, defs, List.count_nil] at h2 h3 ⊢
        omega
    · rw [h] at h3 ⊢
      cases h' : hasRet t with
      | true =>
        rw [h'] at h2
        simp only [Bool.and_self, if_true] at h2 h3 ⊢
        omega
      | false =>
        rw [h'] at h2
        simp only [Bool.false_and, Bool.false_eq_true, if_false, if_true, defs, List.count_nil] at h2 h3 ⊢
        omega
  · rw [hmu0]
    simp only [mu, ht8, he8]
    by_cases hb : (hasRet t && hasRet e) = true
    · rw [if_pos hb]
      rw [Bool.and_eq_true] at hb
      rw [hb.1] at ht3
      rw [hb.2] at he3
      simp only [if_true] at ht3 he3
      rw [htz (.inl hb.1), hez (.inl hb.2)]
      simp only [Nat.lt_irrefl, or_self, if_false]
      omega
    · rw [if_neg hb]
      have hsum : mu (newCase n rs k outer t) + mu (newCase n rs k outer e) ≤ mu k := by
        rcases hone with h | h
        · rw [h] at ht3
          simp only [if_true] at ht3
          split at he3 <;> omega
        · rw [h] at he3
          simp only [if_true] at he3
          split at ht3 <;> omega
      by_cases hs : size k ≤ 1
      · rw [htz (.inr hs), hez (.inr hs)]
        simp only [Nat.lt_irrefl, or_self, if_false, mu, size]
        omega
      · simp only [mu, size]
        split <;> omega

theorem step_inv (n : Nat) : ∀ (d : Nat) (b : Block F) (outer : List (List Nat × Block F)) (b' : Block F), step n d b outer = .ok b' → dep b = d → 2 ≤ d → K b → (∀ p ∈ outer, Term p.2) →
    K b' ∧ (closed b = true → closed b' = true) ∧ (∀ x, (defs b').count x ≤ (defs b).count x + if 2 * n ≤ x then 1 else 0) ∧ mu b' < mu b ∧ (d ≠ 2 → size b' = size b)
  | d, .nil, outer, b', hs, hd, h2, hK, ho => by cases hs
  | d, .op rs f args k, outer, b', hs, hd, h2, hK, ho => by
    simp only [step, bind_ok] at hs
    obtain ⟨k', hk', hs⟩ := hs
    cases hs
    obtain ⟨h3, h4, h5, h6, h7⟩ := step_inv n d k outer k' hk' hd h2 hK ho
    refine ⟨h3, h4, fun x => ?_, h6, fun h => congrArg (· + 1) (h7 h)⟩
    have := h5 x
    simp only [defs, List.count_append]
    omega
  | d, .yield vs k, outer, b', hs, hd, h2, hK, ho => by
    cases hK
    cases hs
  | d, .ret vs k, outer, b', hs, hd, h2, hK, ho => by
    simp only [step, bind_ok] at hs
    obtain ⟨k', hk', hs⟩ := hs
    cases hs
    simp only [dep] at hd
    obtain ⟨h3, h4, h5, h6, h7⟩ := step_inv n d k outer k' hk' (by omega) h2 hK ho
    refine ⟨h3, fun h => ?_, h5, h6, fun h => congrArg (· + 1) (h7 h)⟩
    by_cases hk : k = .nil
    · subst hk
      cases hk'
    · refine closed_ret (h4 ?_)
      cases k <;> first | exact h | exact absurd rfl hk
  | d, .ite rs c t e k, outer, b', hs, hd, h2, hK, ho => by
    rw [step] at hs
    split at hs
    · next hc =>
      split at hs
      · next hd2 =>
        subst hd2
        obtain ⟨h3, h4, h5, h6⟩ := rectify_inv hs hK hd hc ho
        exact ⟨h3, h4, h5, h6, fun h => absurd rfl h⟩
      · next hd2 =>
        have hT : Term k := hK.2.2.2.1 (by omega)
        have ho' : ∀ p ∈ (rs, k) :: outer, Term p.2 := by
          intro p hp
          rcases List.mem_cons.1 hp with rfl | hp
          · exact hT
          · exact ho p hp
        split at hs
        · next hdt =>
          rw [bind_ok] at hs
          obtain ⟨t', ht', hs⟩ := hs
          cases hs
          obtain ⟨h3, h4, h5, h6, h7⟩ := step_inv n (d - 1) t ((rs, k) :: outer) t' ht' (by omega) (by omega) hK.1 ho'
          refine ⟨⟨h3, hK.2.1, hK.2.2.1, fun _ => hT, fun _ => h4 (hK.2.2.2.2.1 (by omega)), hK.2.2.2.2.2⟩, fun h => h, fun x => ?_, ?_, fun _ => rfl⟩
          · have := h5 x
            simp only [defs, List.count_append]
            omega
          · simp only [mu]
            rw [if_pos (show 0 < dep t ∨ 0 < dep e by omega)]
            split <;> omega
        · next hdt =>
          rw [bind_ok] at hs
          obtain ⟨e', he', hs⟩ := hs
          cases hs
          obtain ⟨h3, h4, h5, h6, h7⟩ := step_inv n (d - 1) e ((rs, k) :: outer) e' he' (by omega) (by omega) hK.2.1 ho'
          refine ⟨⟨hK.1, h3, hK.2.2.1, fun _ => hT, hK.2.2.2.2.1, fun _ => h4 (hK.2.2.2.2.2 (by omega))⟩, fun h => h, fun x => ?_, ?_, fun _ => rfl⟩
          · have := h5 x
            simp only [defs, List.count_append]
            omega
          · simp only [mu]
            rw [if_pos (show 0 < dep t ∨ 0 < dep e by omega)]
            split <;> omega
    · next hc =>
      rw [bind_ok] at hs
      obtain ⟨k', hk', hs⟩ := hs
      cases hs
      have hut : up (dep t) ≠ d := fun hh => hc (.inl ((up_eq h2).1 hh))
      have hue : up (dep e) ≠ d := fun hh => hc (.inr ((up_eq h2).1 hh))
      simp only [dep] at hd
      have hdk : dep k = d := by omega
      obtain ⟨h3, h4, h5, h6, h7⟩ := step_inv n d k outer k' hk' hdk h2 hK.2.2.1 ho
      refine ⟨⟨hK.1, hK.2.1, h3, fun hh => ?_, hK.2.2.2.2⟩, h4, fun x => ?_, ?_, fun h => congrArg (· + 1) (h7 h)⟩
      · have := (hK.2.2.2.1 hh).inv.2.1
        omega
      · have := h5 x
        simp only [defs, List.count_append]
        omega
      · by_cases hd2 : d = 2
        · subst hd2
          have h8 : dep t ≤ 1 := up_le (by omega)
          have h9 : dep e ≤ 1 := up_le (by omega)
          have h10 : dep t = 0 := by omega
          have h11 : dep e = 0 := by omega
          simp only [mu, h10, h11, Nat.lt_irrefl, or_self, if_false]
          omega
        · simp only [mu, h7 hd2]
          omega

end Verif.Early
