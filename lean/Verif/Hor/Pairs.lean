/-
  The list of pairs of pipelines to fuse, and what happens to it in a round.
-/
import Verif.Hor.Model

namespace Verif.Hor

/-- `x` comes before `y`. -/
def Lt (l : List Nat) (x y : Nat) : Prop := [x, y].Sublist l

theorem lt_cons {a x y : Nat} {l : List Nat} : Lt (a :: l) x y ↔ (x = a ∧ y ∈ l) ∨ Lt l x y := by
  unfold Lt
  rw [List.sublist_cons_iff]
  constructor
  · rintro (h | ⟨r, h1, h2⟩)
    · exact .inr h
    · simp only [List.cons.injEq] at h1
      obtain ⟨rfl, rfl⟩ := h1
      exact .inl ⟨rfl, by simpa using h2⟩
  · rintro (⟨rfl, h⟩ | h)
    · exact .inr ⟨[y], rfl, by simpa using h⟩
    · exact .inl h

theorem lt_append {x y : Nat} : ∀ {l l' : List Nat}, Lt (l ++ l') x y ↔ Lt l x y ∨ (x ∈ l ∧ y ∈ l') ∨ Lt l' x y
  | [], l' => by simp [Lt]
  | a :: l, l' => by
    rw [List.cons_append, lt_cons, lt_append, lt_cons]
    simp only [List.mem_append, List.mem_cons]
    grind

theorem Lt.mem {x y : Nat} {l : List Nat} (h : Lt l x y) : x ∈ l ∧ y ∈ l := ⟨h.subset (by simp), h.subset (by simp)⟩

/-- What holds for the remaining pairs: `l` are the pipelines in the order of the block, `cls` tells which pipelines read the same matrix. -/
structure PInv (l : List Nat) (cls : Nat → Nat) (ps : List (Nat × Nat)) : Prop where
  order : ∀ x y, (x, y) ∈ ps → Lt l x y ∧ cls x = cls y
  closed : ∀ l1 x y l2, ps = l1 ++ (x, y) :: l2 → ∀ z, Lt l x z → Lt l z y → cls z = cls x → (x, z) ∈ l1
  complete : ∀ x y, Lt l x y → cls x = cls y → (x, y) ∈ ps

theorem updatePairs_append (a b n : Nat) : ∀ (l1 l2 : List (Nat × Nat)), updatePairs a b n (l1 ++ l2) = updatePairs a b n l1 ++ updatePairs a b n l2
  | [], l2 => rfl
  | (x, y) :: l1, l2 => by
    simp only [List.cons_append, updatePairs]
    split
    · exact updatePairs_append a b n l1 l2
    · rw [updatePairs_append a b n l1 l2, List.cons_append]

theorem mem_updatePairs {a b n : Nat} : ∀ {l : List (Nat × Nat)} {x y : Nat}, (x, y) ∈ l → update a b n x ≠ update a b n y →
    (update a b n x, update a b n y) ∈ updatePairs a b n l
  | (x', y') :: l, x, y, h, hne => by
    rcases List.mem_cons.1 h with h | h
    · obtain ⟨rfl, rfl⟩ := Prod.mk.injEq .. ▸ h
      simp [updatePairs, hne]
    · have := mem_updatePairs h hne
      simp only [updatePairs]
      split
      · exact this
      · exact List.mem_cons_of_mem _ this

/-- Each pair of the new list comes from one of the old list, at the corresponding position. -/
theorem updatePairs_split {a b n : Nat} : ∀ {l : List (Nat × Nat)} {m1 m2 : List (Nat × Nat)} {x y : Nat}, updatePairs a b n l = m1 ++ (x, y) :: m2 →
    ∃ l1 x0 y0 l2, l = l1 ++ (x0, y0) :: l2 ∧ m1 = updatePairs a b n l1 ∧ x = update a b n x0 ∧ y = update a b n y0 ∧ x ≠ y
  | [], m1, m2, x, y, h => by simp [updatePairs] at h
  | (x0, y0) :: l, m1, m2, x, y, h => by
    simp only [updatePairs] at h
    split at h
    · rename_i he
      obtain ⟨l1, x1, y1, l2, h1, h2, h3⟩ := updatePairs_split h
      exact ⟨(x0, y0) :: l1, x1, y1, l2, by simp [h1], by simp [updatePairs, he, h2], h3⟩
    · rename_i he
      cases m1 with
      | nil =>
        simp only [List.nil_append, List.cons.injEq, Prod.mk.injEq] at h
        obtain ⟨⟨rfl, rfl⟩, _⟩ := h
        exact ⟨[], x0, y0, l, rfl, rfl, rfl, rfl, he⟩
      | cons m m1 =>
        simp only [List.cons_append, List.cons.injEq] at h
        obtain ⟨rfl, h⟩ := h
        obtain ⟨l1, x1, y1, l2, h1, h2, h3⟩ := updatePairs_split h
        exact ⟨(x0, y0) :: l1, x1, y1, l2, by simp [h1], by simp [updatePairs, he, h2], h3⟩

theorem updatePairs_length (a b n : Nat) : ∀ l : List (Nat × Nat), (updatePairs a b n l).length ≤ l.length
  | [] => Nat.le_refl 0
  | (x, y) :: l => by
    simp only [updatePairs]
    split
    · have := updatePairs_length a b n l; simp; omega
    · have := updatePairs_length a b n l; simpa using this

theorem lt_iff {x y : Nat} : ∀ {l : List Nat}, l.Nodup → (Lt l x y ↔ x ∈ l ∧ y ∈ l ∧ l.idxOf x < l.idxOf y)
  | [], _ => by simp [Lt]
  | a :: l, h => by
    have h' := List.nodup_cons.1 h
    rw [lt_cons, lt_iff h'.2]
    simp only [List.idxOf_cons, List.mem_cons, beq_iff_eq, cond_eq_ite]
    grind

theorem idxOf_inj {l : List Nat} {x y : Nat} (hx : x ∈ l) (hy : y ∈ l) (h : l.idxOf x = l.idxOf y) : x = y := by
  have h1 := List.getElem_idxOf (List.idxOf_lt_length_iff.2 hx)
  have h2 := List.getElem_idxOf (List.idxOf_lt_length_iff.2 hy)
  rw [← h1, ← h2]
  simp only [h]

theorem PInv.step {P M S : List Nat} {a b n : Nat} {cls : Nat → Nat} {ps : List (Nat × Nat)} (hn : (P ++ a :: (M ++ b :: S)).Nodup)
    (hf : n ∉ P ++ a :: (M ++ b :: S)) (h : PInv (P ++ a :: (M ++ b :: S)) cls ((a, b) :: ps)) :
    PInv (P ++ (M ++ n :: S)) (fun x => if x = n then cls a else cls x) (updatePairs a b n ps) := by
  obtain ⟨old, hold⟩ : ∃ l, l = P ++ a :: (M ++ b :: S) := ⟨_, rfl⟩
  obtain ⟨new, hnew⟩ : ∃ l, l = P ++ (M ++ n :: S) := ⟨_, rfl⟩
  have hab : cls a = cls b := (h.order a b (by simp)).2
  have hM : ∀ z, Lt old a z → Lt old z b → cls z ≠ cls a := fun z h1 h2 hc => by
    have := h.closed [] a b ps rfl z (hold ▸ h1) (hold ▸ h2) hc
    simp at this
  have hd := List.nodup_append.1 hn
  have hd2 := List.nodup_cons.1 hd.2.1
  have hd3 := List.nodup_append.1 hd2.2
  have hd4 := List.nodup_cons.1 hd3.2.1
  have hltm : ∀ (l : List Nat) x y, Lt l x y → x ∈ l ∧ y ∈ l := fun l x y h => h.mem
  have hmem : ∀ x, x ∈ new ↔ x = n ∨ (x ∈ old ∧ x ≠ a ∧ x ≠ b) := fun x => by
    rw [hold, hnew]; grind
  have F1 : ∀ x y, x ≠ a → x ≠ b → x ≠ n → y ≠ a → y ≠ b → y ≠ n → (Lt new x y ↔ Lt old x y) := by
    intro x y _ _ _ _ _ _
    rw [hold, hnew]
    simp only [lt_append, lt_cons, List.mem_append, List.mem_cons]
    grind
  have F2 : ∀ x, x ≠ a → x ≠ b → x ≠ n → (Lt new x n ↔ Lt old x b) := by
    intro x _ _ _
    rw [hold, hnew]
    have := hltm P x n; have := hltm P x b; have := hltm M x n; have := hltm M x b; have := hltm S x n; have := hltm S x b
    simp only [lt_append, lt_cons, List.mem_append, List.mem_cons]
    grind
  have F3 : ∀ x, x ≠ a → x ≠ b → x ≠ n → (Lt new n x ↔ Lt old b x) := by
    intro x _ _ _
    rw [hold, hnew]
    have := hltm P n x; have := hltm P b x; have := hltm M n x; have := hltm M b x; have := hltm S n x; have := hltm S b x
    simp only [lt_append, lt_cons, List.mem_append, List.mem_cons]
    grind
  have hnn : ¬ Lt new n n := by
    rw [hnew]
    have := hltm P n n; have := hltm M n n; have := hltm S n n
    simp only [lt_append, lt_cons, List.mem_append, List.mem_cons]
    grind
  have hno : old.Nodup := hold ▸ hn
  have hLab : Lt old a b := hold ▸ (h.order a b (by simp)).1
  rw [← hold] at h hf
  rw [← hnew]
  clear hnew hold hd hd2 hd3 hd4 hltm hn
  have hLt : ∀ x y, Lt old x y ↔ x ∈ old ∧ y ∈ old ∧ old.idxOf x < old.idxOf y := fun x y => lt_iff hno
  have hinj : ∀ x y, x ∈ old → y ∈ old → old.idxOf x = old.idxOf y → x = y := fun x y => idxOf_inj
  have ua : update a b n a = n := by simp [update]
  have ub : update a b n b = n := by simp [update]
  have ux : ∀ x, x ≠ a → x ≠ b → update a b n x = x := fun x h1 h2 => by simp [update, h1, h2]
  have hcu : ∀ x, x ∈ old → (if update a b n x = n then cls a else cls (update a b n x)) = cls x := fun x hx => by
    unfold update
    grind
  have hane : a ≠ b := fun he => by rw [hLt] at hLab; subst he; omega
  -- membership in the order, for the images
  have himg : ∀ x y, Lt old x y → cls x = cls y → update a b n x ≠ update a b n y → Lt new (update a b n x) (update a b n y) := by
    intro x y h1 h2 hne
    have hm := h1.mem
    have hMy := hM y
    rw [hLt] at h1
    rw [hLt] at hLab
    rw [hLt, hLt] at hMy
    have hi := hinj y b
    have hxn : x ≠ n := fun he => hf (he ▸ hm.1)
    have hyn : y ≠ n := fun he => hf (he ▸ hm.2)
    by_cases hxa : x = a
    · subst hxa
      by_cases hya : y = x
      · subst hya; exact absurd rfl hne
      · by_cases hyb : y = b
        · subst hyb; rw [ua, ub] at hne; exact absurd rfl hne
        · rw [ua, ux y hya hyb, F3 y hya hyb hyn, hLt]
          grind
    · by_cases hxb : x = b
      · subst hxb
        by_cases hya : y = a
        · subst hya; rw [ua, ub] at hne; exact absurd rfl hne
        · by_cases hyb : y = x
          · subst hyb; exact absurd rfl hne
          · rw [ub, ux y hya hyb, F3 y hya hyb hyn, hLt]; exact h1
      · rw [ux x hxa hxb]
        by_cases hya : y = a
        · subst hya; rw [ua, F2 x hxa hxb hxn, hLt]; grind
        · by_cases hyb : y = b
          · subst hyb; rw [ub, F2 x hxa hxb hxn, hLt]; exact h1
          · rw [ux y hya hyb, F1 x y hxa hxb hxn hya hyb hyn, hLt]; exact h1
  refine ⟨fun x y hxy => ?_, fun l1 x y l2 hl z hxz hzy hz => ?_, fun x y hxy hc => ?_⟩
  · obtain ⟨m1, m2, hm⟩ := List.append_of_mem hxy
    obtain ⟨l1, x0, y0, l2, h1, _, rfl, rfl, h5⟩ := updatePairs_split hm
    have hmem : (x0, y0) ∈ ps := by simp [h1]
    have ho := h.order x0 y0 (by simp [hmem])
    refine ⟨himg x0 y0 ho.1 ho.2 h5, ?_⟩
    rw [hcu x0 ho.1.mem.1, hcu y0 ho.1.mem.2]
    exact ho.2
  · obtain ⟨k1, x0, y0, k2, h1, rfl, rfl, rfl, h5⟩ := updatePairs_split hl
    have hmem0 : (x0, y0) ∈ ps := by simp [h1]
    have ho := h.order x0 y0 (by simp [hmem0])
    have hclo := h.closed ((a, b) :: k1) x0 y0 k2 (by simp [h1])
    rw [hcu x0 ho.1.mem.1] at hz
    -- it suffices to find a preimage of `z` between `x0` and `y0`
    have suff : ∀ z0, update a b n z0 = z → z ≠ update a b n x0 → Lt old x0 z0 → Lt old z0 y0 → (update a b n x0, z) ∈ updatePairs a b n k1 := by
      intro z0 hz0 hne g1 g2
      have hcz : cls z0 = cls x0 := by
        have := hcu z0 g1.mem.2
        rw [hz0] at this
        rw [← this]; exact hz
      have hm := hclo z0 g1 g2 hcz
      rcases List.mem_cons.1 hm with hm | hm
      · simp only [Prod.mk.injEq] at hm
        exact absurd (by rw [← hz0, hm.1, hm.2, ua, ub]) hne
      · have := mem_updatePairs (a := a) (b := b) (n := n) hm (by rw [hz0]; exact Ne.symm hne)
        rw [hz0] at this
        exact this
    have hx0 := ho.1.mem
    have hx0n : x0 ≠ n := fun he => hf (he ▸ hx0.1)
    have hy0n : y0 ≠ n := fun he => hf (he ▸ hx0.2)
    have hne : z ≠ update a b n x0 := fun he => by
      by_cases hzn : z = n
      · rw [← he, hzn] at hxz; exact hnn hxz
      · have h3 : x0 ≠ a := fun hh => hzn (by rw [he, hh, ua])
        have h4 : x0 ≠ b := fun hh => hzn (by rw [he, hh, ub])
        rw [← he, F1 z z (by rw [he, ux x0 h3 h4]; exact h3) (by rw [he, ux x0 h3 h4]; exact h4) hzn (by rw [he, ux x0 h3 h4]; exact h3)
          (by rw [he, ux x0 h3 h4]; exact h4) hzn, hLt] at hxz
        omega
    have hLab' := hLab
    rw [hLt] at hLab'
    have hMx := hM x0
    rw [hLt, hLt] at hMx
    by_cases hzn : z = n
    · subst hzn
      -- `x0` is before `a`, `y0` after `b`
      have h3 : x0 ≠ a := fun hh => hne (by rw [hh, ua])
      have h4 : x0 ≠ b := fun hh => hne (by rw [hh, ub])
      have h5' : y0 ≠ a := fun hh => by rw [hh, ua] at hzy; exact hnn hzy
      have h6 : y0 ≠ b := fun hh => by rw [hh, ub] at hzy; exact hnn hzy
      rw [ux x0 h3 h4, F2 x0 h3 h4 hx0n, hLt] at hxz
      rw [ux y0 h5' h6, F3 y0 h5' h6 hy0n, hLt] at hzy
      have hza : cls a = cls x0 := by simpa using hz
      have hxa := hinj x0 a
      exact suff a ua hne ((hLt _ _).2 (by grind)) ((hLt _ _).2 (by grind))
    · have hz' : z ∈ old ∧ z ≠ a ∧ z ≠ b := by
        rcases (hmem z).1 hxz.mem.2 with h | h
        · exact absurd h hzn
        · exact h
      have hcz : cls z = cls x0 := by rw [if_neg hzn] at hz; exact hz
      have hMz := hM z
      rw [hLt, hLt] at hMz
      refine suff z (ux z hz'.2.1 hz'.2.2) hne ?_ ?_
      · by_cases h3 : x0 = a
        · subst h3
          rw [ua, F3 z hz'.2.1 hz'.2.2 hzn, hLt] at hxz
          exact (hLt _ _).2 (by grind)
        · by_cases h4 : x0 = b
          · subst h4
            rw [ub, F3 z hz'.2.1 hz'.2.2 hzn] at hxz
            exact hxz
          · rwa [ux x0 h3 h4, F1 x0 z h3 h4 hx0n hz'.2.1 hz'.2.2 hzn] at hxz
      · by_cases h3 : y0 = a
        · subst h3
          rw [ua, F2 z hz'.2.1 hz'.2.2 hzn, hLt] at hzy
          have hza := hinj z y0
          have : cls z = cls y0 := hcz.trans ho.2
          exact (hLt _ _).2 (by grind)
        · by_cases h4 : y0 = b
          · subst h4
            rwa [ub, F2 z hz'.2.1 hz'.2.2 hzn] at hzy
          · rwa [ux y0 h3 h4, F1 z y0 hz'.2.1 hz'.2.2 hzn h3 h4 hy0n] at hzy
  · have key : ∀ x0 y0, update a b n x0 = x → update a b n y0 = y → x ≠ y → Lt old x0 y0 → cls x0 = cls y0 → (x, y) ∈ updatePairs a b n ps := by
      rintro x0 y0 rfl rfl hne h1 h2
      have := h.complete x0 y0 h1 h2
      rcases List.mem_cons.1 this with hh | hh
      · simp only [Prod.mk.injEq] at hh
        exact absurd (by rw [hh.1, hh.2, ua, ub]) hne
      · exact mem_updatePairs hh hne
    have hold : ∀ z, z ∈ new → z ≠ n → z ∈ old ∧ z ≠ a ∧ z ≠ b := fun z hz hzn => by
      rcases (hmem z).1 hz with h | h
      · exact absurd h hzn
      · exact h
    have hm := hxy.mem
    by_cases hxn : x = n
    · subst hxn
      have hyn : y ≠ x := fun he => hnn (by rw [he] at hxy; exact hxy)
      obtain ⟨g1, g2, g3⟩ := hold y hm.2 hyn
      rw [F3 y g2 g3 hyn] at hxy
      exact key b y ub (ux y g2 g3) (Ne.symm hyn) hxy (by rw [if_pos rfl, if_neg hyn] at hc; rw [← hab, hc])
    · obtain ⟨k1, k2, k3⟩ := hold x hm.1 hxn
      by_cases hyn : y = n
      · subst hyn
        rw [F2 x k2 k3 hxn] at hxy
        exact key x b (ux x k2 k3) ub hxn hxy (by rw [if_pos rfl, if_neg hxn] at hc; rw [← hab, hc])
      · obtain ⟨g1, g2, g3⟩ := hold y hm.2 hyn
        rw [F1 x y k2 k3 hxn g2 g3 hyn] at hxy
        refine key x y (ux x k2 k3) (ux y g2 g3) (fun he => ?_) hxy (by rw [if_neg hxn, if_neg hyn] at hc; exact hc)
        subst he
        rw [hLt] at hxy
        omega

end Verif.Hor
