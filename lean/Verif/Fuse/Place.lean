/-
  Where the pipelines are placed: operations in between are moved before or after the pipeline, and the block remains in dependency order.
-/
import Verif.Fuse.Collect
import Verif.Basic.Copy

namespace Verif.Fuse
open Verif Verif.Vect
variable {α : Type} {P : Prog α}

/-- All operations of a list of items. -/
def opsOf (B : List Item) : List Nat := B.flatMap Item.ops

/-- Each item uses only results in `D` or of earlier items. -/
def OrderedFrom (P : Prog α) : List Nat → List Item → Prop
  | _, [] => True
  | D, it :: l => (∀ j ∈ it.uses P, j ∈ D) ∧ OrderedFrom P (D ++ it.ops) l

theorem OrderedFrom.mono {B : List Item} {D D' : List Nat} (h : OrderedFrom P D B) (hs : ∀ j ∈ D, j ∈ D') : OrderedFrom P D' B := by
  induction B generalizing D D' with
  | nil => trivial
  | cons it l ih =>
    refine ⟨fun j hj => hs j (h.1 j hj), ih h.2 fun j hj => ?_⟩
    rcases List.mem_append.1 hj with hj | hj
    · exact List.mem_append_left _ (hs j hj)
    · exact List.mem_append_right _ hj

theorem ordered_append {B C : List Item} {D : List Nat} : OrderedFrom P D (B ++ C) ↔ OrderedFrom P D B ∧ OrderedFrom P (D ++ opsOf B) C := by
  induction B generalizing D with
  | nil => simp [OrderedFrom, opsOf]
  | cons it l ih =>
    simp only [List.cons_append, OrderedFrom, ih, opsOf, List.flatMap_cons, List.append_assoc]
    tauto

theorem opsOf_append (B C : List Item) : opsOf (B ++ C) = opsOf B ++ opsOf C := by simp [opsOf]

theorem opsOf_cons (it : Item) (C : List Item) : opsOf (it :: C) = it.ops ++ opsOf C := by simp [opsOf]

theorem posOf_eq {l1 l2 : List Item} {it : Item} {j : Nat} (hj : j ∈ it.ops) (hn : j ∉ opsOf l1) : posOf (l1 ++ it :: l2) j = l1.length := by
  unfold posOf
  rw [List.findIdx_append]
  have h1 : l1.findIdx (fun it => it.ops.contains j) = l1.length := by
    rw [List.findIdx_eq_length]
    intro x hx
    have : j ∉ x.ops := fun h => hn (List.mem_flatMap.2 ⟨x, hx, h⟩)
    simpa using this
  rw [h1, if_neg (by omega), List.findIdx_cons]
  have : it.ops.contains j = true := by simpa using hj
  simp only [this, cond_true]
  omega

theorem posOf_lt {l1 l2 : List Item} {j : Nat} (hj : j ∈ opsOf l1) : posOf (l1 ++ l2) j < l1.length := by
  unfold posOf
  rw [List.findIdx_append]
  have : l1.findIdx (fun it => it.ops.contains j) < l1.length := by
    rw [List.findIdx_lt_length]
    obtain ⟨x, h1, h2⟩ := List.mem_flatMap.1 hj
    exact ⟨x, h1, by simpa using h2⟩
  rw [if_pos this]; exact this

theorem posOf_ge {l1 l2 : List Item} {j : Nat} (hj : j ∉ opsOf l1) : l1.length ≤ posOf (l1 ++ l2) j := by
  unfold posOf
  rw [List.findIdx_append]
  have : ¬ l1.findIdx (fun it => it.ops.contains j) < l1.length := by
    rw [List.findIdx_lt_length]
    rintro ⟨x, h1, h2⟩
    exact hj (List.mem_flatMap.2 ⟨x, h1, by simpa using h2⟩)
  rw [if_neg this]; omega

theorem mem_uses {it : Item} {j : Nat} : j ∈ it.uses P ↔ ∃ i ∈ it.ops, Uses P i j ∧ j ∉ it.ops := by
  unfold Item.uses Uses
  simp only [List.mem_flatMap, List.mem_filterMap]
  constructor
  · rintro ⟨i, hi, r, hr, h⟩
    cases r with
    | arg k => simp at h
    | op k =>
      simp only at h
      split at h
      · simp at h
      · rename_i hc
        obtain rfl : k = j := by simpa using h
        exact ⟨i, hi, hr, by simpa using hc⟩
  · rintro ⟨i, hi, hr, hn⟩
    exact ⟨i, hi, .op j, hr, by simp [hn]⟩

/-- Operands come earlier in the block. -/
theorem uses_before {B l1 l2 : List Item} {it : Item} (h : OrderedFrom P [] B) (hB : B = l1 ++ it :: l2) {j : Nat} (hj : j ∈ it.uses P) : j ∈ opsOf l1 := by
  subst hB
  have := (ordered_append.1 h).2.1 j hj
  simpa using this

theorem not_mem_left {l1 l2 : List Item} {j : Nat} (h : (opsOf (l1 ++ l2)).Nodup) (hj : j ∈ opsOf l2) : j ∉ opsOf l1 := by
  rw [opsOf_append] at h
  exact fun hj' => (List.nodup_append.1 h).2.2 j hj' j hj rfl

/-! ### Dependencies in the block -/

theorem posOf_item {B : List Item} {j : Nat} {it : Item} (h : B[posOf B j]? = some it) : j ∈ it.ops := by
  obtain ⟨hlt, he⟩ := List.getElem?_eq_some_iff.1 h
  have := List.findIdx_getElem (w := hlt)
  unfold posOf at he
  rw [he] at this
  simpa using this

theorem valueDepends_fuel {B : List Item} (ho : OrderedFrom P [] B) (p : Nat) : ∀ (n j : Nat), posOf B j < n →
    valueDepends P B p (n + 1) j = valueDepends P B p n j
  | 0, _, h => absurd h (Nat.not_lt_zero _)
  | n + 1, j, h => by
    have e : ∀ m, valueDepends P B p (m + 1) j =
      (j == p || (!(decide (posOf B j < posOf B p)) && (((B[posOf B j]?).map (Item.uses P)).getD []).any (valueDepends P B p m))) := fun _ => rfl
    rw [e (n + 1), e n]
    cases hit : B[posOf B j]? with
    | none => rfl
    | some it =>
      simp only [Option.map_some, Option.getD_some]
      congr 2
      have hany : ∀ (l : List Nat), (∀ i ∈ l, i ∈ it.uses P) → l.any (valueDepends P B p (n + 1)) = l.any (valueDepends P B p n) := by
        intro l hl
        induction l with
        | nil => rfl
        | cons i l ih =>
          simp only [List.any_cons]
          rw [ih fun i hi => hl i (by simp [hi])]
          congr 1
          obtain ⟨hlt, he⟩ := List.getElem?_eq_some_iff.1 hit
          have hB : B = B.take (posOf B j) ++ it :: B.drop (posOf B j + 1) := by rw [← he]; simp
          have hb := uses_before ho hB (hl i (by simp))
          have := posOf_lt (l2 := it :: B.drop (posOf B j + 1)) hb
          rw [← hB] at this
          simp only [List.length_take] at this
          exact valueDepends_fuel ho p n i (by omega)
      exact hany _ fun _ h => h

/-- What is found to depend on `p` has at least its rank. -/
theorem valueDepends_rank {B : List Item} {ρ : Nat → Nat} (h1 : ∀ it ∈ B, ∀ i ∈ it.ops, ∀ j ∈ it.ops, ρ i = ρ j)
    (h2 : ∀ j i, Uses P j i → ρ i ≤ ρ j) (p : Nat) : ∀ (n j : Nat), valueDepends P B p n j = true → ρ p ≤ ρ j
  | 0, _, h => by simp [valueDepends] at h
  | n + 1, j, h => by
    have e : valueDepends P B p (n + 1) j =
      (j == p || (!(decide (posOf B j < posOf B p)) && (((B[posOf B j]?).map (Item.uses P)).getD []).any (valueDepends P B p n))) := rfl
    rw [e] at h
    rcases Bool.or_eq_true_iff.1 h with h | h
    · obtain rfl : j = p := by simpa using h
      exact Nat.le_refl _
    · obtain ⟨_, h⟩ := Bool.and_eq_true_iff.1 h
      cases hit : B[posOf B j]? with
      | none => rw [hit] at h; simp at h
      | some it =>
        rw [hit] at h
        obtain ⟨i, hi, hd⟩ := List.any_eq_true.1 h
        obtain ⟨k, hk, hu, _⟩ := mem_uses.1 hi
        have := h2 k i hu
        have := h1 it (List.mem_of_getElem? hit) k hk j (posOf_item hit)
        have := valueDepends_rank h1 h2 p n i hd
        omega

theorem not_outside {L : List Nat} {it : Item} : outside L it = false ↔ ∃ i ∈ L, it = .one i := by
  cases it with
  | one i => simp [outside]
  | pipe l => simp [outside]

/-- The decision what to move before and after the pipeline. -/
theorem classify_ok {B : List Item} (ho : OrderedFrom P [] B) (hnd : (opsOf B).Nodup) (L : List Nat) :
    ∀ (l pre post : List Item) (seen todo D0 ob oa : List Nat), B = pre ++ l ++ post → (∀ x ∈ todo, x ∈ L) → (∀ x ∈ seen, x ∈ L ∧ x ∈ opsOf pre) →
      l.filter (fun it => !(outside L it)) = todo.dropLast.map .one → todo ≠ [] →
      (∀ j ∈ opsOf pre, j ∈ D0 ∨ j ∈ ob ∨ j ∈ oa ∨ j ∈ seen) →
      (∀ j ∈ oa, ∃ p ∈ seen, valueDepends P B p (B.length + 1) j = true) →
      ∃ b a, classify P B seen todo l = .ok (b, a) ∧ OrderedFrom P (D0 ++ ob) b ∧ OrderedFrom P (D0 ++ ob ++ opsOf b ++ L ++ oa) a ∧
        (b ++ a).Perm (l.filter (outside L)) ∧ ∀ j ∈ opsOf a, ∃ p ∈ L, valueDepends P B p (B.length + 1) j = true
  | [], pre, post, seen, todo, D0, ob, oa, _, _, _, _, hne, _, _ =>
    ⟨[], [], by cases todo <;> rfl, trivial, trivial, .refl _, by simp [opsOf]⟩
  | it :: l, pre, post, seen, todo, D0, ob, oa, hB, htodo, hseen, hfil, hne, hD, hoa => by
    obtain ⟨q, qs, rfl⟩ : ∃ q qs, todo = q :: qs := by cases todo with
      | nil => exact absurd rfl hne
      | cons q qs => exact ⟨q, qs, rfl⟩
    have hB' : B = (pre ++ [it]) ++ l ++ post := by rw [hB]; simp
    by_cases hit : outside L it = false
    · -- an operation of the pipeline
      rw [List.filter_cons_of_pos (by simp [hit])] at hfil
      have hqs : qs ≠ [] := by rintro rfl; simp at hfil
      rw [List.dropLast_cons_of_ne_nil hqs, List.map_cons, List.cons.injEq] at hfil
      obtain ⟨rfl, hfil⟩ := hfil
      have hcl : classify P B seen (q :: qs) (.one q :: l) = classify P B (q :: seen) qs l := by
        show (if _ then _ else _) = _
        rw [if_pos rfl]
      rw [hcl, List.filter_cons_of_neg (by simp [hit])]
      refine classify_ok ho hnd L l (pre ++ [.one q]) post (q :: seen) qs D0 ob oa hB' (fun x hx => htodo x (by simp [hx])) ?_ hfil hqs ?_ ?_
      · intro x hx
        rw [opsOf_append]
        rcases List.mem_cons.1 hx with rfl | hx
        · exact ⟨htodo x (by simp), by simp [opsOf, Item.ops]⟩
        · exact ⟨(hseen x hx).1, by simp [(hseen x hx).2]⟩
      · intro j hj
        rw [opsOf_append] at hj
        rcases List.mem_append.1 hj with hj | hj
        · rcases hD j hj with h | h | h | h
          · exact .inl h
          · exact .inr (.inl h)
          · exact .inr (.inr (.inl h))
          · exact .inr (.inr (.inr (by simp [h])))
        · have : j = q := by simpa [opsOf, Item.ops] using hj
          exact .inr (.inr (.inr (by simp [this])))
      · intro j hj
        obtain ⟨p, h1, h2⟩ := hoa j hj
        exact ⟨p, by simp [h1], h2⟩
    · have hit' : outside L it = true := by simpa using hit
      rw [List.filter_cons_of_neg (by simp [hit'])] at hfil
      have hne' : it ≠ .one q := fun h => by
        rw [not_outside] at hit
        exact hit ⟨q, htodo q (by simp), h⟩
      rw [List.filter_cons_of_pos hit']
      have hcl : classify P B seen (q :: qs) (it :: l) = (do
          let ba ← classify P B seen (q :: qs) l
          .ok (if seen.any (itemDepends P B it) then (ba.1, it :: ba.2) else (it :: ba.1, ba.2))) := by
        show (if _ then _ else _) = _
        rw [if_neg hne']
      rw [hcl]
      have hBi : B = pre ++ it :: (l ++ post) := by rw [hB]; simp
      have huse : ∀ j ∈ it.uses P, j ∈ opsOf pre := fun j hj => uses_before ho hBi hj
      have hseen' : ∀ x ∈ seen, x ∈ L ∧ x ∈ opsOf (pre ++ [it]) := fun x hx => ⟨(hseen x hx).1, by rw [opsOf_append]; simp [(hseen x hx).2]⟩
      by_cases hdep : seen.any (itemDepends P B it) = true
      · -- moved after the pipeline
        obtain ⟨p, hp, hpd⟩ := List.any_eq_true.1 hdep
        obtain ⟨i, hi, hid⟩ := List.any_eq_true.1 hpd
        have hops : ∀ j ∈ it.ops, valueDepends P B p (B.length + 1) j = true := by
          intro j hj
          have hjn : j ∉ opsOf pre := by
            refine not_mem_left (l2 := it :: (l ++ post)) (by rw [← hBi]; exact hnd) ?_
            rw [opsOf_cons]; simp [hj]
          have e1 : posOf B j = pre.length := by rw [hBi]; exact posOf_eq hj hjn
          have e2 : posOf B p < pre.length := by rw [hBi]; exact posOf_lt (hseen p hp).2
          have e3 : posOf B i < pre.length := by rw [hBi]; exact posOf_lt (huse i hi)
          have e4 : pre.length < B.length := by rw [hBi]; simp
          have e5 : B[posOf B j]? = some it := by rw [e1, hBi]; simp
          show (j == p || (!(decide (posOf B j < posOf B p)) && (((B[posOf B j]?).map (Item.uses P)).getD []).any (valueDepends P B p B.length))) = true
          rw [e5]
          have : ¬ posOf B j < posOf B p := by omega
          simp only [this, decide_false, Bool.not_false, Bool.true_and, Option.map_some, Option.getD_some, Bool.or_eq_true, List.any_eq_true]
          exact .inr ⟨i, hi, by rw [← valueDepends_fuel ho p B.length i (by omega)]; exact hid⟩
        obtain ⟨b, a, h1, h2, h3, h4, h5⟩ := classify_ok ho hnd L l (pre ++ [it]) post seen (q :: qs) D0 ob (oa ++ it.ops) hB' htodo hseen' hfil hne
          (fun j hj => by
            rw [opsOf_append] at hj
            rcases List.mem_append.1 hj with hj | hj
            · rcases hD j hj with h | h | h | h
              · exact .inl h
              · exact .inr (.inl h)
              · exact .inr (.inr (.inl (by simp [h])))
              · exact .inr (.inr (.inr h))
            · have hj' : j ∈ it.ops := by simpa [opsOf] using hj
              exact .inr (.inr (.inl (by simp [hj']))))
          (fun j hj => by
            rcases List.mem_append.1 hj with hj | hj
            · exact hoa j hj
            · exact ⟨p, hp, hops j hj⟩)
        refine ⟨b, it :: a, by rw [h1]; simp [hdep, bind, Except.bind], h2, ⟨fun j hj => ?_, ?_⟩, ?_, ?_⟩
        · simp only [List.mem_append]
          rcases hD j (huse j hj) with h | h | h | h
          · tauto
          · tauto
          · tauto
          · have := (hseen j h).1; tauto
        · refine h3.mono fun j hj => ?_
          simp only [List.mem_append] at hj ⊢; tauto
        · exact List.perm_middle.trans (h4.cons it)
        · intro j hj
          rw [opsOf_cons] at hj
          rcases List.mem_append.1 hj with hj | hj
          · exact ⟨p, (hseen p hp).1, hops j hj⟩
          · exact h5 j hj
      · -- moved before the pipeline
        obtain ⟨b, a, h1, h2, h3, h4, h5⟩ := classify_ok ho hnd L l (pre ++ [it]) post seen (q :: qs) D0 (ob ++ it.ops) oa hB' htodo hseen' hfil hne
          (fun j hj => by
            rw [opsOf_append] at hj
            rcases List.mem_append.1 hj with hj | hj
            · rcases hD j hj with h | h | h | h
              · exact .inl h
              · exact .inr (.inl (by simp [h]))
              · exact .inr (.inr (.inl h))
              · exact .inr (.inr (.inr h))
            · have hj' : j ∈ it.ops := by simpa [opsOf] using hj
              exact .inr (.inl (by simp [hj']))) hoa
        refine ⟨it :: b, a, by rw [h1]; simp [hdep, bind, Except.bind], ⟨fun j hj => ?_, ?_⟩, ?_, ?_, h5⟩
        · have hno : ∀ p ∈ seen, valueDepends P B p (B.length + 1) j ≠ true := fun p hp hv => hdep (List.any_eq_true.2 ⟨p, hp, List.any_eq_true.2 ⟨j, hj, hv⟩⟩)
          rcases hD j (huse j hj) with h | h | h | h
          · simp [h]
          · simp [h]
          · obtain ⟨p, hp, hv⟩ := hoa j h
            exact absurd hv (hno p hp)
          · refine absurd ?_ (hno j h)
            show (j == j || _) = true
            simp
        · rw [List.append_assoc]; exact h2
        · refine h3.mono fun j hj => ?_
          rw [opsOf_cons]
          simp only [List.mem_append] at hj ⊢; tauto
        · exact h4.cons it

end Verif.Fuse
