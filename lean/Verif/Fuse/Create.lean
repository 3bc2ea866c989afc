/-
  The creation of the pipelines keeps the block in dependency order.
-/
import Verif.Fuse.Place
import Mathlib.Data.List.Chain

namespace Verif.Fuse
open Verif Verif.Vect
variable {α : Type} {P : Prog α}

/-- Each operation of the pipeline uses the next one (a sequence without branches). -/
def Chain (P : Prog α) (L : List Nat) : Prop := L.IsChain (Uses P)

/-- The results of all operations but the last one (the head of the list) are used only inside the pipeline. -/
def Private (P : Prog α) (L : List Nat) : Prop := ∀ x ∈ L.tail, ∀ v, Uses P v x → v ∈ L

theorem pos_uses {B : List Item} (ho : OrderedFrom P [] B) (hnd : (opsOf B).Nodup) {v w : Nat} (hv : Item.one v ∈ B) (hu : Uses P v w) (hne : w ≠ v) :
    posOf B w < posOf B v := by
  obtain ⟨l1, l2, rfl⟩ := List.append_of_mem hv
  have h1 : w ∈ opsOf l1 := uses_before ho rfl (mem_uses.2 ⟨v, by simp [Item.ops], hu, by simp [Item.ops, hne]⟩)
  have h2 : v ∉ opsOf l1 := not_mem_left hnd (by simp [opsOf, Item.ops])
  rw [posOf_eq (by simp [Item.ops]) h2]
  exact posOf_lt h1

theorem pos_pairwise {B : List Item} (hnd : (opsOf B).Nodup) : B.Pairwise fun a b => ∀ i ∈ a.ops, ∀ j ∈ b.ops, posOf B i < posOf B j := by
  rw [List.pairwise_iff_getElem]
  intro m n hm hn hmn i hi j hj
  have key : ∀ k (hk : k < B.length) x, x ∈ (B[k]).ops → posOf B x = k := by
    intro k hk x hx
    have hB : B = B.take k ++ B[k] :: B.drop (k + 1) := by simp
    have hx' : x ∉ opsOf (B.take k) := not_mem_left (l2 := B[k] :: B.drop (k + 1)) (by rw [← hB]; exact hnd) (by rw [opsOf_cons]; simp [hx])
    have := posOf_eq (l2 := B.drop (k + 1)) hx hx'
    rw [← hB] at this
    rw [this]; simp; omega
  rw [key m hm i hi, key n hn j hj]
  exact hmn

theorem Grown.pos_head {B : List Item} (hS : Ssa P) (ho : OrderedFrom P [] B) (hnd : (opsOf B).Nodup) {L : List Nat} (h : Grown P L)
    (hB : ∀ x ∈ L, Item.one x ∈ B) : ∀ x ∈ L, posOf B x ≤ posOf B (L.headD 0) := by
  induction h with
  | start v => intro x hx; obtain rfl : x = v := by simpa using hx
               exact Nat.le_refl _
  | @push L v w hL hv hw hn hd ih =>
    intro x hx
    have e : (L ++ [w]).headD 0 = L.headD 0 := by
      cases L with
      | nil => exact absurd rfl hL.ne_nil
      | cons a l => rfl
    rw [e]
    rcases List.mem_append.1 hx with hx | hx
    · exact ih (fun y hy => hB y (by simp [hy])) x hx
    · obtain rfl : x = w := by simpa using hx
      have hu := (merges_uses hw).1
      have h1 := pos_uses ho hnd (hB v (by simp [hv])) hu (Nat.ne_of_lt (hS _ _ hu))
      have h2 := ih (fun y hy => hB y (by simp [hy])) v hv
      omega

/-- The operations of the pipeline except the last one are before the last one. -/
theorem tail_before {C post : List Item} {h : Nat} {T : List Nat} (hnd : (opsOf (C ++ .one h :: post)).Nodup) (hT : (h :: T).Nodup)
    (hB : ∀ x ∈ T, Item.one x ∈ C ++ .one h :: post) (hp : ∀ x ∈ T, posOf (C ++ .one h :: post) x ≤ C.length) : ∀ x ∈ T, Item.one x ∈ C := by
  intro x hx
  have hxh : x ≠ h := fun e => (List.nodup_cons.1 hT).1 (e ▸ hx)
  rcases List.mem_append.1 (hB x hx) with h' | h'
  · exact h'
  · rcases List.mem_cons.1 h' with h' | h'
    · exact absurd (by injection h') hxh
    · exfalso
      obtain ⟨p1, p2, rfl⟩ := List.append_of_mem h'
      have e : C ++ .one h :: (p1 ++ .one x :: p2) = (C ++ .one h :: p1) ++ .one x :: p2 := by simp
      have hnm : x ∉ opsOf (C ++ .one h :: p1) := not_mem_left (by rw [← e]; exact hnd) (by simp [opsOf, Item.ops])
      have := posOf_eq (l2 := p2) (it := .one x) (by simp [Item.ops]) hnm
      rw [← e] at this
      have := hp x hx
      simp at *
      omega

/-- What `create` does, in terms of a decomposition of the block. -/
theorem create_eq {pre l post : List Item} {h first : Nat} {T rest : List Nat} (hnd : (opsOf (pre ++ l ++ .one h :: post)).Nodup)
    (hr : (h :: T).reverse = first :: rest) (hs : posOf (pre ++ l ++ .one h :: post) first = pre.length) :
    create P (pre ++ l ++ .one h :: post) (h :: T) = (do
      let ba ← classify P (pre ++ l ++ .one h :: post) [] (first :: rest) l
      .ok ((pre ++ ba.1).filter (outside (h :: T)) ++ .pipe (first :: rest) :: (ba.2 ++ .one h :: post).filter (outside (h :: T)))) := by
  have hstop : posOf (pre ++ l ++ .one h :: post) h = (pre ++ l).length :=
    posOf_eq (by simp [Item.ops]) (not_mem_left hnd (by simp [opsOf, Item.ops]))
  unfold create
  rw [hr]
  simp only [List.headD_cons, hs, hstop]
  rw [if_neg (by simp)]
  have e1 : (List.drop pre.length (pre ++ l ++ Item.one h :: post)).take ((pre ++ l).length - pre.length) = l := by simp
  have e2 : List.take pre.length (pre ++ l ++ Item.one h :: post) = pre := by simp
  have e3 : List.drop (pre ++ l).length (pre ++ l ++ Item.one h :: post) = Item.one h :: post := by
    rw [List.drop_append]; simp
  rw [e1, e2, e3]

theorem filter_none {L : List Nat} {C : List Item} (h : ∀ it ∈ C, outside L it = true) : C.filter (outside L) = C := List.filter_eq_self.2 h

/-- A pipeline without branches. -/
theorem create_chain (hS : Ssa P) {B : List Item} (ho : OrderedFrom P [] B) (hnd : (opsOf B).Nodup) {L : List Nat} (hg : Grown P L) (hc : Chain P L)
    (hB : ∀ x ∈ L, Item.one x ∈ B) {ρ : Nat → Nat} (h1 : ∀ it ∈ B, ∀ i ∈ it.ops, ∀ j ∈ it.ops, ρ i = ρ j) (h2 : ∀ j i, Uses P j i → ρ i ≤ ρ j)
    (h3 : ∀ x ∈ L, ∀ y ∈ L, ρ x = ρ y) (h4 : ∀ v ∈ L, ∀ j, Uses P v j → j ∉ L → ρ j < ρ v) :
    Res.Ok (create P B L) fun B' => OrderedFrom P [] B' ∧ B'.Perm (.pipe L.reverse :: B.filter (outside L)) := by
  have hpos := hg.pos_head hS ho hnd hB
  have hLn := hg.nodup
  obtain ⟨h, T, rfl⟩ : ∃ h T, L = h :: T := by
    cases L with
    | nil => exact absurd rfl hg.ne_nil
    | cons h T => exact ⟨h, T, rfl⟩
  obtain ⟨C, post, rfl⟩ := List.append_of_mem (hB h (by simp))
  have hnh : h ∉ opsOf C := not_mem_left hnd (by simp [opsOf, Item.ops])
  have hph : posOf (C ++ .one h :: post) h = C.length := posOf_eq (by simp [Item.ops]) hnh
  have hTC := tail_before hnd hLn (fun x hx => hB x (by simp [hx])) (fun x hx => by
    have := hpos x (by simp [hx])
    simpa [hph] using this)
  -- positions of the operations
  have hdesc : (h :: T).Pairwise fun a b => posOf (C ++ .one h :: post) b < posOf (C ++ .one h :: post) a := by
    have hch : (h :: T).IsChain fun a b => posOf (C ++ .one h :: post) b < posOf (C ++ .one h :: post) a := by
      refine List.IsChain.imp_of_mem_imp ?_ hc
      intro a b ha hb hu
      exact pos_uses ho hnd (hB a ha) hu (Nat.ne_of_lt (hS _ _ hu))
    refine List.isChain_iff_pairwise (R := fun a b => posOf (C ++ .one h :: post) b < posOf (C ++ .one h :: post) a) |>.1 hch
  have hCn : (opsOf C).Nodup := by
    rw [opsOf_append] at hnd
    exact (List.nodup_append.1 hnd).1
  have hpw := (List.pairwise_append.1 (pos_pairwise hnd)).1
  have hM : C.filter (fun it => !(outside (h :: T) it)) = T.reverse.map .one := by
    have hl : (C.filter (fun it => !(outside (h :: T) it))).Pairwise fun a b => ∀ i ∈ a.ops, ∀ j ∈ b.ops,
        posOf (C ++ .one h :: post) i < posOf (C ++ .one h :: post) j := hpw.filter _
    refine List.Perm.eq_of_pairwise ?_ hl ?_ ?_
    · intro a b ha hb hab hba
      obtain ⟨i, _, rfl⟩ := not_outside.1 (by simpa using (List.mem_filter.1 ha).2)
      obtain ⟨j, _, rfl⟩ := List.mem_map.1 hb
      have e1 := hab i (by simp [Item.ops]) j (by simp [Item.ops])
      have e2 := hba j (by simp [Item.ops]) i (by simp [Item.ops])
      omega
    · rw [List.pairwise_map, List.pairwise_reverse]
      refine (List.pairwise_cons.1 hdesc).2.imp fun hlt i hi j hj => ?_
      simp only [Item.ops, List.mem_singleton] at hi hj
      subst hi hj; exact hlt
    · refine (List.perm_ext_iff_of_nodup ?_ ?_).2 fun a => ?_
      · refine hl.imp_of_mem fun {x y} hx _ hlt e => ?_
        subst e
        obtain ⟨i, _, rfl⟩ := not_outside.1 (by simpa using (List.mem_filter.1 hx).2)
        exact absurd (hlt i (by simp [Item.ops]) i (by simp [Item.ops])) (Nat.lt_irrefl _)
      · refine List.Nodup.map (fun a b e => by injection e) ?_
        exact List.nodup_reverse.2 (List.nodup_cons.1 hLn).2
      · simp only [List.mem_filter, List.mem_map, List.mem_reverse]
        constructor
        · rintro ⟨ha, hb⟩
          obtain ⟨i, hi, rfl⟩ := not_outside.1 (by simpa using hb)
          rcases List.mem_cons.1 hi with rfl | hi
          · exact absurd (List.mem_flatMap.2 ⟨_, ha, by simp [Item.ops]⟩) hnh
          · exact ⟨i, hi, rfl⟩
        · rintro ⟨i, hi, rfl⟩
          exact ⟨hTC i hi, by simp [outside, hi]⟩
  -- the part of the block that is visited
  obtain ⟨first, rest, hr⟩ : ∃ first rest, (h :: T).reverse = first :: rest := by
    cases hr : (h :: T).reverse with
    | nil => simp at hr
    | cons a l => exact ⟨a, l, rfl⟩
  obtain ⟨pre, l, hCe, hpre, hl, hstart⟩ : ∃ pre l, C = pre ++ l ∧ (∀ it ∈ pre, outside (h :: T) it = true) ∧
      l.filter (fun it => !(outside (h :: T) it)) = T.reverse.map .one ∧ posOf (C ++ .one h :: post) first = pre.length := by
    cases hT : T.reverse with
    | nil =>
      obtain rfl : T = [] := by simpa using hT
      obtain rfl : h = first := by simp at hr; exact hr.1
      refine ⟨C, [], by simp, fun it hit => ?_, by simp, hph⟩
      by_contra hc
      have : it ∈ C.filter (fun it => !(outside [h] it)) := List.mem_filter.2 ⟨hit, by simpa using hc⟩
      rw [hM] at this
      simp at this
    | cons f m =>
      rw [hT, List.map_cons] at hM
      obtain ⟨l1, l2, e1, e2, e3, e4⟩ := List.filter_eq_cons_iff.1 hM
      have hf : f = first := by
        rw [List.reverse_cons, hT] at hr
        simp at hr; exact hr.1
      subst hf
      refine ⟨l1, .one f :: l2, e1, fun it hit => by simpa using e2 it hit, ?_, ?_⟩
      · rw [List.filter_cons_of_pos (p := fun it => !(outside (h :: T) it)) e3, e4, List.map_cons]
      · rw [e1]
        have : l1 ++ Item.one f :: l2 ++ Item.one h :: post = l1 ++ Item.one f :: (l2 ++ Item.one h :: post) := by simp
        rw [this]
        refine posOf_eq (by simp [Item.ops]) ?_
        rw [e1, this] at hnd
        exact not_mem_left hnd (by simp [opsOf, Item.ops])
  subst hCe
  have hdl : (first :: rest).dropLast = T.reverse := by rw [← hr]; simp
  obtain ⟨b, a, c1, c2, c3, c4, c5⟩ := classify_ok ho hnd (h :: T) l pre (.one h :: post) [] (first :: rest) (opsOf pre) [] [] (by simp)
    (fun x hx => by rw [← hr] at hx; exact List.mem_reverse.1 hx) (by simp) (by rw [hdl]; exact hl) (by simp) (fun j hj => .inl hj) (by simp)
  rw [create_eq hnd hr hstart, c1]
  have hbo : ∀ it ∈ b ++ a, outside (h :: T) it = true := fun it hit => (List.mem_filter.1 (c4.mem_iff.1 hit)).2
  have hpo : ∀ it ∈ post, outside (h :: T) it = true := by
    intro it hit
    by_contra hc
    obtain ⟨i, hi, rfl⟩ := not_outside.1 (by simpa using hc)
    rw [opsOf_append, opsOf_cons] at hnd
    have hn := (List.nodup_append.1 hnd).2
    have hip : i ∈ opsOf post := List.mem_flatMap.2 ⟨_, hit, by simp [Item.ops]⟩
    rcases List.mem_cons.1 hi with rfl | hi
    · exact absurd hip (fun h' => (List.nodup_append.1 hn.1).2.2 i (by simp [Item.ops]) i h' rfl)
    · exact hn.2 i (List.mem_flatMap.2 ⟨_, hTC i hi, by simp [Item.ops]⟩) i (by simp [hip]) rfl
  have hres : (pre ++ b).filter (outside (h :: T)) ++ Item.pipe (first :: rest) :: (a ++ .one h :: post).filter (outside (h :: T)) =
      pre ++ b ++ .pipe (first :: rest) :: (a ++ post) := by
    rw [filter_none (C := pre ++ b), List.filter_append, filter_none (C := a), List.filter_cons_of_neg (by simp [outside]), filter_none hpo]
    · exact fun it hit => hbo it (by simp [hit])
    · intro it hit
      rcases List.mem_append.1 hit with hit | hit
      · exact hpre it hit
      · exact hbo it (by simp [hit])
  refine ⟨_, rfl, ?_⟩
  simp only []
  rw [hres]
  have hoC := ordered_append.1 ho
  have hoP := ordered_append.1 hoC.1
  have hlab : ∀ j ∈ opsOf l, j ∈ opsOf b ∨ j ∈ opsOf a ∨ j ∈ (h :: T) := by
    intro j hj
    obtain ⟨it, hit, hji⟩ := List.mem_flatMap.1 hj
    by_cases hout : outside (h :: T) it = true
    · have := c4.mem_iff.2 (List.mem_filter.2 ⟨hit, hout⟩)
      rcases List.mem_append.1 this with h' | h'
      · exact .inl (List.mem_flatMap.2 ⟨it, h', hji⟩)
      · exact .inr (.inl (List.mem_flatMap.2 ⟨it, h', hji⟩))
    · obtain ⟨i, hi, rfl⟩ := not_outside.1 (by simpa using hout)
      have : j = i := by simpa [Item.ops] using hji
      exact .inr (.inr (this ▸ hi))
  constructor
  · rw [ordered_append, ordered_append]
    refine ⟨⟨hoP.1, by simpa using c2⟩, ?_, ?_⟩
    · intro j hj
      obtain ⟨v, hv, hu, hn⟩ := mem_uses.1 hj
      have hv' : v ∈ (h :: T) := by
        have : v ∈ (first :: rest) := hv
        rw [← hr] at this; exact List.mem_reverse.1 this
      have hn' : j ∉ (h :: T) := fun hm => hn (by
        show j ∈ (first :: rest)
        rw [← hr]; exact List.mem_reverse.2 hm)
      have hjp : posOf (pre ++ l ++ Item.one h :: post) j < (pre ++ l).length := by
        have e1 := pos_uses ho hnd (hB v hv') hu (Nat.ne_of_lt (hS _ _ hu))
        have e2 := hpos v hv'
        simp only [List.headD_cons, hph] at e2
        omega
      have hjC : j ∈ opsOf (pre ++ l) := by
        by_contra hc
        have := posOf_ge (l2 := Item.one h :: post) hc
        omega
      rw [opsOf_append] at hjC
      simp only [List.nil_append, opsOf_append]
      rcases List.mem_append.1 hjC with h' | h'
      · simp [h']
      · rcases hlab j h' with h' | h' | h'
        · simp [h']
        · obtain ⟨p, hp, hd⟩ := c5 j h'
          have e1 := valueDepends_rank h1 h2 p _ j hd
          have e2 := h4 v hv' j hu hn'
          have e3 := h3 v hv' p hp
          omega
        · exact absurd h' hn'
    · rw [ordered_append]
      refine ⟨c3.mono fun j hj => ?_, hoC.2.2.mono fun j hj => ?_⟩
      · have e : (Item.pipe (first :: rest)).ops = (h :: T).reverse := hr.symm
        simp only [List.mem_append, List.mem_cons, List.not_mem_nil, or_false, false_or, opsOf_append, e, List.mem_reverse] at hj ⊢
        tauto
      · have e : (Item.pipe (first :: rest)).ops = (h :: T).reverse := hr.symm
        have e' : (Item.one h).ops = [h] := rfl
        rw [e'] at hj
        simp only [List.mem_append, List.mem_cons, List.not_mem_nil, or_false, false_or, opsOf_append, e, List.mem_reverse] at hj ⊢
        have := hlab j
        simp only [List.mem_cons] at this
        tauto
  · have e1 : (pre ++ l ++ Item.one h :: post).filter (outside (h :: T)) = pre ++ l.filter (outside (h :: T)) ++ post := by
      rw [List.filter_append, List.filter_append, filter_none hpre, List.filter_cons_of_neg (by simp [outside]), filter_none hpo]
    rw [e1, hr]
    refine List.perm_middle.trans (List.Perm.cons _ ?_)
    rw [← List.append_assoc, List.append_assoc pre]
    exact (c4.append_left pre).append_right post

/-! ### Pipelines whose intermediate results are used only inside -/

theorem private_dep {B : List Item} (ho : OrderedFrom P [] B) {h : Nat} {T : List Nat} (hp : Private P (h :: T))
    (hB : ∀ x ∈ h :: T, ∀ it ∈ B, x ∈ it.ops → it = .one x) {p : Nat} (hpT : p ∈ T) :
    ∀ (n j : Nat), valueDepends P B p n j = true → posOf B j < posOf B h → j ∈ T
  | 0, _, hd, _ => by simp [valueDepends] at hd
  | n + 1, j, hd, hlt => by
    have e : valueDepends P B p (n + 1) j =
      (j == p || (!(decide (posOf B j < posOf B p)) && (((B[posOf B j]?).map (Item.uses P)).getD []).any (valueDepends P B p n))) := rfl
    rw [e] at hd
    rcases Bool.or_eq_true_iff.1 hd with hd | hd
    · obtain rfl : j = p := by simpa using hd
      exact hpT
    · obtain ⟨_, hd⟩ := Bool.and_eq_true_iff.1 hd
      cases hit : B[posOf B j]? with
      | none => rw [hit] at hd; simp at hd
      | some it =>
        rw [hit] at hd
        obtain ⟨i, hi, hd⟩ := List.any_eq_true.1 hd
        obtain ⟨hl, he⟩ := List.getElem?_eq_some_iff.1 hit
        have hBe : B = B.take (posOf B j) ++ it :: B.drop (posOf B j + 1) := by rw [← he]; simp
        have hb := uses_before ho hBe hi
        have hlt' := posOf_lt (l2 := it :: B.drop (posOf B j + 1)) hb
        rw [← hBe] at hlt'
        simp only [List.length_take] at hlt'
        have hiT := private_dep ho hp hB hpT n i hd (by omega)
        obtain ⟨k, hk, hu, _⟩ := mem_uses.1 hi
        have hkL := hp i hiT k hu
        have hitk := hB k hkL it (List.mem_of_getElem? hit) hk
        have hjk : j = k := by
          have := posOf_item hit
          rw [hitk] at this
          simpa [Item.ops] using this
        subst hjk
        rcases List.mem_cons.1 hkL with rfl | h'
        · omega
        · exact h'

theorem classify_private {B : List Item} {h : Nat} {T : List Nat} : ∀ (l : List Item) (seen todo : List Nat), (∀ x ∈ todo, x ∈ T) → (∀ x ∈ seen, x ∈ T) →
    Item.one h ∉ l → (∀ it ∈ l, outside (h :: T) it = true → ∀ p ∈ T, itemDepends P B it p = false) →
    ∃ b a, classify P B seen (todo ++ [h]) l = .ok (b, a) ∧ b.filter (outside (h :: T)) = l.filter (outside (h :: T)) ∧
      a.filter (outside (h :: T)) = []
  | [], seen, todo, _, _, _, _ => ⟨[], [], by cases todo <;> rfl, rfl, rfl⟩
  | it :: l, seen, todo, htodo, hseen, hh, hd => by
    have hhl : Item.one h ∉ l := fun h' => hh (by simp [h'])
    have hdl : ∀ it ∈ l, outside (h :: T) it = true → ∀ p ∈ T, itemDepends P B it p = false := fun x hx => hd x (by simp [hx])
    obtain ⟨q, qs, hq⟩ : ∃ q qs, todo ++ [h] = q :: qs := by cases todo <;> exact ⟨_, _, rfl⟩
    by_cases hit : it = .one q
    · obtain ⟨qs', rfl, rfl⟩ : ∃ qs', todo = q :: qs' ∧ qs = qs' ++ [h] := by
        cases todo with
        | nil => simp at hq; exact absurd (by rw [hit, ← hq.1]; simp) hh
        | cons x xs => simp at hq; exact ⟨xs, by rw [hq.1], hq.2.symm⟩
      obtain ⟨b, a, h1, h2, h3⟩ := classify_private l (q :: seen) qs' (fun x hx => htodo x (by simp [hx]))
        (fun x hx => by rcases List.mem_cons.1 hx with rfl | hx; exacts [htodo _ (by simp), hseen x hx]) hhl hdl
      refine ⟨b, a, ?_, ?_, h3⟩
      · show (if _ then _ else _) = _
        rw [if_pos hit]; exact h1
      · rw [h2, List.filter_cons_of_neg]
        rw [hit]; simp [outside, htodo q (by simp)]
    · obtain ⟨b, a, h1, h2, h3⟩ := classify_private l seen todo htodo hseen hhl hdl
      rw [hq] at h1 ⊢
      have hcl : classify P B seen (q :: qs) (it :: l) = (do
          let ba ← classify P B seen (q :: qs) l
          .ok (if seen.any (itemDepends P B it) then (ba.1, it :: ba.2) else (it :: ba.1, ba.2))) := by
        show (if _ then _ else _) = _
        rw [if_neg hit]
      rw [hcl, h1]
      by_cases hout : outside (h :: T) it = true
      · have : seen.any (itemDepends P B it) = false := by
          rw [List.any_eq_false]
          intro p hp
          simp [hd it (by simp) hout p (hseen p hp)]
        refine ⟨it :: b, a, by simp [this, bind, Except.bind], ?_, h3⟩
        rw [List.filter_cons_of_pos hout, List.filter_cons_of_pos hout, h2]
      · by_cases hs : seen.any (itemDepends P B it) = true
        · refine ⟨b, it :: a, by simp [hs, bind, Except.bind], ?_, ?_⟩
          · rw [List.filter_cons_of_neg hout, h2]
          · rw [List.filter_cons_of_neg hout, h3]
        · refine ⟨it :: b, a, by simp [hs, bind, Except.bind], ?_, h3⟩
          rw [List.filter_cons_of_neg hout, List.filter_cons_of_neg hout, h2]

theorem item_unique {B : List Item} (hnd : (opsOf B).Nodup) {x : Nat} (hx : Item.one x ∈ B) {it : Item} (hit : it ∈ B) (hxi : x ∈ it.ops) : it = .one x := by
  obtain ⟨m, hm, e1⟩ := List.getElem_of_mem hx
  obtain ⟨n, hn, e2⟩ := List.getElem_of_mem hit
  have hp := List.pairwise_iff_getElem.1 (pos_pairwise hnd)
  rcases Nat.lt_trichotomy m n with h | h | h
  · have := hp m n hm hn h x (by rw [e1]; simp [Item.ops]) x (by rw [e2]; exact hxi)
    omega
  · subst h; rw [← e1, ← e2]
  · have := hp n m hn hm h x (by rw [e2]; exact hxi) x (by rw [e1]; simp [Item.ops])
    omega

/-- Filtering out the operations of a pipeline keeps the order if nobody else uses them. -/
theorem ordered_filter {L : List Nat} : ∀ (C : List Item) (D D' : List Nat), OrderedFrom P D C → (∀ j ∈ D, j ∈ D' ∨ j ∈ L) →
    (∀ it ∈ C, outside L it = true → ∀ j ∈ it.uses P, j ∉ L ∨ j ∈ D') → OrderedFrom P D' (C.filter (outside L))
  | [], _, _, _, _, _ => trivial
  | it :: C, D, D', ho, hD, hu => by
    by_cases hit : outside L it = true
    · rw [List.filter_cons_of_pos hit]
      refine ⟨fun j hj => ?_, ordered_filter C _ _ ho.2 (fun j hj => ?_) fun x hx h1 j hj => ?_⟩
      · rcases hD j (ho.1 j hj) with h | h
        · exact h
        · rcases hu it (by simp) hit j hj with h' | h'
          · exact absurd h h'
          · exact h'
      · rcases List.mem_append.1 hj with hj | hj
        · rcases hD j hj with h | h
          · exact .inl (by simp [h])
          · exact .inr h
        · exact .inl (by simp [hj])
      · rcases hu x (by simp [hx]) h1 j hj with h' | h'
        · exact .inl h'
        · exact .inr (by simp [h'])
    · rw [List.filter_cons_of_neg hit]
      refine ordered_filter C _ _ ho.2 (fun j hj => ?_) fun x hx => hu x (by simp [hx])
      rcases List.mem_append.1 hj with hj | hj
      · exact hD j hj
      · obtain ⟨i, hi, rfl⟩ := not_outside.1 (by simpa using hit)
        have : j = i := by simpa [Item.ops] using hj
        exact .inr (this ▸ hi)

/-- A pipeline whose intermediate results are used only inside. -/
theorem create_private (hS : Ssa P) {B : List Item} (ho : OrderedFrom P [] B) (hnd : (opsOf B).Nodup) {L : List Nat} (hg : Grown P L) (hc : Private P L)
    (hB : ∀ x ∈ L, Item.one x ∈ B) :
    Res.Ok (create P B L) fun B' => OrderedFrom P [] B' ∧ B'.Perm (.pipe L.reverse :: B.filter (outside L)) := by
  have hpos := hg.pos_head hS ho hnd hB
  have hLn := hg.nodup
  obtain ⟨h, T, rfl⟩ : ∃ h T, L = h :: T := by
    cases L with
    | nil => exact absurd rfl hg.ne_nil
    | cons h T => exact ⟨h, T, rfl⟩
  obtain ⟨C, post, hBe⟩ := List.append_of_mem (hB h (by simp))
  have huniq : ∀ x ∈ h :: T, ∀ it ∈ B, x ∈ it.ops → it = .one x := fun x hx it hit hxi => item_unique hnd (hB x hx) hit hxi
  subst hBe
  have hnh : h ∉ opsOf C := not_mem_left hnd (by simp [opsOf, Item.ops])
  have hph : posOf (C ++ .one h :: post) h = C.length := posOf_eq (by simp [Item.ops]) hnh
  have hTC := tail_before hnd hLn (fun x hx => hB x (by simp [hx])) (fun x hx => by
    have := hpos x (by simp [hx])
    simpa [hph] using this)
  have hpo : ∀ it ∈ post, outside (h :: T) it = true := by
    intro it hit
    by_contra hc
    obtain ⟨i, hi, rfl⟩ := not_outside.1 (by simpa using hc)
    rw [opsOf_append, opsOf_cons] at hnd
    have hn := (List.nodup_append.1 hnd).2
    have hip : i ∈ opsOf post := List.mem_flatMap.2 ⟨_, hit, by simp [Item.ops]⟩
    rcases List.mem_cons.1 hi with rfl | hi
    · exact absurd hip (fun h' => (List.nodup_append.1 hn.1).2.2 i (by simp [Item.ops]) i h' rfl)
    · exact hn.2 i (List.mem_flatMap.2 ⟨_, hTC i hi, by simp [Item.ops]⟩) i (by simp [hip]) rfl
  obtain ⟨first, rest, hr⟩ : ∃ first rest, (h :: T).reverse = first :: rest := by
    cases hr : (h :: T).reverse with
    | nil => simp at hr
    | cons a l => exact ⟨a, l, rfl⟩
  have hfirst : first ∈ h :: T := by rw [← List.mem_reverse, hr]; simp
  obtain ⟨pre, l, hCe, hstart⟩ : ∃ pre l, C = pre ++ l ∧ posOf (C ++ .one h :: post) first = pre.length := by
    have := hpos first hfirst
    simp only [List.headD_cons, hph] at this
    exact ⟨C.take (posOf (C ++ .one h :: post) first), C.drop (posOf (C ++ .one h :: post) first), by simp, by simp; omega⟩
  subst hCe
  have hhC : Item.one h ∉ pre ++ l := fun h' => hnh (List.mem_flatMap.2 ⟨_, h', by simp [Item.ops]⟩)
  have hdep : ∀ it ∈ l, outside (h :: T) it = true → ∀ p ∈ T, itemDepends P (pre ++ l ++ .one h :: post) it p = false := by
    intro it hit hout p hp
    by_contra hne
    rw [Bool.not_eq_false] at hne
    obtain ⟨j, hj, hd⟩ := List.any_eq_true.1 hne
    obtain ⟨l1, l2, rfl⟩ := List.append_of_mem hit
    have e : pre ++ (l1 ++ it :: l2) ++ Item.one h :: post = (pre ++ l1) ++ it :: (l2 ++ Item.one h :: post) := by simp
    have hb := uses_before ho e hj
    have hlt := posOf_lt (l2 := it :: (l2 ++ Item.one h :: post)) hb
    rw [← e] at hlt
    have hjT := private_dep ho hc huniq hp _ j hd (by rw [hph]; simp at hlt ⊢; omega)
    obtain ⟨k, hk, hu, _⟩ := mem_uses.1 hj
    have hkL := hc j hjT k hu
    have := huniq k hkL it (by simp) hk
    rw [this] at hout
    simp [outside] at hout
    have := List.mem_cons.1 hkL
    tauto
  have hrev : (first :: rest) = T.reverse ++ [h] := by rw [← hr]; simp
  obtain ⟨b, a, c1, c2, c3⟩ := classify_private (P := P) (B := pre ++ l ++ .one h :: post) l [] T.reverse (fun x hx => List.mem_reverse.1 hx) (by simp)
    (fun h' => hhC (by simp [h'])) hdep
  rw [create_eq hnd hr hstart, hrev, c1]
  refine ⟨_, rfl, ?_⟩
  have hres : (pre ++ b).filter (outside (h :: T)) ++ Item.pipe (T.reverse ++ [h]) :: (a ++ .one h :: post).filter (outside (h :: T)) =
      (pre ++ l).filter (outside (h :: T)) ++ .pipe (T.reverse ++ [h]) :: post := by
    rw [List.filter_append, c2, ← List.filter_append, List.filter_append (l₁ := a), c3, List.filter_cons_of_neg (by simp [outside]), filter_none hpo]
    simp
  simp only []
  rw [hres]
  have hoC := ordered_append.1 ho
  constructor
  · rw [ordered_append]
    refine ⟨ordered_filter _ _ _ hoC.1 (fun j hj => by simp at hj) fun it hit hout j hj => .inl fun hjL => ?_, ?_, ?_⟩
    · obtain ⟨l1, l2, e⟩ := List.append_of_mem hit
      have hj1 : j ∈ opsOf (pre ++ l) := by
        have := uses_before (l2 := l2 ++ Item.one h :: post) ho (by rw [e, List.append_assoc]; rfl) hj
        rw [e, opsOf_append]; simp [this]
      rcases List.mem_cons.1 hjL with rfl | hjT
      · exact hnh hj1
      · obtain ⟨k, hk, hu, _⟩ := mem_uses.1 hj
        have hkL := hc j hjT k hu
        have := huniq k hkL it (by rw [List.mem_append]; exact .inl hit) hk
        rw [this] at hout
        simp [outside] at hout
        have := List.mem_cons.1 hkL
        tauto
    · intro j hj
      obtain ⟨v, hv, hu, hn⟩ := mem_uses.1 hj
      have e : (Item.pipe (T.reverse ++ [h])).ops = (h :: T).reverse := by simp [Item.ops]
      rw [e, List.mem_reverse] at hv hn
      have hjp : posOf (pre ++ l ++ Item.one h :: post) j < (pre ++ l).length := by
        have e1 := pos_uses ho hnd (hB v hv) hu (Nat.ne_of_lt (hS _ _ hu))
        have e2 := hpos v hv
        simp only [List.headD_cons, hph] at e2
        omega
      have hjC : j ∈ opsOf (pre ++ l) := by
        by_contra hc
        have := posOf_ge (l2 := Item.one h :: post) hc
        omega
      obtain ⟨it, hit, hji⟩ := List.mem_flatMap.1 hjC
      have hout : outside (h :: T) it = true := by
        by_contra hne
        obtain ⟨i, hi, rfl⟩ := not_outside.1 (by simpa using hne)
        have : j = i := by simpa [Item.ops] using hji
        exact hn (this ▸ hi)
      simp only [List.nil_append]
      exact List.mem_flatMap.2 ⟨it, List.mem_filter.2 ⟨hit, hout⟩, hji⟩
    · refine hoC.2.2.mono fun j hj => ?_
      have e : (Item.pipe (T.reverse ++ [h])).ops = T.reverse ++ [h] := rfl
      have e' : (Item.one h).ops = [h] := rfl
      rw [e'] at hj
      rw [e]
      simp only [List.nil_append, List.mem_append, List.mem_singleton, List.mem_reverse] at hj ⊢
      rcases hj with hj | hj
      · obtain ⟨it, hit, hji⟩ := List.mem_flatMap.1 hj
        by_cases hout : outside (h :: T) it = true
        · exact .inl (List.mem_flatMap.2 ⟨it, List.mem_filter.2 ⟨hit, hout⟩, hji⟩)
        · obtain ⟨i, hi, rfl⟩ := not_outside.1 (by simpa using hout)
          have : j = i := by simpa [Item.ops] using hji
          have := List.mem_cons.1 (this ▸ hi)
          tauto
      · exact .inr (.inr hj)
  · have e1 : (pre ++ l ++ Item.one h :: post).filter (outside (h :: T)) = (pre ++ l).filter (outside (h :: T)) ++ post := by
      rw [List.filter_append, List.filter_cons_of_neg (by simp [outside]), filter_none hpo]
    rw [e1]
    have e2 : (h :: T).reverse = T.reverse ++ [h] := by simp
    rw [e2]
    exact List.perm_middle

/-! ### All pipelines -/

/-- The pipeline can be created without violating dependencies: it is a sequence of operations whose operands from outside are computed before
(`ρ` orders the items), or its intermediate results are used only inside. -/
def Placeable (P : Prog α) (ρ : Nat → Nat) (L : List Nat) : Prop :=
  Private P L ∨ (Chain P L ∧ ∀ v ∈ L, ∀ j, Uses P v j → j ∉ L → ρ j < ρ v)

theorem filter_outside_perm {B : List Item} (hnd : (opsOf B).Nodup) {L : List Nat} (hL : L.Nodup) (hB : ∀ x ∈ L, Item.one x ∈ B) :
    (opsOf (Item.pipe L.reverse :: B.filter (outside L))).Perm (opsOf B) := by
  rw [opsOf_cons]
  have e : (Item.pipe L.reverse).ops = L.reverse := rfl
  rw [e]
  have hsub : ∀ (C : List Item), (opsOf (C.filter (outside L))).Sublist (opsOf C) := by
    intro C
    induction C with
    | nil => exact .refl _
    | cons it C ih =>
      by_cases h : outside L it = true
      · rw [List.filter_cons_of_pos h, opsOf_cons, opsOf_cons]; exact List.Sublist.append_left ih _
      · rw [List.filter_cons_of_neg h, opsOf_cons]; exact ih.trans (List.sublist_append_right _ _)
  have hdis : ∀ x ∈ L, x ∉ opsOf (B.filter (outside L)) := by
    intro x hx hm
    obtain ⟨it, hit, hxi⟩ := List.mem_flatMap.1 hm
    obtain ⟨h1, h2⟩ := List.mem_filter.1 hit
    have := item_unique hnd (hB x hx) h1 hxi
    rw [this] at h2
    simp [outside, hx] at h2
  refine (List.perm_ext_iff_of_nodup ?_ hnd).2 fun x => ?_
  · refine List.nodup_append.2 ⟨List.nodup_reverse.2 hL, (hsub B).nodup hnd, fun a ha b hb e => ?_⟩
    exact hdis a (List.mem_reverse.1 ha) (e ▸ hb)
  · rw [List.mem_append, List.mem_reverse]
    constructor
    · rintro (h | h)
      · exact List.mem_flatMap.2 ⟨_, hB x h, by simp [Item.ops]⟩
      · exact (hsub B).subset h
    · intro h
      obtain ⟨it, hit, hxi⟩ := List.mem_flatMap.1 h
      by_cases hout : outside L it = true
      · exact .inr (List.mem_flatMap.2 ⟨it, List.mem_filter.2 ⟨hit, hout⟩, hxi⟩)
      · obtain ⟨i, hi, rfl⟩ := not_outside.1 (by simpa using hout)
        have : x = i := by simpa [Item.ops] using hxi
        exact .inl (this ▸ hi)

theorem createAll_ok (hS : Ssa P) {ρ : Nat → Nat} (h2 : ∀ j i, Uses P j i → ρ i ≤ ρ j) : ∀ (ps : List (List Nat)) (B : List Item),
    (∀ L ∈ ps, Grown P L ∧ Placeable P ρ L ∧ ∀ x ∈ L, ∀ y ∈ L, ρ x = ρ y) → ps.flatten.Nodup → (∀ x ∈ ps.flatten, Item.one x ∈ B) →
    OrderedFrom P [] B → (opsOf B).Nodup → (∀ it ∈ B, ∀ i ∈ it.ops, ∀ j ∈ it.ops, ρ i = ρ j) →
    Res.Ok (createAll P B ps) fun B' => OrderedFrom P [] B' ∧ (opsOf B').Perm (opsOf B) ∧
      ∀ it, it ∈ B' ↔ (it ∈ B ∧ outside ps.flatten it = true) ∨ ∃ L ∈ ps, it = .pipe L.reverse
  | [], B, _, _, _, ho, _, _ => ⟨B, rfl, ho, .refl _, fun it => by
      have : outside [] it = true := by cases it <;> simp [outside]
      simp [this]⟩
  | L :: ps, B, hps, hn, hB, ho, hnd, hρ => by
    obtain ⟨hg, hpl, h3⟩ := hps L (by simp)
    have hBL : ∀ x ∈ L, Item.one x ∈ B := fun x hx => hB x (by simp [hx])
    have hc : Res.Ok (create P B L) fun B' => OrderedFrom P [] B' ∧ B'.Perm (.pipe L.reverse :: B.filter (outside L)) := by
      rcases hpl with h | ⟨h, h4⟩
      · exact create_private hS ho hnd hg h hBL
      · exact create_chain hS ho hnd hg h hBL hρ h2 h3 h4
    show Res.Ok (do
      let B' ← create P B L
      createAll P B' ps) _
    refine hc.bind fun B1 ⟨o1, p1⟩ => ?_
    rw [List.flatten_cons] at hn hB
    have hops : (opsOf B1).Perm (opsOf B) := (List.Perm.flatMap_right _ p1).trans (filter_outside_perm hnd hg.nodup hBL)
    have hdis := (List.nodup_append.1 hn).2.2
    have hmem : ∀ it, it ∈ B1 ↔ it = .pipe L.reverse ∨ (it ∈ B ∧ outside L it = true) := fun it => by
      rw [p1.mem_iff, List.mem_cons, List.mem_filter]
    refine (createAll_ok hS h2 ps B1 (fun K hK => hps K (by simp [hK])) (List.nodup_append.1 hn).2.1 (fun x hx => ?_) o1 (hops.nodup_iff.2 hnd) ?_).mono ?_
    · refine (hmem _).2 (.inr ⟨hB x (by simp [hx]), ?_⟩)
      have : x ∉ L := fun h' => hdis x h' x hx rfl
      simp [outside, this]
    · intro it hit i hi j hj
      rcases (hmem it).1 hit with rfl | ⟨h', _⟩
      · exact h3 i (List.mem_reverse.1 hi) j (List.mem_reverse.1 hj)
      · exact hρ it h' i hi j hj
    · rintro B2 ⟨q1, q2, q3⟩
      refine ⟨q1, q2.trans hops, fun it => ?_⟩
      rw [q3, hmem]
      have e : outside (L :: ps).flatten it = (outside L it && outside ps.flatten it) := by
        cases it with
        | one i =>
          simp only [outside, List.flatten_cons]
          by_cases hi : i ∈ L <;> by_cases hj : i ∈ ps.flatten <;> simp [hi, hj, -List.mem_flatten]
        | pipe l => rfl
      rw [e]
      have e2 : outside ps.flatten (.pipe L.reverse) = true := rfl
      simp only [Bool.and_eq_true, List.mem_cons, exists_eq_or_imp]
      constructor
      · rintro (⟨rfl | ⟨h, h'⟩, h''⟩ | h)
        · exact .inr (.inl rfl)
        · exact .inl ⟨h, h', h''⟩
        · exact .inr (.inr h)
      · rintro (⟨h, h', h''⟩ | rfl | h)
        · exact .inl ⟨.inr ⟨h, h'⟩, h''⟩
        · exact .inl ⟨.inl rfl, e2⟩
        · exact .inr h

/-- The structural conditions under which the pass is right: no intermediate result is a fusion candidate twice, and the items can be ordered
(`ρ`) such that each pipeline can be placed; inside a pipeline, results are used only as row-split operands. -/
structure Fusible (P : Prog α) (ρ : Nat → Nat) : Prop where
  noSharing : NoSharing P
  place : ∀ L ∈ pipelines P, Placeable P ρ L
  const : ∀ L ∈ pipelines P, ∀ x ∈ L, ∀ y ∈ L, ρ x = ρ y
  mono : ∀ j i, Uses P j i → ρ i ≤ ρ j
  rowUse : ∀ L ∈ pipelines P, ∀ v ∈ L, ∀ (p j : Nat), (argsOf P v)[p]? = some (Ref.op j) → j ∈ L → (splitsOf P v)[p]? = some Split.rows

theorem ordered_range (hS : Ssa P) : ∀ (n k : Nat), OrderedFrom P (List.range k) ((List.range' k n).map .one)
  | 0, _ => trivial
  | n + 1, k => by
    rw [List.range'_succ, List.map_cons]
    refine ⟨fun j hj => ?_, ?_⟩
    · obtain ⟨i, hi, hu, _⟩ := mem_uses.1 hj
      have : i = k := by simpa [Item.ops] using hi
      subst this
      exact List.mem_range.2 (hS _ _ hu)
    · have := ordered_range hS n (k + 1)
      rw [List.range_succ] at this
      exact this

/-- The block after the pass: in dependency order, with the same operations; each vectorizable operation is in a pipeline. -/
theorem vectorize_ok (hS : Ssa P) {ρ : Nat → Nat} (hF : Fusible P ρ) :
    Res.Ok (vectorize P) fun B => OrderedFrom P [] B ∧ (opsOf B).Perm (List.range P.length) ∧
      ∀ it ∈ B, (∃ i, i < P.length ∧ cand P i = false ∧ it = .one i) ∨ ∃ L ∈ pipelines P, it = .pipe L.reverse := by
  obtain ⟨hg, hp⟩ := pipelines_ok hS hF.noSharing
  have hops : opsOf ((List.range P.length).map .one) = List.range P.length := by
    unfold opsOf
    rw [List.flatMap_map]
    show (List.range P.length).flatMap (fun i => [i]) = _
    simp
  have hnd : (candidates P).Nodup := (candidates_sorted P).imp (fun h => Nat.ne_of_lt h)
  have h0 : OrderedFrom P [] ((List.range P.length).map .one) := by
    have := ordered_range hS P.length 0
    rwa [← List.range_eq_range'] at this
  refine (createAll_ok hS hF.mono (pipelines P) _ (fun L hL => ⟨hg L hL, hF.place L hL, hF.const L hL⟩) (hp.nodup_iff.2 hnd) (fun x hx => ?_) h0
    (by rw [hops]; exact List.nodup_range) ?_).mono ?_
  · have := hp.mem_iff.1 hx
    exact List.mem_map.2 ⟨x, (List.mem_filter.1 this).1, rfl⟩
  · intro it hit i hi j hj
    obtain ⟨k, _, rfl⟩ := List.mem_map.1 hit
    simp only [Item.ops, List.mem_singleton] at hi hj
    rw [hi, hj]
  · rintro B ⟨h1, h2, h3⟩
    refine ⟨h1, by rw [← hops]; exact h2, fun it hit => ?_⟩
    rcases (h3 it).1 hit with ⟨h, h'⟩ | h
    · left
      obtain ⟨k, hk, rfl⟩ := List.mem_map.1 h
      refine ⟨k, List.mem_range.1 hk, ?_, rfl⟩
      by_contra hc
      have : k ∈ (pipelines P).flatten := hp.mem_iff.2 (mem_candidates.2 (by simpa using hc))
      simp only [outside, Bool.not_eq_true', List.contains_iff_mem] at h'
      simp [this, -List.mem_flatten] at h'
    · exact .inr h

end Verif.Fuse
