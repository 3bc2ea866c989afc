import Verif.Dist.Spec
import Mathlib.Tactic.ByContra
import Mathlib.Data.List.Nodup
/-
  Invariant of the placements, and the phase that sends an input.
-/
namespace Verif.Dist
open Verif Verif.Dense Verif.Sched

variable {V : Type}

/-- The part of a value covered by a range. -/
def Val.sub (v : Val V) (g : Range) : Val V :=
  match v with
  | .mat m => .mat (m.window g.rStart (g.rStart + g.rLen) g.cStart (g.cStart + g.cLen))
  | .scalar s => .scalar s

/-- The range lies in the matrix. -/
def Fits (g : Range) (v : Val V) : Prop := g.rStart + g.rLen ≤ v.rows ∧ g.cStart + g.cLen ≤ v.cols

/-- The worker has the data the placement says. -/
def Backed (W : Nat → Worker V) (v : Val V) (p : Placement) : Prop :=
  ∃ i u, p.ident = some i ∧ (W p.loc).data i = some u ∧ (Fits p.range v → u = v.sub p.range)

structure ObjCore (dp : Nat) (o : Obj V) : Prop where
  locs : (o.pls.map (·.loc)).Nodup
  ids : (o.pls.map (·.id)).Nodup
  lt : ∀ p ∈ o.pls, p.id < dp

/-- The invariant; objects in `S` may have unfinished metadata. -/
structure Inv (S : Nat → Prop) (w : World V) : Prop where
  fresh : ∀ r, w.nextRef ≤ r → w.objs r = none
  wfresh : ∀ a i, (w.workers a).counter ≤ i → (w.workers a).data i = none
  core : ∀ r o, w.objs r = some o → ObjCore w.nextDp o
  backed : ∀ r o, w.objs r = some o → ¬ S r → ∀ p ∈ o.pls, p.placed = true → Backed w.workers o.val p

/-- Workers only gain data. -/
def Ext (W W' : Nat → Worker V) : Prop := ∀ a i v, (W a).data i = some v → (W' a).data i = some v

theorem Ext.refl (W : Nat → Worker V) : Ext W W := fun _ _ _ h => h
theorem Ext.trans {W W' W'' : Nat → Worker V} (h : Ext W W') (h' : Ext W' W'') : Ext W W'' := fun a i v e => h' a i v (h a i v e)

theorem Backed.ext {W W' : Nat → Worker V} {v : Val V} {p : Placement} (h : Backed W v p) (e : Ext W W') : Backed W' v p := by
  obtain ⟨i, u, h1, h2, h3⟩ := h
  exact ⟨i, u, h1, e _ _ _ h2, h3⟩

theorem ObjCore.mono {dp dp' : Nat} {o : Obj V} (h : ObjCore dp o) (hle : dp ≤ dp') : ObjCore dp' o :=
  ⟨h.locs, h.ids, fun p hp => Nat.lt_of_lt_of_le (h.lt p hp) hle⟩

theorem eq_of_loc {o : Obj V} (h : (o.pls.map (·.loc)).Nodup) {p q : Placement} (hp : p ∈ o.pls) (hq : q ∈ o.pls) (e : p.loc = q.loc) :
    p = q := List.inj_on_of_nodup_map h hp hq e

theorem eq_of_id {o : Obj V} (h : (o.pls.map (·.id)).Nodup) {p q : Placement} (hp : p ∈ o.pls) (hq : q ∈ o.pls) (e : p.id = q.id) :
    p = q := List.inj_on_of_nodup_map h hp hq e

theorem findLoc_some {o : Obj V} {a : Nat} {p : Placement} (h : o.findLoc a = some p) : p ∈ o.pls ∧ p.loc = a := by
  have h1 := List.mem_of_find?_eq_some h
  have h2 := List.find?_some h
  exact ⟨h1, by simpa using h2⟩

theorem findLoc_of_mem {o : Obj V} {a : Nat} {p : Placement} (hn : (o.pls.map (·.loc)).Nodup) (hp : p ∈ o.pls) (ha : p.loc = a) :
    o.findLoc a = some p := by
  cases h : o.findLoc a with
  | none =>
    have := List.find?_eq_none.1 h p hp
    simp [ha] at this
  | some q =>
    obtain ⟨h1, h2⟩ := findLoc_some h
    rw [eq_of_loc hn hp h1 (ha.trans h2.symm)]

theorem findLoc_none {o : Obj V} {a : Nat} (h : o.findLoc a = none) {p : Placement} (hp : p ∈ o.pls) : p.loc ≠ a := by
  have := List.find?_eq_none.1 h p hp
  simpa using this

theorem update_core {o : Obj V} {dp id : Nat} {f : Placement → Placement} (h : ObjCore dp o)
    (hf : ∀ p ∈ o.pls, p.id = id → (f p).id = p.id ∧ (f p).loc = p.loc) : ObjCore dp (o.update id f) := by
  have e1 : (o.update id f).pls.map (·.loc) = o.pls.map (·.loc) := by
    simp only [Obj.update, List.map_map]
    apply List.map_congr_left
    intro p hp
    simp only [Function.comp]
    split
    · exact (hf p hp ‹_›).2
    · rfl
  have e2 : (o.update id f).pls.map (·.id) = o.pls.map (·.id) := by
    simp only [Obj.update, List.map_map]
    apply List.map_congr_left
    intro p hp
    simp only [Function.comp]
    split
    · exact (hf p hp ‹_›).1
    · rfl
  refine ⟨e1 ▸ h.locs, e2 ▸ h.ids, fun p hp => ?_⟩
  simp only [Obj.update, List.mem_map] at hp
  obtain ⟨q, hq, rfl⟩ := hp
  split
  · rw [(hf q hq ‹_›).1]; exact h.lt q hq
  · exact h.lt q hq

theorem mem_update {o : Obj V} {id : Nat} {f : Placement → Placement} {p : Placement} (h : p ∈ (o.update id f).pls) :
    ∃ q ∈ o.pls, p = if q.id = id then f q else q := by
  simp only [Obj.update, List.mem_map] at h
  obtain ⟨q, hq, e⟩ := h
  exact ⟨q, hq, e.symm⟩

theorem update_mem {o : Obj V} (id : Nat) (f : Placement → Placement) {q : Placement} (hq : q ∈ o.pls) :
    (if q.id = id then f q else q) ∈ (o.update id f).pls := by
  simp only [Obj.update, List.mem_map]
  exact ⟨q, hq, rfl⟩

theorem add_core {o : Obj V} {dp : Nat} (h : ObjCore dp o) {p : Placement} (hid : p.id = dp) (hl : ∀ q ∈ o.pls, q.loc ≠ p.loc) :
    ObjCore (dp + 1) (o.add p) := by
  refine ⟨?_, ?_, ?_⟩
  · simp only [Obj.add, List.map_append, List.map_cons, List.map_nil]
    rw [List.nodup_append]
    refine ⟨h.locs, by simp, ?_⟩
    intro a ha b hb
    simp only [List.mem_map, List.mem_singleton] at ha hb
    obtain ⟨q, hq, rfl⟩ := ha
    rw [hb]
    exact hl q hq
  · simp only [Obj.add, List.map_append, List.map_cons, List.map_nil]
    rw [List.nodup_append]
    refine ⟨h.ids, by simp, ?_⟩
    intro a ha b hb
    simp only [List.mem_map, List.mem_singleton] at ha hb
    obtain ⟨q, hq, rfl⟩ := ha
    rw [hb, hid]
    exact Nat.ne_of_lt (h.lt q hq)
  · intro q hq
    simp only [Obj.add, List.mem_append, List.mem_singleton] at hq
    rcases hq with hq | rfl
    · exact Nat.lt_succ_of_lt (h.lt q hq)
    · omega

/-! ### Folds -/

theorem foldlM_partial {α σ : Type} {f : σ → α → Res σ} (J : List α → σ → Prop)
    (hs : ∀ x xs s s', J (x :: xs) s → f s x = .ok s' → J xs s') :
    ∀ (l : List α) (s s' : σ), l.foldlM f s = .ok s' → J l s → J [] s'
  | [], s, s', h, hj => by
    simp only [List.foldlM_nil] at h
    cases h; exact hj
  | x :: xs, s, s', h, hj => by
    rw [List.foldlM_cons] at h
    cases e : f s x with
    | error err => rw [e] at h; cases h
    | ok s1 =>
      rw [e] at h
      exact foldlM_partial J hs xs s1 s' h (hs x xs s s1 hj e)

theorem foldlM_total {α σ : Type} {f : σ → α → Res σ} (J : List α → σ → Prop)
    (hs : ∀ x xs s, J (x :: xs) s → ∃ s', f s x = .ok s' ∧ J xs s') :
    ∀ (l : List α) (s : σ), J l s → ∃ s', l.foldlM f s = .ok s' ∧ J [] s'
  | [], s, hj => ⟨s, rfl, hj⟩
  | x :: xs, s, hj => by
    obtain ⟨s1, e, h1⟩ := hs x xs s hj
    obtain ⟨s', e', h'⟩ := foldlM_total J hs xs s1 h1
    exact ⟨s', by rw [List.foldlM_cons, e]; exact e', h'⟩

/-- A sequence that returns: the first part returned. -/
theorem bind_ok {α β : Type} {m : Res α} {f : α → Res β} {b : β} (h : (m >>= f) = .ok b) : ∃ a, m = .ok a ∧ f a = .ok b := by
  cases m with
  | error e => cases h
  | ok a => exact ⟨a, rfl, h⟩

/-! ### Preparing the requests -/

/-- Facts about the ranges of the schemas. -/
theorem createRange_fits {schema : DistSchema} {v : Val V} {n i : Nat} {g : Range} (hi : i < n)
    (h : createRange schema v.rows v.cols n i = .ok g) : Fits g v ∧ g.cStart = 0 ∧ g.cLen = v.cols := by
  cases schema with
  | broadcast =>
    simp only [createRange] at h
    cases h
    exact ⟨⟨by simp, by simp⟩, rfl, rfl⟩
  | distribute =>
    simp only [createRange] at h
    rw [if_neg (by omega)] at h
    cases h
    refine ⟨⟨?_, by simp⟩, rfl, rfl⟩
    have h1 := block_le v.rows n i
    have mono : ∀ k, i + 1 ≤ k → (i + 1) * (v.rows / n) + min (i + 1) (v.rows % n) ≤ k * (v.rows / n) + min k (v.rows % n) := by
      intro k hk
      induction k, hk using Nat.le_induction with
      | base => exact Nat.le_refl _
      | succ k hk ih => exact Nat.le_trans ih (block_le v.rows n k)
    have h2 := mono n (by omega)
    rw [block_end v.rows n (by omega)] at h2
    simp only
    omega

theorem payload_eq {schema : DistSchema} {v : Val V} {n i : Nat} {g : Range} {u : Val V} (hi : i < n)
    (h : createRange schema v.rows v.cols n i = .ok g) (hp : payload schema v g = .ok u) : u = v.sub g := by
  obtain ⟨-, h1, h2⟩ := createRange_fits hi h
  cases schema with
  | broadcast =>
    simp only [createRange] at h
    cases h
    simp only [payload] at hp
    cases hp
    cases v with
    | mat m => simp [Val.sub, Mat.window, Val.rows, Val.cols]
    | scalar s => rfl
  | distribute =>
    cases v with
    | scalar s => simp [payload] at hp
    | mat m =>
      simp only [payload] at hp
      split at hp
      · cases hp
        simp only [Val.sub, h1, h2, Val.cols, Nat.zero_add]
      · cases hp

/-- What is known about a worker `a` (number `i` of `n`) after its chunk has been prepared. -/
def Chunked (schema : DistSchema) (n i a : Nat) (o o' : Obj V) (rs : List (Req V)) : Prop :=
  ∃ p ∈ o'.pls, p.loc = a ∧ createRange schema o.val.rows o.val.cols n i = .ok p.range ∧
    ((p.placed = true ∧ p ∈ o.pls) ∨ ∃ u, payload schema o.val p.range = .ok u ∧ (⟨p.id, a, u⟩ : Req V) ∈ rs)

theorem nextChunk_spec {schema : DistSchema} {n i a dp dp' : Nat} {o o' : Obj V} {p : Placement} (hc : ObjCore dp o)
    (h : nextChunk schema n i a o dp = .ok (o', p, dp')) :
    ObjCore dp' o' ∧ o'.val = o.val ∧ dp ≤ dp' ∧ p ∈ o'.pls ∧ p.loc = a ∧
      createRange schema o.val.rows o.val.cols n i = .ok p.range ∧
      (p.placed = true → p ∈ o.pls) ∧
      (∀ q ∈ o'.pls, q.loc ≠ a → q ∈ o.pls) ∧ (∀ q ∈ o.pls, q.loc ≠ a → q ∈ o'.pls) := by
  unfold nextChunk at h
  obtain ⟨g, hg, h⟩ := bind_ok h
  -- the common case: the placement of this worker is replaced
  have upd : ∀ p0 q : Placement, o.findLoc a = some p0 → q.id = p0.id → q.loc = p0.loc → q.range = g → q.placed = false →
      (o', p, dp') = (o.update p0.id (fun _ => q), q, dp) →
      ObjCore dp' o' ∧ o'.val = o.val ∧ dp ≤ dp' ∧ p ∈ o'.pls ∧ p.loc = a ∧
      createRange schema o.val.rows o.val.cols n i = .ok p.range ∧ (p.placed = true → p ∈ o.pls) ∧
      (∀ q ∈ o'.pls, q.loc ≠ a → q ∈ o.pls) ∧ (∀ q ∈ o.pls, q.loc ≠ a → q ∈ o'.pls) := by
    intro p0 q hf h1 h2 h3 h4 e
    obtain ⟨hm, hl⟩ := findLoc_some hf
    simp only [Prod.mk.injEq] at e
    obtain ⟨rfl, rfl, rfl⟩ := e
    refine ⟨update_core hc (fun p' hp' hid => ?_), rfl, Nat.le_refl _, ?_, h2.trans hl, h3 ▸ hg, by simp [h4], ?_, ?_⟩
    · have := eq_of_id hc.ids hp' hm hid
      subst this
      exact ⟨h1, h2⟩
    · have := update_mem p0.id (fun _ => p) hm
      simpa using this
    · intro q' hq' hne
      obtain ⟨q0, hq0, e⟩ := mem_update hq'
      split at e
      · subst e; exact absurd (h2.trans hl) hne
      · subst e; exact hq0
    · intro q' hq' hne
      have := update_mem p0.id (fun _ => p) hq'
      rw [if_neg] at this
      · exact this
      · intro hid
        have := eq_of_id hc.ids hq' hm hid
        subst this
        exact hne hl
  cases hf : o.findLoc a with
  | none =>
    rw [hf] at h
    simp only at h
    injection h with h
    simp only [Prod.mk.injEq] at h
    obtain ⟨rfl, rfl, rfl⟩ := h
    refine ⟨add_core hc rfl (fun q hq => findLoc_none hf hq), rfl, Nat.le_succ _, by simp [Obj.add], rfl, hg, by simp, ?_, ?_⟩
    · intro q hq hne
      simp only [Obj.add, List.mem_append, List.mem_singleton] at hq
      rcases hq with hq | rfl
      · exact hq
      · exact absurd rfl hne
    · intro q hq _
      simp only [Obj.add, List.mem_append]
      exact Or.inl hq
  | some p0 =>
    rw [hf] at h
    simp only at h
    split at h
    · split at h
      · injection h with h
        simp only [Prod.mk.injEq] at h
        obtain ⟨rfl, rfl, rfl⟩ := h
        obtain ⟨hm, hl⟩ := findLoc_some hf
        exact ⟨hc, rfl, Nat.le_refl _, hm, hl, by rw [hg, ‹p0.range = g›], fun _ => hm, fun q hq _ => hq, fun q hq _ => hq⟩
      · injection h with h
        exact upd p0 { p0 with range := g, placed := false } hf rfl rfl rfl rfl h.symm
    · injection h with h
      exact upd p0 { p0 with range := g } hf rfl rfl rfl (by simpa using ‹¬ p0.placed = true›) h.symm

theorem prepare_spec {schema : DistSchema} {n : Nat} :
    ∀ (as : List Nat) (i dp : Nat) (o : Obj V) (o' : Obj V) (dp' : Nat) (rs : List (Req V)), as.Nodup → ObjCore dp o →
      prepare schema n as i o dp = .ok (o', dp', rs) →
      ObjCore dp' o' ∧ o'.val = o.val ∧ dp ≤ dp' ∧
      (∀ j (hj : j < as.length), Chunked schema n (i + j) as[j] o o' rs) ∧
      (∀ q ∈ o'.pls, q.loc ∉ as → q ∈ o.pls) ∧ (∀ q ∈ o.pls, q.loc ∉ as → q ∈ o'.pls) ∧
      (∀ r ∈ rs, ∃ j, j < as.length ∧ ∃ p ∈ o'.pls, p.id = r.id ∧ p.loc = r.addr ∧
        createRange schema o.val.rows o.val.cols n (i + j) = .ok p.range ∧ payload schema o.val p.range = .ok r.val)
  | [], i, dp, o, o', dp', rs, _, hc, h => by
    simp only [prepare] at h
    injection h with h
    simp only [Prod.mk.injEq] at h
    obtain ⟨rfl, rfl, rfl⟩ := h
    refine ⟨hc, rfl, Nat.le_refl _, fun j hj => by simp at hj, fun q hq _ => hq, fun q hq _ => hq, fun r hr => by simp at hr⟩
  | a :: as, i, dp, o, o', dp', rs, hnd, hc, h => by
    rw [List.nodup_cons] at hnd
    unfold prepare at h
    obtain ⟨⟨o1, p, dp1⟩, h1, h⟩ := bind_ok h
    obtain ⟨c1, v1, l1, m1, loc1, g1, pl1, old1, new1⟩ := nextChunk_spec hc h1
    simp only at h
    -- both branches: the rest of the loop, with a list of requests `rs2` contained in `rs`
    have main : ∀ rs2 : List (Req V), prepare schema n as (i + 1) o1 dp1 = .ok (o', dp', rs2) →
        (∀ r ∈ rs2, r ∈ rs) →
        ((p.placed = true ∧ rs = rs2) ∨
          ∃ u, payload schema o.val p.range = .ok u ∧ rs = (⟨p.id, a, u⟩ : Req V) :: rs2) →
        ObjCore dp' o' ∧ o'.val = o.val ∧ dp ≤ dp' ∧
        (∀ j (hj : j < (a :: as).length), Chunked schema n (i + j) (a :: as)[j] o o' rs) ∧
        (∀ q ∈ o'.pls, q.loc ∉ (a :: as) → q ∈ o.pls) ∧ (∀ q ∈ o.pls, q.loc ∉ (a :: as) → q ∈ o'.pls) ∧
        (∀ r ∈ rs, ∃ j, j < (a :: as).length ∧ ∃ p ∈ o'.pls, p.id = r.id ∧ p.loc = r.addr ∧
          createRange schema o.val.rows o.val.cols n (i + j) = .ok p.range ∧ payload schema o.val p.range = .ok r.val) := by
      intro rs2 hr hsub hcase
      obtain ⟨c2, v2, l2, ch2, old2, new2, req2⟩ := prepare_spec as (i + 1) dp1 o1 o' dp' rs2 hnd.2 c1 hr
      have hpm : p ∈ o'.pls := new2 p m1 (by rw [loc1]; exact hnd.1)
      refine ⟨c2, v2.trans v1, Nat.le_trans l1 l2, ?_, ?_, ?_, ?_⟩
      · intro j hj
        cases j with
        | zero =>
          refine ⟨p, hpm, loc1, g1, ?_⟩
          rcases hcase with ⟨hp, -⟩ | ⟨u, hu, e⟩
          · exact Or.inl ⟨hp, pl1 hp⟩
          · exact Or.inr ⟨u, hu, by rw [e]; simp⟩
        | succ j =>
          simp only [List.length_cons] at hj
          obtain ⟨q, hq, hl, hg, hx⟩ := ch2 j (by omega)
          simp only [List.getElem_cons_succ]
          rw [v1] at hg hx
          refine ⟨q, hq, hl, by rw [show i + (j + 1) = i + 1 + j by omega]; exact hg, ?_⟩
          rcases hx with ⟨h1', h2'⟩ | ⟨u, hu, hm⟩
          · refine Or.inl ⟨h1', old1 q h2' ?_⟩
            rw [hl]
            intro e
            exact hnd.1 (e ▸ List.getElem_mem _)
          · exact Or.inr ⟨u, hu, hsub _ hm⟩
      · intro q hq hn
        simp only [List.mem_cons, not_or] at hn
        exact old1 q (old2 q hq hn.2) hn.1
      · intro q hq hn
        simp only [List.mem_cons, not_or] at hn
        exact new2 q (new1 q hq hn.1) hn.2
      · intro r hr'
        have old : r ∈ rs2 → ∃ j, j < (a :: as).length ∧ ∃ p ∈ o'.pls, p.id = r.id ∧ p.loc = r.addr ∧
            createRange schema o.val.rows o.val.cols n (i + j) = .ok p.range ∧ payload schema o.val p.range = .ok r.val := by
          intro hr2
          obtain ⟨j, hj, q, hq, e1, e2, e3, e4⟩ := req2 r hr2
          rw [v1] at e3 e4
          exact ⟨j + 1, by simpa using hj, q, hq, e1, e2, by rw [show i + (j + 1) = i + 1 + j by omega]; exact e3, e4⟩
        rcases hcase with ⟨-, e⟩ | ⟨u, hu, e⟩
        · exact old (e ▸ hr')
        · rw [e, List.mem_cons] at hr'
          rcases hr' with rfl | hr'
          · exact ⟨0, by simp, p, hpm, rfl, loc1, g1, hu⟩
          · exact old hr'
    split at h
    · exact main rs h (fun r hr => hr) (Or.inl ⟨‹_›, rfl⟩)
    · obtain ⟨u, hu, h⟩ := bind_ok h
      obtain ⟨⟨o2, dp2, rs2⟩, h2, h⟩ := bind_ok h
      simp only at h
      injection h with h
      simp only [Prod.mk.injEq] at h
      obtain ⟨rfl, rfl, rfl⟩ := h
      exact main rs2 h2 (fun r hr => by simp [hr]) (Or.inr ⟨u, by rw [← v1]; exact hu, rfl⟩)

/-! ### Sending -/

theorem store_ext {W : Nat → Worker V} (hw : ∀ a i, (W a).counter ≤ i → (W a).data i = none) (a : Nat) (v : Val V) :
    Ext W (fun b => if b = a then (W a).store v else W b) := by
  intro b i u h
  by_cases hb : b = a
  · subst hb
    simp only [if_true, Worker.store]
    by_cases hi : i = (W b).counter
    · subst hi
      rw [hw b _ (Nat.le_refl _)] at h
      cases h
    · rw [if_neg hi]; exact h
  · simp only [if_neg hb]; exact h

theorem store_wfresh {W : Nat → Worker V} (hw : ∀ a i, (W a).counter ≤ i → (W a).data i = none) (a : Nat) (v : Val V) :
    ∀ b i, ((fun b => if b = a then (W a).store v else W b) b).counter ≤ i →
      ((fun b => if b = a then (W a).store v else W b) b).data i = none := by
  intro b i h
  by_cases hb : b = a
  · subst hb
    simp only [if_true, Worker.store] at h ⊢
    rw [if_neg (by omega)]
    exact hw b i (by omega)
  · simp only [if_neg hb] at h ⊢; exact hw b i h

/-- The state while responses are outstanding. -/
structure Sending (ref : Nat) (v : Val V) (ws : List Nat) (rng : Placement → Prop) (w0 : World V) (rs : List (Req V)) (w : World V) : Prop where
  wfresh : ∀ a i, (w.workers a).counter ≤ i → (w.workers a).data i = none
  ext : Ext w0.workers w.workers
  others : ∀ r, r ≠ ref → w.objs r = w0.objs r
  dp : w.nextDp = w0.nextDp
  nref : w.nextRef = w0.nextRef
  obj : ∃ o, w.objs ref = some o ∧ o.val = v ∧ ObjCore w.nextDp o ∧
    (∀ a ∈ ws, ∃ p ∈ o.pls, p.loc = a) ∧
    (∀ p ∈ o.pls, p.loc ∈ ws → rng p) ∧
    (∀ p ∈ o.pls, (p.loc ∈ ws ∧ ∃ r ∈ rs, r.id = p.id) ∨
      ((p.loc ∈ ws → p.placed = true) ∧ (p.placed = true → Backed w.workers v p))) ∧
    (∀ r ∈ rs, ∃ p ∈ o.pls, p.id = r.id ∧ p.loc = r.addr ∧ (Fits p.range v → r.val = v.sub p.range))

theorem finishStore_spec {ref : Nat} {v : Val V} {ws : List Nat} {rng : Placement → Prop} {w0 : World V} {r : Req V} {rs : List (Req V)} {w w' : World V}
    (hrng : ∀ p i, rng p → rng { p with ident := i, placed := true })
    (hj : Sending ref v ws rng w0 (r :: rs) w) (h : finishStore ref w r = .ok w') : Sending ref v ws rng w0 rs w' := by
  obtain ⟨o, ho, hv, hc, hex, hr, hp, hq⟩ := hj.obj
  unfold finishStore at h
  rw [ho] at h
  simp only at h
  injection h with h
  subst h
  obtain ⟨p0, hp0, i0, l0, s0⟩ := hq r (by simp)
  have hext := store_ext hj.wfresh r.addr r.val
  refine ⟨?_, ?_, ?_, hj.dp, hj.nref, ?_⟩
  · exact store_wfresh hj.wfresh r.addr r.val
  · exact hj.ext.trans hext
  · intro r' hr'
    simp only [World.setObj, World.setWorker, if_neg hr']
    exact hj.others r' hr'
  · refine ⟨o.update r.id (fun p => { p with ident := some (w.workers r.addr).counter, placed := true }), by simp [World.setObj], hv, update_core hc (fun p _ _ => ⟨rfl, rfl⟩), ?_, ?_, ?_, ?_⟩
    · intro a ha
      obtain ⟨p, hpm, hl⟩ := hex a ha
      refine ⟨_, update_mem r.id _ hpm, ?_⟩
      split <;> exact hl
    · intro p hpm hl
      obtain ⟨q, hqm, rfl⟩ := mem_update hpm
      split at hl
      · rename_i hid
        rw [if_pos hid]
        exact hrng q _ (hr q hqm hl)
      · rename_i hid
        rw [if_neg hid]
        exact hr q hqm hl
    · intro p hpm
      obtain ⟨q, hqm, rfl⟩ := mem_update hpm
      by_cases hid : q.id = r.id
      · have : q = p0 := eq_of_id hc.ids hqm hp0 (hid.trans i0.symm)
        subst this
        rw [if_pos hid]
        refine Or.inr ⟨fun _ => rfl, fun _ => ⟨(w.workers r.addr).counter, r.val, rfl, ?_, s0⟩⟩
        simp [World.setObj, World.setWorker, l0, Worker.store]
      · rw [if_neg hid]
        rcases hp q hqm with ⟨hl, r', hr', e⟩ | ⟨h1, h2⟩
        · simp only [List.mem_cons] at hr'
          rcases hr' with rfl | hr'
          · exact absurd e.symm hid
          · exact Or.inl ⟨hl, r', hr', e⟩
        · exact Or.inr ⟨h1, fun hpl => (h2 hpl).ext hext⟩
    · intro r' hr'
      obtain ⟨q, hqm, e1, e2, e3⟩ := hq r' (by simp [hr'])
      refine ⟨_, update_mem r.id _ hqm, ?_⟩
      split
      · exact ⟨e1, e2, e3⟩
      · exact ⟨e1, e2, e3⟩

theorem Sending.perm {ref : Nat} {v : Val V} {ws : List Nat} {rng : Placement → Prop} {w0 : World V} {rs rs' : List (Req V)} {w : World V}
    (h : Sending ref v ws rng w0 rs w) (e : rs'.Perm rs) : Sending ref v ws rng w0 rs' w := by
  obtain ⟨o, ho, hv, hc, hex, hr, hp, hq⟩ := h.obj
  refine ⟨h.wfresh, h.ext, h.others, h.dp, h.nref, o, ho, hv, hc, hex, hr, fun p hpm => ?_, fun r hr => hq r (e.mem_iff.1 hr)⟩
  rcases hp p hpm with ⟨hl, r, hr, e'⟩ | h'
  · exact Or.inl ⟨hl, r, e.mem_iff.2 hr, e'⟩
  · exact Or.inr h'

/-- Every worker of `ws` has the data of the object in the way the schema says. -/
def AtWorkers (schema : DistSchema) (ws : List Nat) (w : World V) (ref : Nat) (v : Val V) : Prop :=
  ∃ o, w.objs ref = some o ∧ o.val = v ∧
    ∀ i (hi : i < ws.length), ∃ p ∈ o.pls, p.loc = ws[i] ∧ createRange schema v.rows v.cols ws.length i = .ok p.range ∧
      p.placed = true ∧ ∃ id, p.ident = some id ∧ (w.workers ws[i]).data id = some (v.sub p.range)

/-- Sending an input: the workers have it afterwards, nothing else changes. -/
theorem place_spec {schema : DistSchema} {ws : List Nat} (hws : ws.Nodup) {ord : Order} (hord : ord.Valid) {k ref : Nat} {w w' : World V}
    (hinv : Inv (fun _ => False) w) {o : Obj V} (ho : w.objs ref = some o) (h : place schema ws ord k ref w = .ok w') :
    Inv (fun _ => False) w' ∧ Ext w.workers w'.workers ∧ (∀ r, r ≠ ref → w'.objs r = w.objs r) ∧ w'.nextRef = w.nextRef ∧
      w.nextDp ≤ w'.nextDp ∧ AtWorkers schema ws w' ref o.val := by
  unfold place at h
  rw [ho] at h
  simp only at h
  obtain ⟨⟨o1, dp1, rs⟩, hprep, h⟩ := bind_ok h
  simp only at h
  obtain ⟨c1, v1, l1, ch1, old1, new1, req1⟩ := prepare_spec ws 0 w.nextDp o o1 dp1 rs hws (hinv.core ref o ho) hprep
  let rng : Placement → Prop := fun p => ∀ i (hi : i < ws.length), ws[i] = p.loc →
    createRange schema o.val.rows o.val.cols ws.length i = .ok p.range
  have hbase : Sending ref o.val ws rng { (w.setObj ref o1) with nextDp := dp1 } rs { (w.setObj ref o1) with nextDp := dp1 } := by
    refine ⟨hinv.wfresh, Ext.refl _, fun _ _ => rfl, rfl, rfl, o1, by simp [World.setObj], v1, c1, ?_, ?_, ?_, ?_⟩
    · intro a ha
      obtain ⟨i, hi, rfl⟩ := List.getElem_of_mem ha
      obtain ⟨p, hp, hl, -⟩ := ch1 i hi
      exact ⟨p, hp, hl⟩
    · intro p hp hl i hi hpi
      obtain ⟨q, hq, hql, hg, -⟩ := ch1 i hi
      have := eq_of_loc c1.locs hp hq (hpi.symm.trans hql.symm)
      subst this
      simpa using hg
    · intro p hp
      by_cases hl : p.loc ∈ ws
      · obtain ⟨i, hi, hpi⟩ := List.getElem_of_mem hl
        obtain ⟨q, hq, hql, -, hx⟩ := ch1 i hi
        have := eq_of_loc c1.locs hp hq (hpi.symm.trans hql.symm)
        subst this
        rcases hx with ⟨h1, h2⟩ | ⟨u, -, hr⟩
        · exact Or.inr ⟨fun _ => h1, fun _ => hinv.backed ref o ho (fun f => f) p h2 h1⟩
        · exact Or.inl ⟨hl, _, hr, rfl⟩
      · exact Or.inr ⟨fun hm => absurd hm hl, fun hpl => hinv.backed ref o ho (fun f => f) p (old1 p hp hl) hpl⟩
    · intro r hr
      obtain ⟨j, hj, p, hp, e1, e2, e3, e4⟩ := req1 r hr
      exact ⟨p, hp, e1, e2, fun _ => payload_eq (by omega) e3 e4⟩
  have hfin := foldlM_partial (Sending ref o.val ws rng { (w.setObj ref o1) with nextDp := dp1 })
    (fun x xs s s' hJ he => finishStore_spec (fun p i hp => hp) hJ he) _ _ _ h (hbase.perm (hord _ _ _))
  obtain ⟨o2, ho2, hv2, hc2, hex, hr2, hp2, -⟩ := hfin.obj
  have hb2 : ∀ p ∈ o2.pls, (p.loc ∈ ws → p.placed = true) ∧ (p.placed = true → Backed w'.workers o.val p) := by
    intro p hp
    rcases hp2 p hp with ⟨-, r, hr, -⟩ | h'
    · simp at hr
    · exact h'
  have hothers : ∀ r, r ≠ ref → w'.objs r = w.objs r := by
    intro r hr
    rw [hfin.others r hr]
    simp [World.setObj, hr]
  have hdp : w'.nextDp = dp1 := hfin.dp
  refine ⟨⟨?_, hfin.wfresh, ?_, ?_⟩, hfin.ext, hothers, hfin.nref, by rw [hdp]; exact l1, ?_⟩
  · intro r hr
    have hnr : w'.nextRef = w.nextRef := hfin.nref
    rw [hnr] at hr
    by_cases e : r = ref
    · subst e
      rw [hinv.fresh r hr] at ho
      cases ho
    · rw [hothers r e]; exact hinv.fresh r hr
  · intro r o' ho'
    by_cases e : r = ref
    · subst e
      rw [ho2] at ho'
      cases ho'
      exact hc2
    · rw [hothers r e] at ho'
      exact (hinv.core r o' ho').mono (by rw [hdp]; exact l1)
  · intro r o' ho' _ p hp hpl
    by_cases e : r = ref
    · subst e
      rw [ho2] at ho'
      cases ho'
      rw [hv2]
      exact (hb2 p hp).2 hpl
    · rw [hothers r e] at ho'
      exact (hinv.backed r o' ho' (fun f => f) p hp hpl).ext hfin.ext
  · refine ⟨o2, ho2, hv2, fun i hi => ?_⟩
    obtain ⟨p, hp, hl⟩ := hex ws[i] (List.getElem_mem _)
    have hg := hr2 p hp (hl ▸ List.getElem_mem _) i hi hl.symm
    obtain ⟨id, u, h1, h2, h3⟩ := (hb2 p hp).2 ((hb2 p hp).1 (hl ▸ List.getElem_mem _))
    refine ⟨p, hp, hl, hg, (hb2 p hp).1 (hl ▸ List.getElem_mem _), id, h1, ?_⟩
    rw [← hl, h2, h3 (createRange_fits hi hg).1]

end Verif.Dist
