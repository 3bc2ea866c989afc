import Verif.Dist.Run
/-
  The phases of a whole pipeline, and the invariant along a history.
-/
namespace Verif.Dist
open Verif Verif.Dense Verif.Sched

variable {V : Type}

/-! ### Allocation of the outputs -/

theorem alloc_inv {w : World V} (h : Inv (fun _ => False) w) (v : Val V) : Inv (fun _ => False) (w.alloc v) := by
  refine ⟨fun r hr => ?_, h.wfresh, fun r o ho => ?_, fun r o ho _ p hp hpl => ?_⟩
  · simp only [World.alloc] at hr ⊢
    rw [if_neg (by omega)]
    exact h.fresh r (by omega)
  · simp only [World.alloc] at ho ⊢
    split at ho
    · cases ho
      exact ⟨by simp, by simp, by simp⟩
    · exact h.core r o ho
  · simp only [World.alloc] at ho ⊢
    split at ho
    · cases ho
      simp at hp
    · exact h.backed r o ho (by simp) p hp hpl

/-- What is known about an allocated output. -/
def Allocated [Zero V] (w : World V) (x : Combine × Option (Nat × Nat)) (y : Nat × Combine) : Prop :=
  y.2 = x.1 ∧ ∀ r c, x.2 = some (r, c) → ∃ cell, w.objs y.1 = some ⟨.mat ⟨r, c, cell⟩, []⟩ ∧ (x.1 = .add → ∀ i j, cell i j = 0)

theorem allocOuts_spec [Zero V] (junk : Nat → Nat → V) :
    ∀ (outs : List (Combine × Option (Nat × Nat))) (w : World V), Inv (fun _ => False) w →
      Inv (fun _ => False) (allocOuts junk outs w).1 ∧ (allocOuts junk outs w).1.workers = w.workers ∧
      (allocOuts junk outs w).1.nextRef = w.nextRef + outs.length ∧
      (∀ r, r < w.nextRef → (allocOuts junk outs w).1.objs r = w.objs r) ∧
      (allocOuts junk outs w).2.map Prod.fst = List.range' w.nextRef outs.length ∧
      List.Forall₂ (Allocated (allocOuts junk outs w).1) outs (allocOuts junk outs w).2
  | [], w, h => ⟨h, rfl, rfl, fun _ _ => rfl, rfl, .nil⟩
  | (comb, some (r, c)) :: rest, w, h => by
    obtain ⟨a1, a2, a3, a4, a5, a6⟩ := allocOuts_spec junk rest _ (alloc_inv h (.mat ⟨r, c, if comb = .add then fun _ _ => 0 else junk⟩))
    simp only [allocOuts, List.map_cons, List.length_cons, List.range'_succ]
    refine ⟨a1, a2, ?_, fun q hq => ?_, ?_, .cons ⟨rfl, fun r' c' e => ?_⟩ a6⟩
    · rw [a3]; simp only [World.alloc]; omega
    · rw [a4 q (by simp only [World.alloc]; omega)]
      simp only [World.alloc]
      rw [if_neg (by omega)]
    · rw [a5]; rfl
    · cases e
      refine ⟨_, by rw [a4 _ (by simp only [World.alloc]; omega)]; simp only [World.alloc, if_true]; rfl, fun e i j => ?_⟩
      rw [if_pos e]
  | (comb, none) :: rest, w, h => by
    have h' : Inv (fun _ => False) ({ w with nextRef := w.nextRef + 1 } : World V) :=
      ⟨fun r hr => h.fresh r (by simp only at hr; omega), h.wfresh, h.core, h.backed⟩
    obtain ⟨a1, a2, a3, a4, a5, a6⟩ := allocOuts_spec junk rest _ h'
    simp only [allocOuts, List.map_cons, List.length_cons, List.range'_succ]
    refine ⟨a1, a2, ?_, fun q hq => ?_, ?_, .cons ⟨rfl, fun r' c' e => by cases e⟩ a6⟩
    · rw [a3]; simp only; omega
    · exact a4 q (by simp only; omega)
    · rw [a5]

/-! ### Placing the inputs -/

theorem forall₂_mem_left {α β : Type} {R : α → β → Prop} {l : List α} {l' : List β} (h : List.Forall₂ R l l') {a : α} (ha : a ∈ l) :
    ∃ b, R a b := by
  induction h with
  | nil => simp at ha
  | cons hr _ ih =>
    simp only [List.mem_cons] at ha
    rcases ha with rfl | ha
    · exact ⟨_, hr⟩
    · exact ih ha

theorem place_inv {schema : DistSchema} {ws : List Nat} (hws : ws.Nodup) {ord : Order} (hord : ord.Valid) {k ref : Nat} {w w' : World V}
    (hinv : Inv (fun _ => False) w) (h : place schema ws ord k ref w = .ok w') : Inv (fun _ => False) w' := by
  cases ho : w.objs ref with
  | none => unfold place at h; rw [ho] at h; cases h
  | some o => exact (place_spec hws hord hinv ho h).1

theorem placeInputs_inv {ws : List Nat} (hws : ws.Nodup) {ord : Order} (hord : ord.Valid) :
    ∀ (ins : List (In V × Split)) (k : Nat) (w w' : World V) (refs : List Nat), Inv (fun _ => False) w →
      placeInputs ws ord ins k w = .ok (w', refs) → Inv (fun _ => False) w'
  | [], _, w, w', refs, hi, h => by
    simp only [placeInputs] at h
    cases h; exact hi
  | (.scalar v, .none) :: rest, k, w, w', refs, hi, h => by
    simp only [placeInputs] at h
    obtain ⟨w1, h1, h⟩ := bind_ok h
    obtain ⟨⟨w2, r2⟩, h2, h⟩ := bind_ok h
    cases h
    exact placeInputs_inv hws hord rest (k + 1) w1 _ r2 (place_inv hws hord (alloc_inv hi _) h1) h2
  | (.scalar v, .rows) :: rest, k, w, w', refs, hi, h => by
    simp only [placeInputs] at h
    cases h
  | (.obj ref, split) :: rest, k, w, w', refs, hi, h => by
    simp only [placeInputs] at h
    split at h
    · cases h
    · obtain ⟨w1, h1, h⟩ := bind_ok h
      obtain ⟨⟨w2, r2⟩, h2, h⟩ := bind_ok h
      cases h
      exact placeInputs_inv hws hord rest (k + 1) w1 _ r2 (place_inv hws hord hi h1) h2

/-- What worker number `i` of `n` gets of an input. -/
def piece (n i : Nat) (x : Val V × Split) : Val V :=
  if x.2 = .rows ∧ x.1.rows ≠ 1 then x.1.rowsOf (blk x.1.rows n i) (blk x.1.rows n (i + 1)) else x.1

/-- The inputs and their contents. -/
def Ins (w : World V) (inputs : List (In V × Split)) (ins : List (Val V × Split)) : Prop :=
  List.Forall₂ (fun x y => x.1.Holds w y.1 ∧ x.2 = y.2) inputs ins

/-- Row-split inputs are matrices with a single row or enough rows for all workers. -/
def Enough (n : Nat) (ins : List (Val V × Split)) : Prop :=
  ∀ v, (v, Split.rows) ∈ ins → (∃ m, v = .mat m) ∧ (v.rows = 1 ∨ n ≤ v.rows)

theorem sub_full (v : Val V) : v.sub ⟨0, 0, v.rows, v.cols⟩ = v := by
  cases v with
  | scalar s => rfl
  | mat m => simp [Val.sub, Mat.window, Val.rows, Val.cols]

theorem provides_of {schema : DistSchema} {ws : List Nat} {w : World V} {ref : Nat} {v : Val V} {split : Split}
    (h : AtWorkers schema ws w ref v) (hs : schema = if isBroadcast split v.rows then .broadcast else .distribute)
    {i : Nat} (hi : i < ws.length) : Provides w ws[i] ref (piece ws.length i (v, split)) := by
  obtain ⟨o, ho, hv, hp⟩ := h
  obtain ⟨p, hpm, hl, hg, -, id, hid, hd⟩ := hp i hi
  refine ⟨o, p, ho, hpm, hl, id, hid, ?_⟩
  rw [hd]
  congr 1
  unfold piece isBroadcast at *
  by_cases hc : split = .rows ∧ v.rows ≠ 1
  · rw [if_pos hc]
    have : schema = .distribute := by rw [hs, if_neg]; simp [hc.1, hc.2]
    subst this
    rw [createRange_distribute (by omega)] at hg
    injection hg with hg
    rw [← hg]
    cases v with
    | scalar s => rfl
    | mat m =>
      simp only [Val.sub, Val.rowsOf, Nat.zero_add]
      rw [Nat.add_sub_cancel' (blk_le_succ _ _ _)]
      rfl
  · rw [if_neg hc]
    have : schema = .broadcast := by
      rw [hs, if_pos]
      cases split with
      | none => rfl
      | rows => simp only [true_and, not_not] at hc; simp [hc]
    subst this
    simp only [createRange] at hg
    injection hg with hg
    rw [← hg]
    exact sub_full v

theorem Provides.mono {w w' : World V} {a ref : Nat} {u : Val V} (h : Provides w a ref u) (ho : w'.objs ref = w.objs ref)
    (he : Ext w.workers w'.workers) : Provides w' a ref u := by
  obtain ⟨o, p, h1, h2, h3, id, h4, h5⟩ := h
  exact ⟨o, p, ho.trans h1, h2, h3, id, h4, he _ _ _ h5⟩

/-- What placing the inputs achieves. -/
structure Placed (ws : List Nat) (inputs : List (In V × Split)) (ins : List (Val V × Split)) (w : World V) (refs : List Nat) (w' : World V) :
    Prop where
  inv : Inv (fun _ => False) w'
  ext : Ext w.workers w'.workers
  nref : w.nextRef ≤ w'.nextRef
  others : ∀ r, r < w.nextRef → (∀ s, (In.obj r, s) ∉ inputs) → w'.objs r = w.objs r
  vals : ∀ r o, w.objs r = some o → ∃ o', w'.objs r = some o' ∧ o'.val = o.val
  refsIn : ∀ r ∈ refs, (∃ s, (In.obj r, s) ∈ inputs) ∨ w.nextRef ≤ r
  provides : ∀ i (hi : i < ws.length), List.Forall₂ (Provides w' ws[i]) refs (ins.map (piece ws.length i))

theorem placeInputs_ok {ws : List Nat} (hws : ws.Nodup) {ord : Order} (hord : ord.Valid) :
    ∀ (inputs : List (In V × Split)) (ins : List (Val V × Split)) (k : Nat) (w : World V), Inv (fun _ => False) w →
      Ins w inputs ins → Enough ws.length ins → (inputs.map Prod.fst).Nodup →
      ∃ w' refs, placeInputs ws ord inputs k w = .ok (w', refs) ∧ Placed ws inputs ins w refs w'
  | _, _, k, w, hi, .nil, _, _ => by
    refine ⟨w, [], by simp only [placeInputs], hi, Ext.refl _, Nat.le_refl _, fun _ _ _ => rfl, fun r o ho => ⟨o, ho, rfl⟩, by simp, fun i hi => .nil⟩
  | _, _, k, w, hi, .cons (a := (x, split)) (b := (v, split')) (l₁ := inputs) (l₂ := ins) ⟨hx, hs⟩ t, he, hnd => by
    simp only at hx hs
    subst hs
    rw [List.map_cons, List.nodup_cons] at hnd
    have he' : Enough ws.length ins := fun u hu => he u (by simp [hu])
    -- the rest, from a state in which only `ref` has changed
    have main : ∀ (ref : Nat) (w0 w1 : World V) (schema : DistSchema), Inv (fun _ => False) w0 →
        (∃ o, w0.objs ref = some o ∧ o.val = v) → schema = (if isBroadcast split v.rows then .broadcast else .distribute) →
        w0.workers = w.workers → w.nextRef ≤ w0.nextRef → (∀ r, r < w.nextRef → w0.objs r = w.objs r) →
        (x = .obj ref ∨ (w.nextRef = ref ∧ ∃ s, x = .scalar s)) → place schema ws ord k ref w0 = .ok w1 →
        ∃ w' refs, placeInputs ws ord inputs (k + 1) w1 = .ok (w', refs) ∧ Placed ws ((x, split) :: inputs) ((v, split) :: ins) w (ref :: refs) w' := by
      intro ref w0 w1 schema hi0 ⟨o, ho, hov⟩ hsch hwk hnr hob hx' h1
      obtain ⟨i1, e1, oth1, nr1, -, at1⟩ := place_spec hws hord hi0 ho h1
      rw [hov] at at1
      have hvals1 : ∀ r o', w0.objs r = some o' → ∃ o'', w1.objs r = some o'' ∧ o''.val = o'.val := by
        intro r o' ho'
        by_cases e : r = ref
        · subst e
          rw [ho] at ho'
          cases ho'
          obtain ⟨o2, ho2, hv2, -⟩ := at1
          exact ⟨o2, ho2, hv2.trans hov.symm⟩
        · exact ⟨o', by rw [oth1 r e]; exact ho', rfl⟩
      have hlt : ∀ r o', w.objs r = some o' → r < w.nextRef := by
        intro r o' ho'
        by_contra hn
        rw [hi.fresh r (by omega)] at ho'
        cases ho'
      have hvals : ∀ r o', w.objs r = some o' → ∃ o'', w1.objs r = some o'' ∧ o''.val = o'.val := by
        intro r o' ho'
        exact hvals1 r o' (by rw [hob r (hlt r o' ho')]; exact ho')
      have hins1 : Ins w1 inputs ins := by
        refine List.Forall₂.imp ?_ t
        rintro ⟨y, s⟩ ⟨u, s'⟩ ⟨h1, h2⟩
        refine ⟨?_, h2⟩
        cases y with
        | scalar q => exact h1
        | obj q =>
          obtain ⟨o', ho', hv'⟩ := h1
          obtain ⟨o'', ho'', hv''⟩ := hvals q o' ho'
          exact ⟨o'', ho'', hv''.trans hv'⟩
      obtain ⟨w', refs, hp, P⟩ := placeInputs_ok hws hord inputs ins (k + 1) w1 i1 hins1 he' hnd.2
      have hreflt : ref < w1.nextRef := by
        by_contra hn
        obtain ⟨o2, ho2, -⟩ := at1
        rw [i1.fresh ref (by omega)] at ho2
        cases ho2
      have hrefnot : ∀ s, (In.obj ref, s) ∉ inputs := by
        intro s hs
        rcases hx' with rfl | ⟨e, s', rfl⟩
        · exact hnd.1 (List.mem_map.2 ⟨_, hs, rfl⟩)
        · obtain ⟨y, h, -⟩ := forall₂_mem_left t hs
          obtain ⟨o', ho', -⟩ := h
          have := hlt _ _ ho'
          omega
      refine ⟨w', refs, hp, P.inv, ?_, ?_, ?_, ?_, ?_, ?_⟩
      · rw [← hwk]; exact e1.trans P.ext
      · have := P.nref; omega
      · intro r hr hno
        have hrr : r ≠ ref := by
          rintro rfl
          rcases hx' with rfl | ⟨e, -⟩
          · exact hno split (by simp)
          · omega
        rw [P.others r (by omega) (fun s hs => hno s (by simp [hs])), oth1 r hrr, hob r hr]
      · intro r o' ho'
        obtain ⟨o'', ho'', hv''⟩ := hvals r o' ho'
        obtain ⟨o3, ho3, hv3⟩ := P.vals r o'' ho''
        exact ⟨o3, ho3, hv3.trans hv''⟩
      · intro r hr
        simp only [List.mem_cons] at hr
        rcases hr with rfl | hr
        · rcases hx' with rfl | ⟨e, -⟩
          · exact Or.inl ⟨split, by simp⟩
          · exact Or.inr (by omega)
        · rcases P.refsIn r hr with ⟨s, hs⟩ | h
          · exact Or.inl ⟨s, by simp [hs]⟩
          · exact Or.inr (by omega)
      · intro i hil
        refine .cons ?_ (P.provides i hil)
        exact (provides_of at1 hsch hil).mono (P.others ref hreflt hrefnot) P.ext
    cases x with
    | scalar s =>
      simp only [In.Holds] at hx
      subst hx
      cases split with
      | rows =>
        obtain ⟨⟨m, hm⟩, -⟩ := he (.scalar s) (by simp)
        cases hm
      | none =>
        have ho : (w.alloc (.scalar s)).objs w.nextRef = some ⟨.scalar s, []⟩ := by simp [World.alloc]
        obtain ⟨w1, h1⟩ := place_ok (schema := .broadcast) (ws := ws) (ord := ord) (k := k) ho ((alloc_inv hi _).core _ _ ho) (Or.inl rfl)
        obtain ⟨w', refs, hp, P⟩ := main w.nextRef _ w1 .broadcast (alloc_inv hi (.scalar s)) ⟨_, ho, rfl⟩ (by simp [isBroadcast]) rfl
          (by simp [World.alloc]) (fun r hr => by simp only [World.alloc]; rw [if_neg (by omega)]) (Or.inr ⟨rfl, s, rfl⟩) h1
        refine ⟨w', w.nextRef :: refs, ?_, P⟩
        simp only [placeInputs, h1, Res.ok_bind, hp]
    | obj ref =>
      obtain ⟨o, ho, hov⟩ := hx
      have hsend : Sendable (if isBroadcast split o.val.rows then .broadcast else .distribute) ws.length o.val := by
        unfold isBroadcast
        cases split with
        | none => exact Or.inl rfl
        | rows =>
          obtain ⟨⟨m, hm⟩, h⟩ := he v (by simp)
          rw [hov]
          rcases h with h | h
          · exact Or.inl (by simp [h])
          · exact Or.inr ⟨⟨m, hm⟩, h⟩
      obtain ⟨w1, h1⟩ := place_ok (ws := ws) (ord := ord) (k := k) ho (hi.core _ _ ho) hsend
      obtain ⟨w', refs, hp, P⟩ := main ref w w1 _ hi ⟨o, ho, hov⟩ (by rw [hov]) rfl (Nat.le_refl _) (fun _ _ => rfl) (Or.inl rfl) h1
      refine ⟨w', ref :: refs, ?_, P⟩
      simp only [placeInputs, ho, h1, Res.ok_bind, hp]

/-! ### Fetching all outputs -/

theorem collectAll_inv [Add V] {ord : Order} (hord : ord.Valid) :
    ∀ (outs : List (Nat × Combine)) (k : Nat) (w w' : World V) (S : Nat → Prop), Inv S w → collectAll ord outs k w = .ok w' →
      Inv (fun r => S r ∧ r ∉ outs.map Prod.fst) w'
  | [], _, w, w', S, hi, h => by
    simp only [collectAll] at h
    cases h
    exact hi.weaken (fun r hr => ⟨hr, by simp⟩)
  | (ref, comb) :: rest, k, w, w', S, hi, h => by
    simp only [collectAll] at h
    obtain ⟨w1, h1, h⟩ := bind_ok h
    have := collectAll_inv hord rest (k + 1) w1 w' _ (collect_inv hord hi h1).1 h
    refine this.weaken (fun r hr => ⟨hr.1.1, ?_⟩)
    simp only [List.map_cons, List.mem_cons, not_or]
    exact ⟨hr.1.2, hr.2⟩

/-- One output can be fetched with the right result. -/
def Fetchable [AddCommMonoid V] (w : World V) (ref : Nat) (comb : Combine) (F : Mat V) : Prop :=
  ∃ o m, w.objs ref = some o ∧ o.val = .mat m ∧ m.rows = F.rows ∧ m.cols = F.cols ∧
    ((comb ≠ .add ∧
      (∀ p ∈ o.pls, p.range.rStart + p.range.rLen ≤ F.rows ∧ p.range.cStart + p.range.cLen ≤ F.cols ∧
        ∃ c, Fetched w p c ∧ p.range.rLen ≤ c.rows ∧ p.range.cLen ≤ c.cols ∧
          ∀ i j, i < p.range.rLen → j < p.range.cLen → c.cell i j = F.cell (p.range.rStart + i) (p.range.cStart + j)) ∧
      ∀ i j, i < F.rows → j < F.cols → ∃ p ∈ o.pls, (p.range.rStart ≤ i ∧ i < p.range.rStart + p.range.rLen) ∧
        (p.range.cStart ≤ j ∧ j < p.range.cStart + p.range.cLen)) ∨
     (comb = .add ∧ (∀ i j, m.cell i j = 0) ∧ ∃ G : Nat → Mat V,
      (∀ p ∈ o.pls, Fetched w p (G p.loc) ∧ (G p.loc).rows = F.rows ∧ (G p.loc).cols = F.cols) ∧
      ∀ i j, i < F.rows → j < F.cols → ((o.pls.map (·.loc)).map (fun a => (G a).cell i j)).sum = F.cell i j))

theorem Fetchable.mono [AddCommMonoid V] {w w' : World V} {ref : Nat} {comb : Combine} {F : Mat V} (h : Fetchable w ref comb F)
    (ho : w'.objs ref = w.objs ref) (hw : w'.workers = w.workers) : Fetchable w' ref comb F := by
  unfold Fetchable Fetched at *
  rw [ho, hw]
  exact h

theorem collectAll_ok [AddCommMonoid V] {ord : Order} (hord : ord.Valid) :
    ∀ (outs : List (Nat × Combine)) (Fs : List (Mat V)) (k : Nat) (w : World V) (S : Nat → Prop), Inv S w → (outs.map Prod.fst).Nodup →
      List.Forall₂ (fun x F => Fetchable w x.1 x.2 F) outs Fs →
      ∃ w', collectAll ord outs k w = .ok w' ∧ List.Forall₂ (fun x F => w'.HasMat x.1 F) outs Fs ∧
        ∀ r, r ∉ outs.map Prod.fst → w'.objs r = w.objs r
  | [], _, k, w, S, hi, _, ht => by
    cases ht
    exact ⟨w, by simp only [collectAll], .nil, fun _ _ => rfl⟩
  | (ref, comb) :: outs, _, k, w, S, hi, hnd, ht => by
    cases ht with
    | @cons _ F _ Fs hF t =>
    rw [List.map_cons, List.nodup_cons] at hnd
    obtain ⟨o, m, ho, hv, hR, hC, hcase⟩ := hF
    simp only at hcase
    have h1 : ∃ w1, collect ord k ref comb w = .ok w1 ∧ w1.HasMat ref F := by
      rcases hcase with ⟨hne, hp, hcov⟩ | ⟨rfl, hz, G, hp, hsum⟩
      · exact collect_rc hord hne ho hv (hi.core _ _ ho) hR hC hp hcov
      · exact collect_add hord ho hv (hi.core _ _ ho) hR hC hz hp hsum
    obtain ⟨w1, h1, hm1⟩ := h1
    obtain ⟨i1, oth1, wk1, -⟩ := collect_inv hord hi h1
    have t1 : List.Forall₂ (fun x F => Fetchable w1 x.1 x.2 F) outs Fs := by
      rw [List.forall₂_iff_get] at t ⊢
      refine ⟨t.1, fun i h h' => (t.2 i h h').mono (oth1 _ ?_) wk1⟩
      rintro e
      exact hnd.1 (List.mem_map.2 ⟨_, List.get_mem _ _, e⟩)
    obtain ⟨w', h2, h3, h4⟩ := collectAll_ok hord outs Fs (k + 1) w1 _ i1 hnd.2 t1
    refine ⟨w', by simp only [collectAll, h1, Res.ok_bind, h2], .cons ?_ h3, fun r hr => ?_⟩
    · obtain ⟨m', pls, e1, e2⟩ := hm1
      exact ⟨m', pls, by rw [h4 ref hnd.1]; exact e1, e2⟩
    · simp only [List.map_cons, List.mem_cons, not_or] at hr
      rw [h4 r hr.2, oth1 r hr.1]

/-! ### The invariant along a history -/

theorem execute_inv [Add V] [Zero V] [DecidableEq V] {ws : List Nat} (hws : ws.Nodup) {ord : Order} (hord : ord.Valid) {junk : Nat → Nat → V}
    {p : Pipe V} {w w' : World V} {refs : List Nat} (hi : Inv (fun _ => False) w) (h : execute ws ord junk p w = .ok (w', refs)) :
    Inv (fun _ => False) w' := by
  unfold execute at h
  obtain ⟨a1, -⟩ := allocOuts_spec junk p.outs w hi
  simp only at h
  split at h
  · cases h
  · obtain ⟨⟨w1, args⟩, h1, h⟩ := bind_ok h
    obtain ⟨w2, h2, h⟩ := bind_ok h
    obtain ⟨w3, h3, h⟩ := bind_ok h
    cases h
    have i1 := placeInputs_inv hws hord _ _ _ _ _ a1 h1
    have i2 := (compute_inv i1 h2).1
    exact (collectAll_inv hord _ _ _ _ _ i2 h3).weaken (fun r hr => hr.2 hr.1)

theorem clonePls_spec : ∀ (ps : List Placement) (dp : Nat), (clonePls ps dp).2 = dp + ps.length ∧
    (clonePls ps dp).1.map (·.loc) = ps.map (·.loc) ∧ (clonePls ps dp).1.map (·.id) = List.range' dp ps.length ∧
    ∀ q ∈ (clonePls ps dp).1, ∃ p ∈ ps, q.loc = p.loc ∧ q.range = p.range ∧ q.ident = p.ident ∧ q.placed = p.placed
  | [], dp => ⟨rfl, rfl, rfl, by simp [clonePls]⟩
  | p :: ps, dp => by
    obtain ⟨h1, h2, h3, h4⟩ := clonePls_spec ps (dp + 1)
    simp only [clonePls, List.map_cons, List.length_cons, List.range'_succ]
    refine ⟨by omega, by rw [h2], by rw [h3], fun q hq => ?_⟩
    simp only [List.mem_cons] at hq
    rcases hq with rfl | hq
    · exact ⟨p, by simp, rfl, rfl, rfl, rfl⟩
    · obtain ⟨p', hp', e⟩ := h4 q hq
      exact ⟨p', by simp [hp'], e⟩

theorem mkView_inv {ref rl ru cl cu : Nat} {w w' : World V} (hi : Inv (fun _ => False) w) (h : mkView ref rl ru cl cu w = .ok w')
    (hs : ∀ o, w.objs ref = some o → (rl = 0 ∧ cl = 0 ∧ cu = o.val.cols) ∨ ∀ p ∈ o.pls, p.placed = false) : Inv (fun _ => False) w' := by
  unfold mkView at h
  split at h
  · rename_i m pls ho
    split at h
    · cases h
    · split at h
      · cases h
      · rename_i hr hc
        obtain ⟨c1, c2, c3, c4⟩ := clonePls_spec pls w.nextDp
        injection h with h
        subst h
        refine ⟨fun r hr => ?_, hi.wfresh, fun r o' ho' => ?_, fun r o' ho' _ p hp hpl => ?_⟩
        · simp only at hr ⊢
          rw [if_neg (by omega)]
          exact hi.fresh r (by omega)
        · simp only at ho' ⊢
          split at ho'
          · cases ho'
            refine ⟨by rw [c2]; exact (hi.core _ _ ho).locs, by rw [c3]; exact List.nodup_range', fun p hp => ?_⟩
            have : p.id ∈ (clonePls pls w.nextDp).1.map (·.id) := List.mem_map_of_mem hp
            rw [c3] at this
            simp only [List.mem_range'_1] at this
            omega
          · exact (hi.core r o' ho').mono (by omega)
        · simp only at ho' ⊢
          split at ho'
          · cases ho'
            obtain ⟨q, hq, e1, e2, e3, e4⟩ := c4 p hp
            rw [e4] at hpl
            rcases hs _ ho with ⟨rfl, rfl, rfl⟩ | hn
            · obtain ⟨i, u, h1, h2, h3⟩ := hi.backed _ _ ho (by simp) q hq hpl
              refine ⟨i, u, e3.trans h1, e1 ▸ h2, fun hf => ?_⟩
              have hr' := (validRange_iff _ _ _).1 (Decidable.not_not.1 hr)
              unfold LegalRange at hr'
              have hf' : Fits q.range (.mat m : Val V) := by
                unfold Fits at hf ⊢
                rw [e2] at hf
                simp only [Val.rows, Val.cols, Mat.window] at hf ⊢
                omega
              rw [h3 hf', e2]
              simp only [Val.sub, Mat.window, Val.mat.injEq]
              congr 1
              funext i j
              simp
            · rw [hn q hq] at hpl
              cases hpl
          · exact hi.backed r o' ho' (by simp) p hp hpl
  · cases h

/-- Along any history the placements that count as placed are backed by the workers. -/
theorem reachable_inv [Add V] [Zero V] [DecidableEq V] {ws : List Nat} (hws : ws.Nodup) {w : World V} (h : Reachable ws w) :
    Inv (fun _ => False) w := by
  induction h with
  | init W hW => exact ⟨fun _ _ => rfl, hW, fun r o ho => by simp [World.init] at ho, fun r o ho => by simp [World.init] at ho⟩
  | step op w w' _ hord hs hst ih =>
    cases op with
    | create m =>
      simp only [step] at hst
      cases hst
      exact alloc_inv ih _
    | free ref =>
      simp only [step] at hst
      cases hst
      refine ⟨fun r hr => ?_, ih.wfresh, fun r o ho => ?_, fun r o ho _ p hp hpl => ?_⟩
      · simp only at hr ⊢
        split
        · rfl
        · exact ih.fresh r hr
      · simp only at ho
        split at ho
        · cases ho
        · exact ih.core r o ho
      · simp only at ho
        split at ho
        · cases ho
        · exact ih.backed r o ho (by simp) p hp hpl
    | view ref rl ru cl cu => exact mkView_inv ih hst hs
    | pipe ord junk p =>
      simp only [step] at hst
      obtain ⟨⟨w1, refs⟩, h1, hst⟩ := bind_ok hst
      cases hst
      exact execute_inv hws (hord ord junk p rfl) ih h1

end Verif.Dist
