/-
  The order kernel: main theorems (C65) and its non-termination on NaN (C68).
-/
import Verif.Rel.GroupMain
import Verif.Dense.KernelProps

namespace Verif.Rel
open Verif Verif.Dense

/-! ## Specification of the group list -/

/-- Positions `a … b-1` of the sorted rows `idx` are a maximal run of two or more rows that agree in all keys. -/
structure MaxRun (ks : List (Key × Bool)) (idx : List Nat) (a b : Nat) : Prop where
  two : a + 2 ≤ b
  inb : b ≤ idx.length
  same : ∀ p q, a ≤ p → p < b → a ≤ q → q < b → LexSame ks (idx.getD p 0) (idx.getD q 0)
  left : a = 0 ∨ ¬ LexSame ks (idx.getD (a - 1) 0) (idx.getD a 0)
  right : b = idx.length ∨ ¬ LexSame ks (idx.getD (b - 1) 0) (idx.getD b 0)

/-- `gs` lists the maximal runs of equal keys, from the first to the last. -/
def IsGroups (ks : List (Key × Bool)) (idx : List Nat) (gs : List (Nat × Nat)) : Prop :=
  (∀ a b, (a, b) ∈ gs ↔ MaxRun ks idx a b) ∧ gs.Pairwise fun g h => g.2 ≤ h.1

/-! ## Proofs -/

/-- Lengths of concatenations. -/
macro "flat_omega" : tactic => `(tactic| ((try simp only [List.flatten_cons, List.flatten_append, List.flatten_nil,
  List.append_nil, List.length_append, List.length_nil] at *) <;> omega))

theorem lexBefore_not_same {ks : List (Key × Bool)} (hk : ∀ p ∈ ks, p.1.Lawful) {i j : Nat} (h : LexBefore ks i j) :
    ¬ LexSame ks i j := by
  induction ks with
  | nil => exact h.elim
  | cons p ks ih =>
    obtain ⟨k, asc⟩ := p
    intro hs
    rcases h with h | ⟨_, h⟩
    · have h1 := (hk (k, asc) List.mem_cons_self).ne_iff (k.val i) (k.val j)
      have h2 := h1.1 (hs (k, asc) List.mem_cons_self)
      unfold Before at h
      have h3 : k.lt (k.val i) (k.val j) = false ∧ k.lt (k.val j) (k.val i) = false := h2
      cases asc <;> simp [h3] at h
    · exact ih (fun p hp => hk p (List.mem_cons_of_mem _ hp)) h fun p hp => hs p (List.mem_cons_of_mem _ hp)

theorem lexBefore_asymm {ks : List (Key × Bool)} (hk : ∀ p ∈ ks, p.1.Lawful) {i j : Nat} (h : LexBefore ks i j) :
    ¬ LexBefore ks j i := by
  induction ks with
  | nil => exact h.elim
  | cons p ks ih =>
    obtain ⟨k, asc⟩ := p
    have hl := hk (k, asc) List.mem_cons_self
    intro h'
    have hbs : ∀ a b, Before k asc a b → ¬ Same k a b ∧ ¬ Same k b a := by
      intro a b hb
      constructor <;> intro hs
      · have := lexBefore_not_same (ks := [(k, asc)]) (by simpa using hl) (i := a) (j := b) (.inl hb)
        exact this (by intro p hp; simp at hp; subst hp; exact hs)
      · have := lexBefore_not_same (ks := [(k, asc)]) (by simpa using hl) (i := a) (j := b) (.inl hb)
        exact this (by intro p hp; simp at hp; subst hp; exact hl.same_symm hs)
    rcases h with h | ⟨hs, h⟩
    · rcases h' with h' | ⟨hs', _⟩
      · rw [before_iff] at h h'
        have := hl.cmp_asymm asc _ _ h
        rw [this] at h'; simp at h'
      · exact (hbs _ _ h).2 hs'
    · rcases h' with h' | ⟨hs', h'⟩
      · exact (hbs _ _ h').2 hs
      · exact ih (fun p hp => hk p (List.mem_cons_of_mem _ hp)) h h'

/-- A stable order is unique. -/
theorem stable_order_unique {n : Nat} {ks : List (Key × Bool)} (hk : ∀ p ∈ ks, p.1.Lawful) {a b : List Nat}
    (ha : IsStableOrder n ks a) (hb : IsStableOrder n ks b) : a = b := by
  refine eq_of_perm_pairwise ?_ (ha.perm.trans hb.perm.symm) ha.sorted hb.sorted
  intro x y h h'
  rcases h with h | ⟨h, hlt⟩
  · rcases h' with h' | ⟨h', _⟩
    · exact lexBefore_asymm hk h h'
    · exact lexBefore_not_same hk h (lexSame_symm hk h')
  · rcases h' with h' | ⟨_, hlt'⟩
    · exact lexBefore_not_same hk h' (lexSame_symm hk h)
    · omega

/-- Any stable sort gives the list `stableSort` gives. -/
theorem stable_sort_unique {cmp : Nat → Nat → Bool} (hc : StrictWeak cmp) (has : ∀ a b, cmp a b = true → cmp b a = false)
    {l l' : List Nat} (hl : l.Pairwise (· < ·))
    (hp : l'.Perm l) (h' : l'.Pairwise fun i j => cmp i j = true ∨ (cmp i j = false ∧ cmp j i = false ∧ i < j)) :
    l' = stableSort cmp l := by
  refine eq_of_perm_pairwise (R := fun i j => cmp i j = true ∨ (cmp i j = false ∧ cmp j i = false ∧ i < j)) ?_
    (hp.trans (stableSort_perm cmp l).symm) h' ?_
  · intro a b h h2
    rcases h with h | ⟨h, hb, hlt⟩
    · rcases h2 with h2 | ⟨h2, h3, _⟩
      · rw [has a b h] at h2; simp at h2
      · rw [h3] at h; simp at h
    · rcases h2 with h2 | ⟨_, _, hlt'⟩
      · rw [hb] at h2; simp at h2
      · omega
  · refine (stableSort_pairwise hc hl).imp ?_
    intro a b h
    rcases h with h | ⟨h1, h2, h3⟩
    · exact .inl h
    · exact .inr ⟨h1, h2, h3⟩

theorem rep_mem {off : Nat} {segs : List (List Nat)} {gs : List (Nat × Nat)} (h : Rep true off segs gs) (a b : Nat) :
    (a, b) ∈ gs ↔ ∃ pre s post, segs = pre ++ s :: post ∧ a = off + pre.flatten.length ∧ b = a + s.length ∧ 2 ≤ s.length := by
  induction h with
  | nil off => simp
  | @keep off s ss gs hs _ ih =>
    rw [List.mem_cons, ih]
    constructor
    · rintro (h | ⟨pre, t, post, rfl, ha, hb, h2⟩)
      · exact ⟨[], s, ss, rfl, by simp at h; simp [h.1], by simp at h; omega, hs rfl⟩
      · exact ⟨s :: pre, t, post, rfl, by flat_omega, hb, h2⟩
    · rintro ⟨pre, t, post, he, ha, hb, h2⟩
      cases pre with
      | nil =>
        simp only [List.nil_append, List.cons.injEq] at he
        left; obtain ⟨rfl, rfl⟩ := he
        simp at ha; simp [ha, hb]
      | cons u pre =>
        simp only [List.cons_append, List.cons.injEq] at he
        obtain ⟨rfl, rfl⟩ := he
        right
        exact ⟨pre, t, post, rfl, by flat_omega, hb, h2⟩
  | @skip off s ss gs hs _ ih =>
    rw [ih]
    constructor
    · rintro ⟨pre, t, post, rfl, ha, hb, h2⟩
      exact ⟨s :: pre, t, post, rfl, by flat_omega, hb, h2⟩
    · rintro ⟨pre, t, post, he, ha, hb, h2⟩
      cases pre with
      | nil =>
        simp only [List.nil_append, List.cons.injEq] at he
        obtain ⟨rfl, rfl⟩ := he; omega
      | cons u pre =>
        simp only [List.cons_append, List.cons.injEq] at he
        obtain ⟨rfl, rfl⟩ := he
        exact ⟨pre, t, post, rfl, by flat_omega, hb, h2⟩

theorem rep_ge {off : Nat} {segs : List (List Nat)} {gs : List (Nat × Nat)} (h : Rep true off segs gs) :
    (∀ g ∈ gs, off ≤ g.1) ∧ gs.Pairwise fun g h => g.2 ≤ h.1 := by
  induction h with
  | nil off => simp
  | @keep off s ss gs hs _ ih =>
    refine ⟨?_, List.pairwise_cons.2 ⟨fun g hg => ih.1 g hg, ih.2⟩⟩
    intro g hg
    rcases List.mem_cons.1 hg with rfl | hg
    · exact Nat.le_refl _
    · have := ih.1 g hg; omega
  | @skip off s ss gs hs _ ih => exact ⟨fun g hg => by have := ih.1 g hg; omega, ih.2⟩

/-- Position `p` of a concatenation lies in one of the parts. -/
theorem flatten_split : ∀ (segs : List (List Nat)) (p : Nat), p < segs.flatten.length →
    ∃ pre s post k, segs = pre ++ s :: post ∧ k < s.length ∧ p = pre.flatten.length + k := by
  intro segs
  induction segs with
  | nil => intro p h; simp at h
  | cons s segs ih =>
    intro p h
    by_cases hp : p < s.length
    · exact ⟨[], s, segs, p, rfl, hp, by simp⟩
    · simp only [List.flatten_cons, List.length_append] at h
      obtain ⟨pre, t, post, k, rfl, hk, he⟩ := ih (p - s.length) (by omega)
      exact ⟨s :: pre, t, post, k, rfl, hk, by flat_omega⟩

theorem getD_mid (pre s post : List Nat) (k : Nat) (hk : k < s.length) : (pre ++ (s ++ post)).getD (pre.length + k) 0 = s[k] := by
  rw [List.getD_eq_getElem?_getD, List.getElem?_append_right (by omega), Nat.add_sub_cancel_left,
    List.getElem?_append_left hk]
  simp [hk]

theorem isGroups_of_rep {n : Nat} {ks : List (Key × Bool)} {segs : List (List Nat)} {gs : List (Nat × Nat)}
    (hk : ∀ p ∈ ks, p.1.Lawful) (h : Segs n ks segs) (hr : Rep true 0 segs gs) (hne : ∀ s ∈ segs, s ≠ []) :
    IsGroups ks segs.flatten gs := by
  have hsame : ∀ s ∈ segs, ∀ a ∈ s, ∀ b ∈ s, LexSame ks a b := by
    intro s hs a ha b hb
    have hp := h.within s hs
    rw [List.pairwise_iff_getElem] at hp
    obtain ⟨i, hi, rfl⟩ := List.mem_iff_getElem.1 ha
    obtain ⟨j, hj, rfl⟩ := List.mem_iff_getElem.1 hb
    rcases Nat.lt_trichotomy i j with hij | hij | hij
    · exact (hp i j hi hj hij).1
    · subst hij; exact fun p hp => (hk p hp).same_refl _
    · exact lexSame_symm hk (hp j i hj hi hij).1
  -- positions inside a segment
  have hget : ∀ pre s post, segs = pre ++ s :: post → ∀ k (hk : k < s.length),
      segs.flatten.getD (pre.flatten.length + k) 0 = s[k] := by
    intro pre s post he k hk
    rw [he, List.flatten_append, List.flatten_cons]
    exact getD_mid _ _ _ _ hk
  -- the row before a segment, and the row after it, differ
  have hleft : ∀ pre s post, segs = pre ++ s :: post → pre.flatten.length ≠ 0 →
      ¬ LexSame ks (segs.flatten.getD (pre.flatten.length - 1) 0) (segs.flatten.getD (pre.flatten.length + 0) 0) := by
    intro pre s post he h0
    have hs : 0 < s.length := List.length_pos_iff.2 (hne s (by rw [he]; simp))
    rw [hget pre s post he 0 hs]
    have hm : segs.flatten.getD (pre.flatten.length - 1) 0 ∈ pre.flatten := by
      rw [he, List.flatten_append, List.getD_eq_getElem?_getD, List.getElem?_append_left (by omega),
        List.getElem?_eq_getElem (by omega)]
      simp only [Option.getD_some]
      exact List.getElem_mem _
    obtain ⟨t, ht, hmt⟩ := List.mem_flatten.1 hm
    have := h.across
    rw [he, List.pairwise_append] at this
    exact lexBefore_not_same hk (this.2.2 t ht s List.mem_cons_self _ hmt _ (List.getElem_mem hs))
  refine ⟨fun a b => ?_, (rep_ge hr).2⟩
  rw [rep_mem hr]
  constructor
  · rintro ⟨pre, s, post, he, ha, hb, h2⟩
    rw [Nat.zero_add] at ha
    have hlen : segs.flatten.length = pre.flatten.length + s.length + post.flatten.length := by
      rw [he]; flat_omega
    refine ⟨by omega, by omega, ?_, ?_, ?_⟩
    · intro p q hp hp' hq hq'
      have e1 := hget pre s post he (p - a) (by omega)
      have e2 := hget pre s post he (q - a) (by omega)
      rw [show pre.flatten.length + (p - a) = p by omega] at e1
      rw [show pre.flatten.length + (q - a) = q by omega] at e2
      rw [e1, e2]
      exact hsame s (by rw [he]; simp) _ (List.getElem_mem _) _ (List.getElem_mem _)
    · by_cases h0 : a = 0
      · exact .inl h0
      · right
        have := hleft pre s post he (by omega)
        rw [Nat.add_zero, ← ha] at this
        exact this
    · by_cases hb' : b = segs.flatten.length
      · exact .inl hb'
      · right
        cases post with
        | nil => flat_omega
        | cons t post =>
          have := hleft (pre ++ [s]) t post (by rw [he]; simp) (by flat_omega)
          rw [Nat.add_zero, show (pre ++ [s]).flatten.length = b by flat_omega] at this
          exact this
  · rintro ⟨h1, h2, h3, h4, h5⟩
    obtain ⟨pre, s, post, k, he, hks, hak⟩ := flatten_split segs a (by omega)
    have hlen : segs.flatten.length = pre.flatten.length + s.length + post.flatten.length := by
      rw [he]; flat_omega
    have hk0 : k = 0 := by
      rcases h4 with h4 | h4
      · omega
      · by_contra hk0
        apply h4
        have e1 := hget pre s post he (k - 1) (by omega)
        have e2 := hget pre s post he k hks
        rw [show pre.flatten.length + (k - 1) = a - 1 by omega] at e1
        rw [← hak] at e2
        rw [e1, e2]
        exact hsame s (by rw [he]; simp) _ (List.getElem_mem _) _ (List.getElem_mem _)
    subst hk0
    have hb : b = a + s.length := by
      rcases Nat.lt_trichotomy b (a + s.length) with hlt | heq | hgt
      · exfalso
        rcases h5 with h5 | h5
        · omega
        · apply h5
          have e1 := hget pre s post he (b - 1 - a) (by omega)
          have e2 := hget pre s post he (b - a) (by omega)
          rw [show pre.flatten.length + (b - 1 - a) = b - 1 by omega] at e1
          rw [show pre.flatten.length + (b - a) = b by omega] at e2
          rw [e1, e2]
          exact hsame s (by rw [he]; simp) _ (List.getElem_mem _) _ (List.getElem_mem _)
      · exact heq
      · exfalso
        cases post with
        | nil => flat_omega
        | cons t post =>
          have := hleft (pre ++ [s]) t post (by rw [he]; simp) (by flat_omega)
          rw [Nat.add_zero, show (pre ++ [s]).flatten.length = a + s.length by flat_omega] at this
          exact this (h3 _ _ (by omega) (by omega) (by omega) (by omega))
    exact ⟨pre, s, post, he, by omega, hb, by omega⟩

/-- **Order: index result and groups.** For any number of rows and any non-empty list of key columns with directions, the
    computed positions are the stable lexicographic sort of the rows — the only list with that property — and the group
    list handed to `group` contains exactly the maximal runs of two or more rows with equal keys, in order. Without key
    columns the call throws. -/
theorem C65_order_indexes (n fuel : Nat) (hf : n ≤ fuel) (keys : List (Key × Bool)) (hk : ∀ p ∈ keys, p.1.Lawful) (wg : Bool) :
    (keys = [] → Res.Throws (orderIdx fuel n keys wg)) ∧
    (keys ≠ [] → ∃ idx gs, orderIdx fuel n keys wg = .ok (some (idx, gs)) ∧ IsStableOrder n keys idx ∧
      (∀ idx', IsStableOrder n keys idx' → idx' = idx) ∧ (wg = true → IsGroups keys idx gs)) := by
  constructor
  · rintro rfl; exact ⟨_, rfl⟩
  · intro hne
    obtain ⟨idx, gs, h1, segs, h2, rfl, h4, h5⟩ := orderIdx_good n fuel hf keys hne hk wg
    exact ⟨_, gs, h1, h2.isStableOrder, fun idx' h' => stable_order_unique hk h' h2.isStableOrder,
      fun hw => isGroups_of_rep hk h2 (h4 hw) h5⟩

/-! ## Rows as result -/

/-- The key column `c` of a dense matrix: `values[i * rowSkip + colIdx]` — Order.h:68-75. -/
def dmKey (lt ne : α → α → Bool) (x : DM α) (c : Nat) : Key := ⟨α, lt, ne, fun i => x.mem.data (x.addr i c)⟩

/-- `Order<DenseMatrix<VT>, DenseMatrix<VT>>::apply` with `returnIdx = false` and `groupsRes = nullptr` —
    Order.h:278-320. The columns are given with their directions (`ascending` must be as long as `colIdxs`). -/
def orderRows (lt ne : α → α → Bool) (fuel : Nat) (junk : Nat → α) (x : DM α) (cols : List (Nat × Bool)) : Res (Option (DM α)) := do
  let st ← orderIdx fuel x.numRows (cols.map fun p => (dmKey lt ne x p.1, p.2)) false
  match st with
  | none => .ok none
  | some (idx, _) => do
    let r ← extractRow junk x ⟨Hdr.new idx.length 1, ⟨idx.length, fun i => ((idx.getD i 0 : Nat) : Int)⟩⟩
    .ok (some r)

/-- Key column `c` of a mathematical matrix. -/
def matKey (lt ne : α → α → Bool) (a : Mat α) (c : Nat) : Key := ⟨α, lt, ne, fun i => a.cell i c⟩

theorem lexBefore_congr {ks ks' : List (Key × Bool)} {P : Nat → Prop}
    (h : List.Forall₂ (fun p q => p.2 = q.2 ∧ ∀ i j, P i → P j → (Before p.1 p.2 i j ↔ Before q.1 q.2 i j) ∧
      (Same p.1 i j ↔ Same q.1 i j)) ks ks') {i j : Nat} (hi : P i) (hj : P j) :
    (LexBefore ks i j ↔ LexBefore ks' i j) ∧ (LexSame ks i j ↔ LexSame ks' i j) := by
  induction h with
  | nil => simp [LexBefore, LexSame]
  | @cons p q ks ks' hpq _ ih =>
    obtain ⟨k, asc⟩ := p
    obtain ⟨k', asc'⟩ := q
    obtain ⟨h1, h2⟩ := hpq
    simp only [LexBefore, LexSame, List.mem_cons, forall_eq_or_imp]
    rw [(h2 i j hi hj).1, (h2 i j hi hj).2, ih.1]
    exact ⟨Iff.rfl, and_congr_right fun _ => ih.2⟩

/-- **Order: row result.** Ordering a dense matrix (or view) by a non-empty list of existing columns returns its rows in
    the stable lexicographic order. -/
theorem C65_order_rows (lt ne : α → α → Bool) (junk : Nat → α) (x : DM α) (a : Mat α) (hx : x.Is a) (cols : List (Nat × Bool))
    (hne : cols ≠ []) (hc : ∀ p ∈ cols, p.1 < a.cols) (hlaw : (⟨α, lt, ne, fun i => a.cell i 0⟩ : Key).Lawful) (fuel : Nat)
    (hf : a.rows ≤ fuel) :
    ∃ y idx, orderRows lt ne fuel junk x cols = .ok (some y) ∧
      IsStableOrder a.rows (cols.map fun p => (matKey lt ne a p.1, p.2)) idx ∧ y.Is (a.pickRows idx) := by
  have hrows : x.numRows = a.rows := hx.rows
  have hl : ∀ p ∈ cols.map (fun p => (dmKey lt ne x p.1, p.2)), p.1.Lawful := by
    intro p hp
    obtain ⟨q, _, rfl⟩ := List.mem_map.1 hp
    exact ⟨hlaw.irrefl, hlaw.trans, hlaw.ntrans, hlaw.ne_iff⟩
  obtain ⟨idx, gs, h1, h2, _, _⟩ := (C65_order_indexes x.numRows fuel (by omega) _ hl false).2 (by simpa using hne)
  have hlen : idx.length = a.rows := by rw [h2.perm.length_eq]; simp [hrows]
  have hmem : ∀ i ∈ idx, i < a.rows := by
    intro i hi
    have := h2.perm.mem_iff.1 hi
    rw [hrows] at this
    simpa using this
  have hpos : IsPositions ⟨Hdr.new idx.length 1, ⟨idx.length, fun i => ((idx.getD i 0 : Nat) : Int)⟩⟩
      (idx.map fun (i : Nat) => (i : Int)) := by
    have := is_new (rows := idx.length) (cols := 1) (m := ⟨idx.length, fun i => ((idx.getD i 0 : Nat) : Int)⟩)
      (f := fun r _ => (idx.map fun (i : Nat) => (i : Int)).getD r 0) (by simp) (by
        intro r c hr hc'
        have hc0 : c = 0 := by omega
        subst hc0
        simp [hr, List.getD_eq_getElem?_getD])
    exact ⟨by simpa using this, rfl⟩
  have hex := (C23_extractRow junk x a hx _ _ hpos).1 idx (by simp) (by
    intro i hi
    simp only [List.length_map] at hi
    refine ⟨?_, .inl ?_⟩
    · have := hmem _ (List.getElem_mem hi)
      simpa [List.getD_eq_getElem?_getD, hi] using this
    · simp [List.getD_eq_getElem?_getD, hi])
  obtain ⟨y, hy, hyi⟩ := hex
  refine ⟨y, idx, ?_, ?_, hyi⟩
  · unfold orderRows
    rw [h1, Res.ok_bind]
    dsimp only
    rw [hy]; rfl
  · rw [hrows] at h2
    refine ⟨h2.perm, ?_⟩
    refine List.Pairwise.imp_of_mem ?_ h2.sorted
    intro i j hi hj hij
    have hcong := lexBefore_congr (P := fun i => i < a.rows) (ks := cols.map fun p => (dmKey lt ne x p.1, p.2))
      (ks' := cols.map fun p => (matKey lt ne a p.1, p.2)) (by
        rw [List.forall₂_map_left_iff, List.forall₂_map_right_iff, List.forall₂_same]
        intro p hp
        refine ⟨rfl, fun i j hi hj => ?_⟩
        have e1 : x.mem.data (x.addr i p.1) = a.cell i p.1 := by
          unfold DM.addr; rw [hx.wf.start]; exact hx.data hi (hc p hp)
        have e2 : x.mem.data (x.addr j p.1) = a.cell j p.1 := by
          unfold DM.addr; rw [hx.wf.start]; exact hx.data hj (hc p hp)
        simp [Before, Same, dmKey, matKey, e1, e2]) (hmem i hi) (hmem j hj)
    rw [← hcong.1, ← hcong.2]
    exact hij

/-! ## NaN -/

/-- A value that is unequal to itself. -/
def SelfUnequal (k : Key) (r : Nat) : Prop := k.ne (k.val r) (k.val r) = true

theorem scanGroup_stuck (ne : κ → κ → Bool) (tmp : List κ) (first last : Nat) (hlt : first < last) (hl : last ≤ tmp.length)
    (v : κ) (hv : tmp[first]? = some v) (hne : ne v v = true) : ∀ fuel, scanGroup ne tmp fuel first last = .ok none := by
  intro fuel
  induction fuel with
  | zero => rw [scanGroup, if_neg (by omega)]
  | succ fuel ih =>
    rw [scanGroup, if_neg (by omega), hv]
    have : nextDiff ne tmp v first last = .ok first := by
      rw [nextDiff, if_pos hlt, hv]
      simp [hne]
    simp only [this, Res.ok_bind, ih]
    rfl

/-- A scan that reaches a self-unequal value does not end, whatever comes before that value. -/
theorem scanGroup_reaches (ne : κ → κ → Bool) (tmp : List κ) (last p : Nat) (hp : p < last) (hl : last ≤ tmp.length)
    (v : κ) (hv : tmp[p]? = some v) (hv' : ∀ w ∈ tmp, ne v w = true) : ∀ fuel first, first ≤ p →
    scanGroup ne tmp fuel first last = .ok none := by
  intro fuel
  induction fuel with
  | zero => intro first hf; rw [scanGroup, if_neg (by omega)]
  | succ fuel ih =>
    intro first hf
    rw [scanGroup, if_neg (by omega), List.getElem?_eq_getElem (by omega)]
    have hnd : ∀ d q, d = p - q → q ≤ p → ∃ m, nextDiff ne tmp tmp[first] q last = .ok m ∧ m ≤ p := by
      intro d
      induction d with
      | zero =>
        intro q hd hq
        have : q = p := by omega
        subst this
        refine ⟨q, ?_, Nat.le_refl _⟩
        rw [nextDiff, if_pos hp, hv]
        simp [hv' _ (List.getElem_mem (show first < tmp.length by omega))]
      | succ d ihd =>
        intro q hd hq
        rw [nextDiff, if_pos (by omega), List.getElem?_eq_getElem (by omega)]
        by_cases hn : ne tmp[q] tmp[first] = true
        · exact ⟨q, by simp [hn], hq⟩
        · simp only [hn, Bool.false_eq_true, if_false]
          exact ihd (q + 1) (by omega) (by omega)
    obtain ⟨m, hm, hmp⟩ := hnd (p - first) first rfl hf
    simp only [hm, Res.ok_bind, ih m hmp]
    rfl

/-- **C68.** If some row of a key column that is scanned for groups (any key column but the last, and for `group` every
    key column) holds a value that is unequal to everything, like NaN, then ordering by it never returns: no number of
    loop iterations suffices. The statement is for the first key column, followed by at least one more (or with the
    group list requested). -/
theorem C68_order_nan_hangs_partial (n : Nat) (k : Key) (asc : Bool) (rest : List (Key × Bool)) (wg : Bool)
    (hscan : rest ≠ [] ∨ wg = true) (r : Nat) (hr : r < n) (hnan : ∀ v, k.ne (k.val r) v = true) (fuel : Nat) :
    orderIdx fuel n ((k, asc) :: rest) wg = .ok none := by
  have hm : multiColumnIDSort fuel k asc (List.range n, [(0, n)]) = .ok none := by
    unfold multiColumnIDSort
    have hsort : columnIDSort k asc [(0, n)] (List.range n) = stableSort (k.cmp asc) (List.range n) := by
      simp [columnIDSort, sortGroup]
    simp only [hsort]
    have hperm := stableSort_perm (k.cmp asc) (List.range n)
    have hmem : r ∈ stableSort (k.cmp asc) (List.range n) := hperm.mem_iff.2 (by simpa using hr)
    have hlen : (stableSort (k.cmp asc) (List.range n)).length = n := by rw [hperm.length_eq]; simp
    obtain ⟨p, hp, he⟩ := List.mem_iff_getElem.1 hmem
    have := scanGroup_reaches k.ne ((stableSort (k.cmp asc) (List.range n)).map k.val) n p (by omega) (by simp [hlen])
      (k.val r) (by simp [hp, he]) (fun w _ => hnan w) fuel 0 (by omega)
    simp only [columnGroupScan, this]
    rfl
  unfold orderIdx
  cases rest with
  | nil =>
    have hw : wg = true := by simpa using hscan
    subst hw
    simp only [List.getLast?_singleton, List.dropLast_singleton, multiSorts, Res.ok_bind, if_true]
    exact hm
  | cons q rest =>
    obtain ⟨⟨k', asc'⟩, hl⟩ : ∃ x, ((k, asc) :: q :: rest).getLast? = some x := by
      cases h : ((k, asc) :: q :: rest).getLast? with
      | none => simp at h
      | some x => exact ⟨x, rfl⟩
    rw [hl]
    simp only [List.dropLast_cons_cons, multiSorts, hm]
    rfl

/-! ## Examples -/

/-- An integer key column. -/
def intKey (vals : List Int) : Key := ⟨Int, fun a b => decide (a < b), fun a b => decide (a ≠ b), fun i => vals.getD i 0⟩

theorem intKey_lawful (vals : List Int) : (intKey vals).Lawful where
  irrefl := fun (a : Int) => decide_eq_false (Int.lt_irrefl a)
  trans := by
    intro (a : Int) (b : Int) (c : Int) h h'
    exact decide_eq_true (Int.lt_trans (of_decide_eq_true h) (of_decide_eq_true h'))
  ntrans := by
    intro (a : Int) (b : Int) (c : Int) h h'
    have h1 := of_decide_eq_false h
    have h2 := of_decide_eq_false h'
    exact decide_eq_false (fun h3 : a < c => by omega)
  ne_iff := by
    intro (a : Int) (b : Int)
    show decide (a ≠ b) = false ↔ decide (a < b) = false ∧ decide (b < a) = false
    simp only [decide_eq_false_iff_not]
    omega

/-- Rows (2,1), (1,5), (2,1), (1,7), ordered by the first column ascending and the second descending: rows 3, 1, 0, 2. -/
example : ∃ gs, orderIdx 4 4 [(intKey [2, 1, 2, 1], true), (intKey [1, 5, 1, 7], false)] true = .ok (some ([3, 1, 0, 2], gs)) := by
  obtain ⟨idx, gs, h1, h2, h3, _⟩ := (C65_order_indexes 4 4 (by omega)
    [(intKey [2, 1, 2, 1], true), (intKey [1, 5, 1, 7], false)] (by
      intro p hp; simp at hp; rcases hp with rfl | rfl <;> exact intKey_lawful _) true).2 (by simp)
  have : IsStableOrder 4 [(intKey [2, 1, 2, 1], true), (intKey [1, 5, 1, 7], false)] [3, 1, 0, 2] :=
    ⟨by decide, by simp [LexBefore, LexSame, Before, Same, intKey]⟩
  rw [h3 _ this]
  exact ⟨gs, h1⟩

/-- A key column with NaN (modelled as `none`) in row 1: the hypothesis of `C68_order_nan_hangs_partial`. -/
example : ∀ v, (⟨Option Int, fun a b => match a, b with | some x, some y => decide (x < y) | _, _ => false,
    fun a b => match a, b with | some x, some y => decide (x ≠ y) | _, _ => true,
    fun i => [some 1, none, some 2].getD i none⟩ : Key).ne none v = true := by
  intro v; rfl

end Verif.Rel
