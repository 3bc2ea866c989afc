/-
  C29, C30, C31: columnar selection, projection, set operations and joins.
-/
import Verif.Col.Model
import Verif.Dense.KernelProps

namespace Verif
variable {α : Type}

theorem Buf.toList_put (b : Buf α) (k : Nat) (v : α) : (b.put k v).toList (k + 1) = b.toList k ++ [v] := by
  unfold Buf.toList
  rw [List.range_succ, List.map_append]
  congr 1
  · apply List.map_congr_left
    intro i hi
    rw [Buf.put_data_ne]
    have := List.mem_range.1 hi; omega
  · simp

theorem Buf.toList_succ (b : Buf α) (k : Nat) : b.toList (k + 1) = b.toList k ++ [b.data k] := by
  simp [Buf.toList, List.range_succ]

@[simp] theorem Buf.toList_length (b : Buf α) (k : Nat) : (b.toList k).length = k := by simp [Buf.toList]

theorem Buf.toList_put_ge (b : Buf α) (k i : Nat) (v : α) (h : k ≤ i) : (b.put i v).toList k = b.toList k := by
  unfold Buf.toList
  apply List.map_congr_left
  intro j hj
  rw [Buf.put_data_ne]
  have := List.mem_range.1 hj; omega

theorem positions_length_le (n : Nat) (p : Nat → Bool) : (positions n p).length ≤ n := by
  have := List.length_filter_le p (List.range n)
  simpa [positions] using this

end Verif

namespace Verif.Col
open Verif Verif.Dense
variable {α δ : Type}

theorem read_at {c : Column α} (w : c.WF) {r : Nat} (h : r < c.numRows) : c.vals.read r = .ok (c.at r) :=
  Buf.read_eq (Nat.lt_of_lt_of_le h w)

/-- The conditional-write loop collects the positions that pass the test. -/
theorem selectLoop_ok (n : Nat) (test : Nat → Res Bool) (p : Nat → Bool) (ht : ∀ r, r < n → test r = .ok (p r)) (out : Buf Nat)
    (hs : (positions n p).length ≤ out.size) :
    Res.Ok (selectLoop n test out) fun o => o.1 = (positions n p).length ∧ o.2.size = out.size ∧ o.2.toList o.1 = positions n p := by
  unfold selectLoop
  refine forLoop_ok (fun r (o : Nat × Buf Nat) => o.1 = (positions r p).length ∧ o.2.size = out.size ∧ o.2.toList o.1 = positions r p)
    0 n (0, out) (Nat.zero_le _) ⟨by simp [positions], rfl, by simp [positions, Buf.toList]⟩ ?_
  rintro r ⟨k, o⟩ _ hr ⟨h1, h2, h3⟩
  simp only at h1 h2 h3 ⊢
  rw [ht r hr, Res.ok_bind]
  by_cases hp : p r = true
  · rw [if_pos hp]
    have hlt : k < o.size := by
      have := positions_len_mono p (show r + 1 ≤ n by omega)
      rw [positions_succ, if_pos hp, List.length_append, List.length_singleton] at this
      omega
    rw [Buf.write_eq hlt, Res.ok_bind]
    refine Res.ok_iff.2 ⟨?_, h2, ?_⟩
    · simp only [positions_succ, if_pos hp, List.length_append, List.length_singleton, h1]
    · simp only [positions_succ, if_pos hp]; rw [Buf.toList_put, h3]
  · rw [if_neg hp]
    refine Res.ok_iff.2 ⟨?_, h2, ?_⟩
    · simp [positions_succ, hp, h1]
    · simp [positions_succ, hp, h3]

theorem shrink_ok {c : Column α} (w : c.WF) {k : Nat} (h : k ≤ c.numRows) :
    Res.Ok (c.shrinkNumRows k) fun d => d.WF ∧ d.toList = c.vals.toList k := by
  unfold Column.shrinkNumRows
  rw [if_neg (by omega)]
  exact Res.ok_iff.2 ⟨Nat.le_trans h w, rfl⟩

/-- **C29 (selection).** Selecting returns exactly the ascending positions whose value satisfies the comparison. -/
theorem C29_select (cmp : α → Bool) (lhs : Column α) (w : lhs.WF) (junk : Nat → Nat) :
    Res.Ok (select cmp lhs junk) fun res => res.WF ∧ res.toList = positions lhs.numRows fun r => cmp (lhs.at r) := by
  unfold select
  refine (selectLoop_ok lhs.numRows _ (fun r => cmp (lhs.at r)) (fun r hr => by rw [read_at w hr]; rfl) _
    (positions_length_le _ _)).bind fun o ⟨h1, h2, h3⟩ => ?_
  obtain ⟨k, out⟩ := o
  simp only at h1 h2 h3 ⊢
  refine (shrink_ok (k := k) (c := ⟨lhs.numRows, out⟩) (Nat.le_of_eq h2.symm) ?_).mono fun d ⟨d1, d2⟩ => ⟨d1, by rw [d2, ← h3]⟩
  rw [h1]; exact positions_length_le _ _

/-- **C29 (selection by operation code).** The positions returned are strictly increasing, and a position is returned iff it is a row
whose value is equal to / different from / greater than / at least / less than / at most the scalar. -/
theorem C29_selectCmp (op : Cmp) (lhs : Column Int) (rhs : Int) (w : lhs.WF) (junk : Nat → Nat) :
    Res.Ok (selectCmp op lhs rhs junk) fun res => res.toList.Pairwise (· < ·) ∧ ∀ p, p ∈ res.toList ↔ p < lhs.numRows ∧
      (op = .EQ → lhs.at p = rhs) ∧ (op = .NEQ → lhs.at p ≠ rhs) ∧ (op = .GT → lhs.at p > rhs) ∧ (op = .GE → lhs.at p ≥ rhs) ∧
      (op = .LT → lhs.at p < rhs) ∧ (op = .LE → lhs.at p ≤ rhs) := by
  refine (C29_select (fun v => op.func v rhs) lhs w junk).mono fun res ⟨_, h⟩ => ?_
  rw [h]
  constructor
  · unfold positions
    exact List.Pairwise.filter _ List.pairwise_lt_range
  · intro p
    cases op <;> simp [positions, Cmp.func]

/-- **C29 (projection).** Projection returns the addressed values if all positions are in range, and throws otherwise. -/
theorem C29_project (lhs : Column α) (pos : Column Int) (w : lhs.WF) (wp : pos.WF) (junk : Nat → α) :
    ((∀ r, r < pos.numRows → 0 ≤ pos.at r ∧ (pos.at r).toNat < lhs.numRows) →
      Res.Ok (project lhs pos junk) fun res => res.WF ∧ res.numRows = pos.numRows ∧
        ∀ r, r < pos.numRows → res.at r = lhs.at (pos.at r).toNat) ∧
    ((∃ r, r < pos.numRows ∧ ¬ (0 ≤ pos.at r ∧ (pos.at r).toNat < lhs.numRows)) → Res.Throws (project lhs pos junk)) := by
  constructor
  · intro h
    unfold project
    refine Res.Ok.bind (forLoop_ok (fun i (o : Buf α) => o.size = pos.numRows ∧ ∀ r, r < i → o.data r = lhs.at (pos.at r).toNat)
      0 pos.numRows _ (Nat.zero_le _) ⟨rfl, fun _ h => by omega⟩ fun r o _ hr ⟨h1, h2⟩ => ?_) fun o ⟨h1, h2⟩ =>
        Res.ok_iff.2 ⟨Nat.le_of_eq h1.symm, rfl, h2⟩
    have := h r hr
    rw [read_at wp hr, Res.ok_bind, if_neg (by omega), read_at w this.2, Res.ok_bind, Buf.write_eq (by omega)]
    refine Res.ok_iff.2 ⟨h1, fun q hq => ?_⟩
    by_cases e : q = r
    · subst e; simp
    · rw [Buf.put_data_ne _ _ _ _ e]; exact h2 q (by omega)
  · rintro ⟨r, hr, hb⟩
    unfold project
    refine Res.throws_bind ?_
    refine forLoop_throws (fun o : Buf α => o.size = pos.numRows) _ _ _ rfl (fun q o _ hq ho => ?_) ⟨r, Nat.zero_le _, hr, fun o _ => ?_⟩
    · rw [read_at wp hq, Res.ok_bind]
      split
      · exact .inr ⟨_, rfl⟩
      · rw [read_at w (by omega), Res.ok_bind, Buf.write_eq (by omega)]
        exact .inl (Res.ok_iff.2 ho)
    · rw [read_at wp hr, Res.ok_bind, if_pos (by omega)]
      exact ⟨_, rfl⟩

/-- **C29 (select, then project).** Projecting a column to the selected positions of the same column is filtering. -/
theorem C29_select_project (cmp : α → Bool) (lhs : Column α) (w : lhs.WF) (j1 : Nat → Nat) (j2 : Nat → α) :
    Res.Ok (do
      let p ← select cmp lhs j1
      project lhs ⟨p.numRows, ⟨p.vals.size, fun i => (p.vals.data i : Int)⟩⟩ j2) fun res => res.toList = lhs.toList.filter cmp := by
  refine (C29_select cmp lhs w j1).bind fun p ⟨p1, p2⟩ => ?_
  have hat : ∀ r, r < p.numRows → p.vals.data r ∈ positions lhs.numRows fun r => cmp (lhs.at r) := fun r hr => by
    rw [← p2]; exact List.mem_map.2 ⟨r, List.mem_range.2 hr, rfl⟩
  refine ((C29_project lhs _ w (by exact p1) j2).1 fun r hr => ?_).mono fun res ⟨_, h2, h3⟩ => ?_
  · have := positions_lt (hat r hr)
    simp only [Column.at]; simp; exact this.1
  · have e : res.toList = (p.vals.toList p.numRows).map lhs.at := by
      unfold Column.toList Buf.toList
      rw [h2, List.map_map]
      apply List.map_congr_left
      intro r hr
      have := h3 r (by simpa using hr)
      simpa [Column.at] using this
    have e2 : p.vals.toList p.numRows = positions lhs.numRows fun r => cmp (lhs.at r) := p2
    rw [e, e2]
    unfold positions Column.toList Buf.toList
    rw [List.filter_map]
    rfl

/-! ### Intersection and merge of position lists -/

/-- Intersection of sorted lists, by merging. -/
def interL : List Nat → List Nat → List Nat
  | x :: a, y :: b => if x < y then interL a (y :: b) else if y < x then interL (x :: a) b else x :: interL a b
  | [], _ => []
  | _, [] => []
termination_by a b => a.length + b.length

/-- Union of sorted lists, by merging. -/
def unionL : List Nat → List Nat → List Nat
  | x :: a, y :: b => if x < y then x :: unionL a (y :: b) else if y < x then y :: unionL (x :: a) b else x :: unionL a b
  | [], b => b
  | a, [] => a
termination_by a b => a.length + b.length

abbrev Increasing (l : List Nat) : Prop := l.Pairwise (· < ·)

theorem interL_spec (a b : List Nat) (ha : Increasing a) (hb : Increasing b) :
    Increasing (interL a b) ∧ ∀ z, z ∈ interL a b ↔ z ∈ a ∧ z ∈ b := by
  induction a, b using interL.induct with
  | case1 x a y b h ih =>
    rw [interL, if_pos h]
    have ha' := List.pairwise_cons.1 ha
    have hb' := List.pairwise_cons.1 hb
    refine ⟨(ih ha'.2 hb).1, fun z => ?_⟩
    rw [(ih ha'.2 hb).2, List.mem_cons (a := z) (b := x)]
    constructor
    · rintro ⟨h1, h2⟩; exact ⟨.inr h1, h2⟩
    · rintro ⟨rfl | h1, h2⟩
      · rcases List.mem_cons.1 h2 with h2 | h2
        · omega
        · have := hb'.1 z h2; omega
      · exact ⟨h1, h2⟩
  | case2 x a y b h h' ih =>
    rw [interL, if_neg h, if_pos h']
    have ha' := List.pairwise_cons.1 ha
    have hb' := List.pairwise_cons.1 hb
    refine ⟨(ih ha hb'.2).1, fun z => ?_⟩
    rw [(ih ha hb'.2).2, List.mem_cons (a := z) (b := y)]
    constructor
    · rintro ⟨h1, h2⟩; exact ⟨h1, .inr h2⟩
    · rintro ⟨h1, rfl | h2⟩
      · rcases List.mem_cons.1 h1 with h2 | h2
        · omega
        · have := ha'.1 z h2; omega
      · exact ⟨h1, h2⟩
  | case3 x a y b h h' ih =>
    rw [interL, if_neg h, if_neg h']
    have ha' := List.pairwise_cons.1 ha
    have hb' := List.pairwise_cons.1 hb
    have e : x = y := by omega
    subst e
    obtain ⟨i1, i2⟩ := ih ha'.2 hb'.2
    refine ⟨List.pairwise_cons.2 ⟨fun z hz => ha'.1 z ((i2 z).1 hz).1, i1⟩, fun z => ?_⟩
    simp only [List.mem_cons, i2]
    constructor
    · rintro (rfl | ⟨h1, h2⟩)
      · exact ⟨.inl rfl, .inl rfl⟩
      · exact ⟨.inr h1, .inr h2⟩
    · rintro ⟨rfl | h1, h2⟩
      · exact .inl rfl
      · rcases h2 with rfl | h2
        · exact .inl rfl
        · exact .inr ⟨h1, h2⟩
  | case4 b => rw [interL]; simp
  | case5 a h => rw [interL]; simp; intro x; simpa using h x

theorem unionL_spec (a b : List Nat) (ha : Increasing a) (hb : Increasing b) :
    Increasing (unionL a b) ∧ ∀ z, z ∈ unionL a b ↔ z ∈ a ∨ z ∈ b := by
  induction a, b using unionL.induct with
  | case1 x a y b h ih =>
    rw [unionL, if_pos h]
    have ha' := List.pairwise_cons.1 ha
    have hb' := List.pairwise_cons.1 hb
    obtain ⟨i1, i2⟩ := ih ha'.2 hb
    refine ⟨List.pairwise_cons.2 ⟨fun z hz => ?_, i1⟩, fun z => by simp only [List.mem_cons, i2]; tauto⟩
    rcases (i2 z).1 hz with g | g
    · exact ha'.1 z g
    · rcases List.mem_cons.1 g with g | g
      · omega
      · have := hb'.1 z g; omega
  | case2 x a y b h h' ih =>
    rw [unionL, if_neg h, if_pos h']
    have ha' := List.pairwise_cons.1 ha
    have hb' := List.pairwise_cons.1 hb
    obtain ⟨i1, i2⟩ := ih ha hb'.2
    refine ⟨List.pairwise_cons.2 ⟨fun z hz => ?_, i1⟩, fun z => by simp only [List.mem_cons, i2]; tauto⟩
    rcases (i2 z).1 hz with g | g
    · rcases List.mem_cons.1 g with g | g
      · omega
      · have := ha'.1 z g; omega
    · exact hb'.1 z g
  | case3 x a y b h h' ih =>
    rw [unionL, if_neg h, if_neg h']
    have ha' := List.pairwise_cons.1 ha
    have hb' := List.pairwise_cons.1 hb
    have e : x = y := by omega
    subst e
    obtain ⟨i1, i2⟩ := ih ha'.2 hb'.2
    refine ⟨List.pairwise_cons.2 ⟨fun z hz => ?_, i1⟩, fun z => by simp only [List.mem_cons, i2]; tauto⟩
    rcases (i2 z).1 hz with g | g
    · exact ha'.1 z g
    · exact hb'.1 z g
  | case4 b => rw [unionL]; simpa using hb
  | case5 a h =>
    cases a with
    | nil => rw [unionL]; simp
    | cons x a =>
      have : unionL (x :: a) [] = x :: a := by simp [unionL]
      rw [this]; simpa using ha

theorem interL_length (a b : List Nat) : (interL a b).length ≤ a.length ∧ (interL a b).length ≤ b.length := by
  induction a, b using interL.induct with
  | case1 x a y b h ih => rw [interL, if_pos h]; simp only [List.length_cons] at *; omega
  | case2 x a y b h h' ih => rw [interL, if_neg h, if_pos h']; simp only [List.length_cons] at *; omega
  | case3 x a y b h h' ih => rw [interL, if_neg h, if_neg h']; simp only [List.length_cons] at *; omega
  | case4 b => rw [interL]; simp
  | case5 a h => rw [interL]; simp; intro x; simpa using h x

/-- The rows from `i` on. -/
def Column.from (c : Column α) (i : Nat) : List α := (List.range' i (c.numRows - i)).map c.vals.data

theorem Column.from_lt {c : Column α} {i : Nat} (h : i < c.numRows) : c.from i = c.at i :: c.from (i + 1) := by
  unfold Column.from
  rw [show c.numRows - i = (c.numRows - (i + 1)) + 1 by omega, List.range'_succ]
  rfl

theorem Column.from_ge {c : Column α} {i : Nat} (h : c.numRows ≤ i) : c.from i = [] := by
  unfold Column.from; rw [show c.numRows - i = 0 by omega]; rfl

theorem Column.from_zero (c : Column α) : c.from 0 = c.toList := by
  unfold Column.from Column.toList Buf.toList
  rw [Nat.sub_zero, List.range_eq_range']

theorem intersectLoop_ok (a b : Column Nat) (wa : a.WF) (wb : b.WF) (fuel l r k : Nat) (out : Buf Nat)
    (hf : a.numRows - l + (b.numRows - r) ≤ fuel) (hs : k + (interL (a.from l) (b.from r)).length ≤ out.size) :
    Res.Ok (intersectLoop a b fuel l r k out) fun o => o.2.size = out.size ∧ o.1 = k + (interL (a.from l) (b.from r)).length ∧
      o.2.toList o.1 = out.toList k ++ interL (a.from l) (b.from r) := by
  induction fuel generalizing l r k out with
  | zero =>
    rw [intersectLoop]
    refine Res.ok_iff.2 ⟨rfl, ?_⟩
    rw [Column.from_ge (by omega : a.numRows ≤ l)]; simp [interL]
  | succ fuel ih =>
    rw [intersectLoop]
    by_cases h : l < a.numRows ∧ r < b.numRows
    · rw [if_pos h, read_at wa h.1, Res.ok_bind, read_at wb h.2, Res.ok_bind]
      rw [Column.from_lt h.1, Column.from_lt h.2, interL] at hs ⊢
      by_cases h1 : a.at l < b.at r
      · rw [if_pos h1] at hs ⊢
        rw [if_pos h1, ← Column.from_lt h.2] at *
        exact ih (l + 1) r k out (by omega) hs
      · rw [if_neg h1] at hs ⊢
        rw [if_neg h1]
        by_cases h2 : b.at r < a.at l
        · rw [if_pos h2] at hs ⊢
          rw [if_pos h2, ← Column.from_lt h.1] at *
          exact ih l (r + 1) k out (by omega) hs
        · rw [if_neg h2] at hs ⊢
          simp only [List.length_cons] at hs ⊢
          rw [if_neg h2, Buf.write_eq (by omega), Res.ok_bind]
          refine (ih (l + 1) (r + 1) (k + 1) (out.put k (a.at l)) (by omega) (by simp; omega)).mono fun o ⟨o1, o2, o3⟩ => ⟨o1, by rw [List.length_cons]; omega, ?_⟩
          rw [o3, Buf.toList_put]; simp
    · rw [if_neg h]
      refine Res.ok_iff.2 ⟨rfl, ?_⟩
      by_cases hl : l < a.numRows
      · rw [Column.from_ge (c := b) (by omega)]; rw [Column.from_lt hl]; simp [interL]
      · rw [Column.from_ge (c := a) (by omega)]; simp [interL]

/-- **C30 (intersection).** For strictly increasing position lists, the result is strictly increasing and holds exactly the
positions in both. -/
theorem C30_intersect (a b : Column Nat) (wa : a.WF) (wb : b.WF) (ha : a.toList.Pairwise (· < ·)) (hb : b.toList.Pairwise (· < ·))
    (junk : Nat → Nat) :
    Res.Ok (intersect a b junk) fun res => res.WF ∧ res.toList.Pairwise (· < ·) ∧ ∀ x, x ∈ res.toList ↔ x ∈ a.toList ∧ x ∈ b.toList := by
  unfold intersect
  have hlen := interL_length a.toList b.toList
  have la : a.toList.length = a.numRows := by simp [Column.toList]
  have lb : b.toList.length = b.numRows := by simp [Column.toList]
  refine (intersectLoop_ok a b wa wb _ 0 0 0 _ (by omega) (by
    rw [Column.from_zero, Column.from_zero]; simp only [Column.create]; omega)).bind fun o ⟨h1, h2, h3⟩ => ?_
  obtain ⟨k, out⟩ := o
  simp only [Column.from_zero] at h1 h2 h3 ⊢
  refine (shrink_ok (k := k) (c := ⟨min a.numRows b.numRows, out⟩) (Nat.le_of_eq h1.symm) (by simp only; omega)).mono fun d ⟨d1, d2⟩ => ⟨d1, ?_⟩
  have e : d.toList = interL a.toList b.toList := by rw [d2, h3]; simp [Buf.toList]
  rw [e]
  exact interL_spec _ _ ha hb

theorem unionL_length (a b : List Nat) : (unionL a b).length ≤ a.length + b.length := by
  induction a, b using unionL.induct with
  | case1 x a y b h ih => rw [unionL, if_pos h]; simp only [List.length_cons] at *; omega
  | case2 x a y b h h' ih => rw [unionL, if_neg h, if_pos h']; simp only [List.length_cons] at *; omega
  | case3 x a y b h h' ih => rw [unionL, if_neg h, if_neg h']; simp only [List.length_cons] at *; omega
  | case4 b => rw [unionL]; simp
  | case5 a h =>
    cases a with
    | nil => rw [unionL]; simp
    | cons x a => simp [unionL]

theorem mergeLoop_ok (a b : Column Nat) (wa : a.WF) (wb : b.WF) (fuel l r k : Nat) (out : Buf Nat)
    (hf : a.numRows - l + (b.numRows - r) ≤ fuel) (hs : k + (unionL (a.from l) (b.from r)).length ≤ out.size) :
    Res.Ok (mergeLoop a b fuel l r k out) fun (l', r', k', out') => out'.size = out.size ∧ (a.numRows ≤ l' ∨ b.numRows ≤ r') ∧
      k' + (unionL (a.from l') (b.from r')).length ≤ out'.size ∧
      out'.toList k' ++ unionL (a.from l') (b.from r') = out.toList k ++ unionL (a.from l) (b.from r) := by
  induction fuel generalizing l r k out with
  | zero =>
    rw [mergeLoop]
    exact Res.ok_iff.2 ⟨rfl, by omega, hs, rfl⟩
  | succ fuel ih =>
    rw [mergeLoop]
    by_cases h : l < a.numRows ∧ r < b.numRows
    · rw [if_pos h, read_at wa h.1, Res.ok_bind, read_at wb h.2, Res.ok_bind]
      rw [Column.from_lt h.1, Column.from_lt h.2, unionL] at hs ⊢
      by_cases h1 : a.at l < b.at r
      · rw [if_pos h1] at hs ⊢
        rw [if_pos h1, ← Column.from_lt h.2] at *
        simp only [List.length_cons] at hs
        rw [Buf.write_eq (by omega), Res.ok_bind]
        refine (ih (l + 1) r (k + 1) _ (by omega) (by simp; omega)).mono fun o ⟨o1, o2, o3, o4⟩ => ⟨o1, o2, o3, ?_⟩
        rw [o4, Buf.toList_put]; simp
      · rw [if_neg h1] at hs ⊢
        rw [if_neg h1]
        by_cases h2 : b.at r < a.at l
        · rw [if_pos h2] at hs ⊢
          rw [if_pos h2, ← Column.from_lt h.1] at *
          simp only [List.length_cons] at hs
          rw [Buf.write_eq (by omega), Res.ok_bind]
          refine (ih l (r + 1) (k + 1) _ (by omega) (by simp; omega)).mono fun o ⟨o1, o2, o3, o4⟩ => ⟨o1, o2, o3, ?_⟩
          rw [o4, Buf.toList_put]; simp
        · rw [if_neg h2] at hs ⊢
          simp only [List.length_cons] at hs
          rw [if_neg h2, Buf.write_eq (by omega), Res.ok_bind]
          refine (ih (l + 1) (r + 1) (k + 1) _ (by omega) (by simp; omega)).mono fun o ⟨o1, o2, o3, o4⟩ => ⟨o1, o2, o3, ?_⟩
          rw [o4, Buf.toList_put]; simp
    · rw [if_neg h]
      exact Res.ok_iff.2 ⟨rfl, by omega, hs, rfl⟩

theorem mergeRest_ok (a : Column Nat) (wa : a.WF) (l k : Nat) (out : Buf Nat) (hs : k + (a.from l).length ≤ out.size) :
    Res.Ok (mergeRest a l k out) fun o => o.2.size = out.size ∧ o.1 = k + (a.from l).length ∧ o.2.toList o.1 = out.toList k ++ a.from l := by
  unfold mergeRest
  rcases Nat.lt_or_ge a.numRows l with g | g
  · rw [forLoop_empty _ _ _ (by omega), Column.from_ge (by omega)]
    exact Res.ok_iff.2 ⟨rfl, by simp, by simp⟩
  · refine (forLoop_ok (fun i (o : Nat × Buf Nat) => o.2.size = out.size ∧ o.1 + (a.from i).length = k + (a.from l).length ∧
      o.2.toList o.1 ++ a.from i = out.toList k ++ a.from l) l a.numRows (k, out) g ⟨rfl, rfl, rfl⟩ ?_).mono ?_
    · rintro i ⟨j, o⟩ _ hi ⟨h1, h2, h3⟩
      simp only at h1 h2 h3 ⊢
      rw [Column.from_lt hi] at h2 h3
      simp only [List.length_cons] at h2
      rw [read_at wa hi, Res.ok_bind, Buf.write_eq (by omega), Res.ok_bind]
      refine Res.ok_iff.2 ⟨h1, by simp only; omega, ?_⟩
      simp only
      rw [Buf.toList_put, ← h3]; simp
    · rintro ⟨j, o⟩ ⟨h1, h2, h3⟩
      rw [Column.from_ge (Nat.le_refl _)] at h2 h3
      exact ⟨h1, by simpa using h2, by simpa using h3⟩

theorem unionL_nil_left (b : List Nat) : unionL [] b = b := by rw [unionL]
theorem unionL_nil_right (a : List Nat) : unionL a [] = a := by cases a <;> rw [unionL]; simp

/-- **C30 (merge).** For strictly increasing position lists, the result is strictly increasing and holds exactly the positions in
at least one of them. -/
theorem C30_merge (a b : Column Nat) (wa : a.WF) (wb : b.WF) (ha : a.toList.Pairwise (· < ·)) (hb : b.toList.Pairwise (· < ·))
    (junk : Nat → Nat) :
    Res.Ok (merge a b junk) fun res => res.WF ∧ res.toList.Pairwise (· < ·) ∧ ∀ x, x ∈ res.toList ↔ x ∈ a.toList ∨ x ∈ b.toList := by
  unfold merge
  have hlen := unionL_length a.toList b.toList
  have la : a.toList.length = a.numRows := by simp [Column.toList]
  have lb : b.toList.length = b.numRows := by simp [Column.toList]
  refine (mergeLoop_ok a b wa wb _ 0 0 0 _ (by omega) (by
    rw [Column.from_zero, Column.from_zero]; simp only [Column.create]; omega)).bind ?_
  rintro ⟨l, r, k, out⟩ ⟨h1, h2, h3, h4⟩
  simp only [Column.from_zero] at h1 h2 h3 h4 ⊢
  have e : unionL (a.from l) (b.from r) = a.from l ++ b.from r := by
    rcases h2 with g | g
    · rw [Column.from_ge g, unionL_nil_left]; simp
    · rw [Column.from_ge g, unionL_nil_right]; simp
  rw [e] at h3 h4
  rw [List.length_append] at h3
  refine (mergeRest_ok a wa l k out (by omega)).bind ?_
  rintro ⟨k1, out1⟩ ⟨i1, i2, i3⟩
  simp only at i1 i2 i3 ⊢
  refine (mergeRest_ok b wb r k1 out1 (by omega)).bind ?_
  rintro ⟨k2, out2⟩ ⟨j1, j2, j3⟩
  simp only at j1 j2 j3 ⊢
  have hsz : out2.size = a.numRows + b.numRows := by rw [j1, i1, h1]; rfl
  refine (shrink_ok (k := k2) (c := ⟨a.numRows + b.numRows, out2⟩) (Nat.le_of_eq hsz.symm) (by simp only; omega)).mono fun d ⟨d1, d2⟩ => ⟨d1, ?_⟩
  have e : d.toList = unionL a.toList b.toList := by
    rw [d2, j3, i3, List.append_assoc, h4]; simp [Buf.toList]
  rw [e]
  exact unionL_spec _ _ ha hb

/-! ### Joins -/

theorem HMap.find_assign [DecidableEq δ] (m : HMap δ) (k j : δ) (v : Nat) : (m.assign k v).find j = if k = j then some v else m.find j := by
  induction m with
  | nil =>
    by_cases h : k = j
    · simp [assign, find, h]
    · simp [assign, find, List.lookup, h, show (j == k) = false by simpa using Ne.symm h]
  | cons e m ih =>
    obtain ⟨i, w⟩ := e
    simp only [assign, find] at ih ⊢
    by_cases hk : i = k
    · subst hk
      rw [if_pos rfl]
      by_cases h : i = j
      · subst h; simp
      · simp [List.lookup, h, show (j == i) = false by simpa using Ne.symm h]
    · rw [if_neg hk]
      by_cases h : j = i
      · subst h; simp [Ne.symm hk]
      · simp only [List.lookup, show (j == i) = false by simpa using h]
        exact ih

/-- The build phase: the last position of each key. -/
theorem build_ok [DecidableEq α] (rhs : Column α) (w : rhs.WF) :
    Res.Ok (build rhs) fun ht => ∀ v q, ht.find v = some q ↔ q < rhs.numRows ∧ rhs.at q = v ∧ ∀ p, q < p → p < rhs.numRows → rhs.at p ≠ v := by
  unfold build
  refine forLoop_ok (fun r (ht : HMap α) => ∀ v q, ht.find v = some q ↔ q < r ∧ rhs.at q = v ∧ ∀ p, q < p → p < r → rhs.at p ≠ v)
    0 rhs.numRows [] (Nat.zero_le _) (by simp [HMap.find]) ?_
  intro r ht _ hr h
  rw [read_at w hr, Res.ok_bind]
  refine Res.ok_iff.2 fun v q => ?_
  rw [HMap.find_assign]
  by_cases e : rhs.at r = v
  · rw [if_pos e]
    constructor
    · intro g; cases g; exact ⟨by omega, e, fun p h1 h2 => by omega⟩
    · rintro ⟨h1, h2, h3⟩
      rcases Nat.lt_or_ge q r with g | g
      · exact absurd e (h3 r g (by omega))
      · rw [show q = r by omega]
  · rw [if_neg e, h]
    constructor
    · rintro ⟨h1, h2, h3⟩
      refine ⟨by omega, h2, fun p g1 g2 => ?_⟩
      by_cases g : p = r
      · subst g; exact e
      · exact h3 p g1 (by omega)
    · rintro ⟨h1, h2, h3⟩
      have : q ≠ r := by rintro rfl; exact e h2
      exact ⟨by omega, h2, fun p g1 g2 => h3 p g1 (by omega)⟩

theorem build_isSome [DecidableEq α] {rhs : Column α} {ht : HMap α}
    (h : ∀ v q, ht.find v = some q ↔ q < rhs.numRows ∧ rhs.at q = v ∧ ∀ p, q < p → p < rhs.numRows → rhs.at p ≠ v) (v : α) :
    (ht.find v).isSome = true ↔ ∃ q, q < rhs.numRows ∧ rhs.at q = v := by
  constructor
  · intro g
    obtain ⟨q, hq⟩ := Option.isSome_iff_exists.1 g
    exact ⟨q, ((h v q).1 hq).1, ((h v q).1 hq).2.1⟩
  · rintro ⟨q, h1, h2⟩
    -- the last such position
    have : ∀ n q, rhs.numRows - q ≤ n → q < rhs.numRows → rhs.at q = v →
        ∃ q, q < rhs.numRows ∧ rhs.at q = v ∧ ∀ p, q < p → p < rhs.numRows → rhs.at p ≠ v := by
      intro n
      induction n with
      | zero => intro q a b; omega
      | succ n ih =>
        intro q a b c
        by_cases g : ∃ p, q < p ∧ p < rhs.numRows ∧ rhs.at p = v
        · obtain ⟨p, g1, g2, g3⟩ := g
          exact ih p (by omega) g2 g3
        · exact ⟨q, b, c, fun p g1 g2 g3 => g ⟨p, g1, g2, g3⟩⟩
    obtain ⟨p, hp⟩ := this _ q (Nat.le_refl _) h1 h2
    rw [(h v p).2 hp]; rfl

/-- Left rows with a partner. -/
def hasPartner [DecidableEq α] (lhs rhs : Column α) (r : Nat) : Bool := (List.range rhs.numRows).any fun q => rhs.at q = lhs.at r

theorem hasPartner_iff [DecidableEq α] (lhs rhs : Column α) (r : Nat) : hasPartner lhs rhs r = true ↔ ∃ q, q < rhs.numRows ∧ rhs.at q = lhs.at r := by
  simp [hasPartner]

/-- **C31 (semi-join).** The semi-join returns exactly the left positions with a partner, in order, whenever the number of result
rows is left to the kernel or is an upper bound. -/
theorem C31_semiJoin [DecidableEq α] (lhs rhs : Column α) (wl : lhs.WF) (wr : rhs.WF) (numRes : Option Nat) (junk : Nat → Nat)
    (hn : ∀ n, numRes = some n → (positions lhs.numRows (hasPartner lhs rhs)).length ≤ n) :
    Res.Ok (semiJoin lhs rhs numRes junk) fun res => res.WF ∧ res.toList = positions lhs.numRows (hasPartner lhs rhs) := by
  unfold semiJoin
  refine (build_ok rhs wr).bind fun ht hht => ?_
  have hcap : (positions lhs.numRows (hasPartner lhs rhs)).length ≤ numAlloc numRes lhs.numRows := by
    cases numRes with
    | none => exact positions_length_le _ _
    | some n => exact hn n rfl
  refine (selectLoop_ok lhs.numRows _ (hasPartner lhs rhs) (fun r hr => ?_) ⟨numAlloc numRes lhs.numRows, junk⟩ hcap).bind fun o ⟨h1, h2, h3⟩ => ?_
  · rw [read_at wl hr, Res.ok_bind]
    congr 1
    rw [Bool.eq_iff_iff, build_isSome hht, hasPartner_iff]
  · obtain ⟨k, out⟩ := o
    simp only at h1 h2 h3 ⊢
    exact (shrink_ok (k := k) (c := ⟨numAlloc numRes lhs.numRows, out⟩) (Nat.le_of_eq h2.symm) (by simp only; omega)).mono fun d ⟨d1, d2⟩ =>
      ⟨d1, by rw [d2, ← h3]⟩

/-- All pairs (left row, right row) with equal keys, ordered by left row, then right row. -/
def matching [DecidableEq α] (lhs rhs : Column α) : List (Nat × Nat) :=
  (List.range lhs.numRows).flatMap fun r => ((List.range rhs.numRows).filter fun q => rhs.at q = lhs.at r).map fun q => (r, q)

/-- The pairs the probe phase has found before row `i`. -/
def found [DecidableEq α] (lhs : Column α) (ht : HMap α) (i : Nat) : List (Nat × Nat) :=
  (List.range i).flatMap fun r => (ht.find (lhs.at r)).toList.map fun q => (r, q)

theorem found_succ [DecidableEq α] (lhs : Column α) (ht : HMap α) (i : Nat) :
    found lhs ht (i + 1) = found lhs ht i ++ (ht.find (lhs.at i)).toList.map fun q => (i, q) := by
  simp [found, List.range_succ]

theorem found_mono [DecidableEq α] (lhs : Column α) (ht : HMap α) {i j : Nat} (h : i ≤ j) : (found lhs ht i).length ≤ (found lhs ht j).length := by
  induction j with
  | zero => rw [show i = 0 by omega]
  | succ j ih =>
    by_cases e : i = j + 1
    · rw [e]
    · rw [found_succ, List.length_append]; have := ih (by omega); omega

theorem probe_ok [DecidableEq α] (lhs : Column α) (wl : lhs.WF) (ht : HMap α) (o1 o2 : Buf Nat) (n : Nat) (s1 : o1.size = n) (s2 : o2.size = n)
    (hn : (found lhs ht lhs.numRows).length ≤ n) :
    Res.Ok (probe lhs ht (0, o1, o2)) fun o => o.1 = (found lhs ht lhs.numRows).length ∧ o.2.1.size = n ∧ o.2.2.size = n ∧
      o.2.1.toList o.1 = (found lhs ht lhs.numRows).map Prod.fst ∧ o.2.2.toList o.1 = (found lhs ht lhs.numRows).map Prod.snd := by
  unfold probe
  refine forLoop_ok (fun i (o : Nat × Buf Nat × Buf Nat) => o.1 = (found lhs ht i).length ∧ o.2.1.size = n ∧ o.2.2.size = n ∧
      o.2.1.toList o.1 = (found lhs ht i).map Prod.fst ∧ o.2.2.toList o.1 = (found lhs ht i).map Prod.snd)
    0 lhs.numRows (0, o1, o2) (Nat.zero_le _) ⟨by simp [found], s1, s2, by simp [found, Buf.toList], by simp [found, Buf.toList]⟩ ?_
  rintro r ⟨k, p1, p2⟩ _ hr ⟨h1, h2, h3, h4, h5⟩
  simp only at h1 h2 h3 h4 h5 ⊢
  rw [read_at wl hr, Res.ok_bind]
  have hm := found_mono lhs ht (show r + 1 ≤ lhs.numRows by omega)
  rw [found_succ] at hm ⊢
  cases hf : ht.find (lhs.at r) with
  | none => exact Res.ok_iff.2 ⟨by simp [h1], h2, h3, by simp [h4], by simp [h5]⟩
  | some q =>
    rw [hf] at hm
    simp only [List.length_append, Option.toList_some, List.map_cons, List.map_nil, List.length_singleton] at hm
    simp only
    rw [Buf.write_eq (by omega), Res.ok_bind, Buf.write_eq (by omega), Res.ok_bind]
    exact Res.ok_iff.2 ⟨by simp [h1], h2, h3, by simp [Buf.toList_put, h4], by simp [Buf.toList_put, h5]⟩

theorem filter_range_one {n q : Nat} {p : Nat → Bool} (hq : q < n) (hp : p q = true) (hu : ∀ i, i < n → p i = true → i = q) :
    (List.range n).filter p = [q] := by
  induction n with
  | zero => omega
  | succ n ih =>
    rw [List.range_succ, List.filter_append]
    by_cases e : q = n
    · subst e
      have : (List.range q).filter p = [] := List.filter_eq_nil_iff.2 fun i hi hpi => by
        have := hu i (by have := List.mem_range.1 hi; omega) hpi
        have := List.mem_range.1 hi; omega
      simp [this, hp]
    · have : p n = false := by
        by_contra h
        have := hu n (by omega) (by simpa using h); omega
      rw [ih (by omega) fun i hi h => hu i (by omega) h]
      simp [this]

/-- **C31 (join).** If the right keys are unique, the join returns exactly the matching pairs, in left order, whenever the number of
result rows is left to the kernel or is an upper bound. -/
theorem C31_join [DecidableEq α] (lhs rhs : Column α) (wl : lhs.WF) (wr : rhs.WF)
    (hu : ∀ p q, p < rhs.numRows → q < rhs.numRows → rhs.at p = rhs.at q → p = q) (numRes : Option Nat) (j1 j2 : Nat → Nat)
    (hn : ∀ n, numRes = some n → (matching lhs rhs).length ≤ n) :
    Res.Ok (join lhs rhs numRes j1 j2) fun (c1, c2) => c1.WF ∧ c2.WF ∧
      c1.toList = (matching lhs rhs).map Prod.fst ∧ c2.toList = (matching lhs rhs).map Prod.snd := by
  unfold join
  refine (build_ok rhs wr).bind fun ht hht => ?_
  have hm : found lhs ht lhs.numRows = matching lhs rhs := by
    unfold found matching
    congr 1
    funext r
    congr 1
    cases hf : ht.find (lhs.at r) with
    | none =>
      symm
      rw [Option.toList_none, List.filter_eq_nil_iff]
      intro q hq hp
      have := (build_isSome hht (lhs.at r)).2 ⟨q, List.mem_range.1 hq, by simpa using hp⟩
      rw [hf] at this; simp at this
    | some q =>
      obtain ⟨h1, h2, _⟩ := (hht _ q).1 hf
      rw [Option.toList_some]
      exact (filter_range_one h1 (by simpa using h2) fun i hi hp => hu i q hi h1 (by rw [h2]; simpa using hp)).symm
  have hle : (matching lhs rhs).length ≤ lhs.numRows := by
    rw [← hm]
    have : ∀ i, (found lhs ht i).length ≤ i := by
      intro i
      induction i with
      | zero => simp [found]
      | succ i ih =>
        rw [found_succ, List.length_append]
        cases ht.find (lhs.at i) <;> simp <;> omega
    exact this _
  have hcap : (matching lhs rhs).length ≤ numAlloc numRes lhs.numRows := by
    cases numRes with
    | none => exact hle
    | some n => exact hn n rfl
  refine (probe_ok lhs wl ht ⟨_, j1⟩ ⟨_, j2⟩ (numAlloc numRes lhs.numRows) rfl rfl (by rw [hm]; exact hcap)).bind ?_
  rintro ⟨k, o1, o2⟩ ⟨h1, h2, h3, h4, h5⟩
  simp only [hm] at h1 h2 h3 h4 h5 ⊢
  refine (shrink_ok (k := k) (c := ⟨numAlloc numRes lhs.numRows, o1⟩) (Nat.le_of_eq h2.symm) (by simp only; omega)).bind fun c1 ⟨a1, a2⟩ => ?_
  refine (shrink_ok (k := k) (c := ⟨numAlloc numRes lhs.numRows, o2⟩) (Nat.le_of_eq h3.symm) (by simp only; omega)).bind fun c2 ⟨b1, b2⟩ => ?_
  exact Res.ok_iff.2 ⟨a1, b1, by rw [a2, h4], by rw [b2, h5]⟩

/-- Column holding a list (for examples). -/
def Column.ofList [Inhabited α] (l : List α) : Column α := ⟨l.length, Buf.ofList l⟩

/-- **C50: refuted.** With a duplicate key on the right, `join` loses a matching pair: keys [7] joined with [7, 7] has two matching
pairs, the kernel returns one. -/
theorem C50_duplicate_keys_lost :
    matching (Column.ofList [7]) (Column.ofList [7, 7]) = [(0, 0), (0, 1)] ∧
    ∃ c1 c2, join (Column.ofList [7]) (Column.ofList [7, 7]) none (fun _ => 0) (fun _ => 0) = .ok (c1, c2) ∧
      c1.toList = [0] ∧ c2.toList = [1] := by
  refine ⟨by decide, ?_⟩
  exact ⟨_, _, rfl, rfl, rfl⟩

/-! ### Examples -/

example : (matching (Column.ofList [3, 9, 5, 3]) (Column.ofList [5, 3, 8])) = [(0, 1), (2, 0), (3, 1)] ∧
    positions 4 (hasPartner (Column.ofList [3, 9, 5, 3]) (Column.ofList [5, 3, 8])) = [0, 2, 3] := by decide

example : Res.Ok (join (Column.ofList [3, 9, 5, 3]) (Column.ofList [5, 3, 8]) none (fun _ => 0) (fun _ => 0))
    (fun (c1, c2) => c1.toList = [0, 2, 3] ∧ c2.toList = [1, 0, 1]) :=
  (C31_join (Column.ofList [3, 9, 5, 3]) (Column.ofList [5, 3, 8]) (Nat.le_refl _) (Nat.le_refl _) (fun p q hp hq => by
      have : ∀ p, p < 3 → ∀ q, q < 3 → (Column.ofList [5, 3, 8]).at p = (Column.ofList [5, 3, 8]).at q → p = q := by decide
      exact this p hp q hq) none _ _ (by simp)).mono
    fun _ h => ⟨h.2.2.1.trans (by decide), h.2.2.2.trans (by decide)⟩

example : Res.Ok (merge (Column.ofList [1, 4, 6]) (Column.ofList [0, 4, 9]) (fun _ => 0)) (fun res => 9 ∈ res.toList ∧ 4 ∈ res.toList) :=
  (C30_merge (Column.ofList [1, 4, 6]) (Column.ofList [0, 4, 9]) (Nat.le_refl _) (Nat.le_refl _) (by decide) (by decide) _).mono
    fun _ h => ⟨(h.2.2 9).2 (by decide), (h.2.2 4).2 (by decide)⟩

example : Res.Ok (select (Cmp.GE.func · 5) (Column.ofList [3, 9, 5, 3]) (fun _ => 0)) (fun res => res.toList = [1, 2]) :=
  (C29_select (Cmp.GE.func · 5) (Column.ofList [3, 9, 5, 3]) (Nat.le_refl _) _).mono fun _ h => h.2.trans (by decide)

end Verif.Col
