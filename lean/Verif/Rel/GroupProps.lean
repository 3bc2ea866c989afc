/-
  Proofs about `Verif/Rel/Group.lean`.
-/
import Verif.Rel.Group

namespace Verif.Rel
open Verif

/-! ## Specification of GROUP BY -/

/-- `gs` is the grouping of rows `0 … n-1` by the key columns: every row in exactly one group, no group empty, rows of a
    group agree in all keys and are listed in row order, and the groups are in ascending lexicographic order of their
    keys (in particular, rows of different groups differ in some key). -/
structure IsGrouping (n : Nat) (keys : List Key) (gs : List (List Nat)) : Prop where
  perm : gs.flatten.Perm (List.range n)
  nonempty : ∀ g ∈ gs, g ≠ []
  same : ∀ g ∈ gs, ∀ a ∈ g, ∀ b ∈ g, LexSame (keys.map (·, true)) a b
  rowOrder : ∀ g ∈ gs, g.Pairwise (· < ·)
  ascending : gs.Pairwise fun g h => ∀ a ∈ g, ∀ b ∈ h, LexBefore (keys.map (·, true)) a b

/-- What each aggregate of a group is, given the group's values in row order. -/
def AggSpec (ops : Ops V) (vt : VTC) (vals : List V) (out : V) : GFn → Prop
  | .count => out = ops.ofCount vals.length
  | .sum => out = vals.foldl (ops.add vt) (ops.zero vt)
  | .avg => out = ops.divD (vals.foldl (ops.addD vt) ops.zeroD) vals.length
  | .min => out ∈ vals ∧ ∀ v ∈ vals, ops.lt vt v out = false
  | .max => out ∈ vals ∧ ∀ v ∈ vals, ops.lt vt out v = false

/-- The value type of an aggregated column: counts are unsigned 64-bit integers, averages doubles, everything else keeps its
    type. -/
def AggType (vt : VTC) (f : GFn) : VTC := if f = .count then .ui64 else if f = .avg then .f64 else vt

/-! ## Auxiliary -/

theorem mapM_ok {f : α → Res β} {g : α → β} : ∀ {l : List α}, (∀ x ∈ l, f x = .ok (g x)) → l.mapM f = .ok (l.map g) := by
  intro l
  induction l with
  | nil => intro _; rfl
  | cons x l ih =>
    intro h
    rw [List.mapM_cons, h x List.mem_cons_self, ih fun y hy => h y (List.mem_cons_of_mem _ hy)]
    rfl

theorem readRange_eq {b : Buf V} {lo hi : Nat} (h : hi ≤ b.size) (hle : lo ≤ hi) :
    readRange b lo hi = .ok ((List.range' lo (hi - lo)).map b.data) := by
  unfold readRange
  refine mapM_ok fun x hx => ?_
  rw [List.mem_range'_1] at hx
  exact Buf.read_eq (by omega)

/-- Positions of the segments, starting at `off`. -/
def segRanges : Nat → List (List Nat) → List (Nat × Nat)
  | _, [] => []
  | off, s :: ss => (off, off + s.length) :: segRanges (off + s.length) ss

/-- All ranges from position `off` on. -/
def rangesFrom : Nat → List (Nat × Nat) → Nat → List (Nat × Nat)
  | off, [], e => singles off e
  | off, g :: gs, e => singles off g.1 ++ g :: rangesFrom g.2 gs e

theorem rangesFrom_mid : ∀ (gs : List (Nat × Nat)) (g : Nat × Nat) (e : Nat),
    g :: rangesFrom g.2 gs e = midRanges (g :: gs) ++ singles ((g :: gs).getLastD (0, 0)).2 e := by
  intro gs
  induction gs with
  | nil => intro g e; simp [rangesFrom, midRanges]
  | cons g' gs ih =>
    intro g e
    rw [rangesFrom, midRanges, ih g' e]
    simp

theorem aggRanges_eq (gs : List (Nat × Nat)) (n : Nat) : aggRanges gs n = rangesFrom 0 gs n := by
  cases gs with
  | nil => rfl
  | cons g gs => rw [rangesFrom, rangesFrom_mid]; simp [aggRanges]

theorem Rep.head_ge {b off ss gs} (h : Rep b off ss gs) : ∀ g gs', gs = g :: gs' → off ≤ g.1 := by
  induction h with
  | nil => intro g gs' h; simp at h
  | keep _ _ _ => intro g gs' h; simp at h; rw [← h.1]
  | skip _ _ ih => intro g gs' h; have := ih g gs' h; omega

theorem singles_cons {a b : Nat} (h : a < b) : singles a b = (a, a + 1) :: singles (a + 1) b := by
  unfold singles
  rw [show b - a = (b - (a + 1)) + 1 by omega, List.range'_succ]
  rfl

theorem singles_self (a : Nat) : singles a a = [] := by simp [singles]

theorem rangesFrom_rep {b off ss gs} (h : Rep b off ss gs) (hne : ∀ s ∈ ss, s ≠ []) :
    rangesFrom off gs (off + ss.flatten.length) = segRanges off ss := by
  induction h with
  | nil off => simp [rangesFrom, segRanges, singles_self]
  | @keep off s ss gs _ _ ih =>
    have := ih fun t ht => hne t (List.mem_cons_of_mem _ ht)
    rw [rangesFrom, singles_self, segRanges, ← this]
    simp [Nat.add_assoc]
  | @skip off s ss gs hs hr ih =>
    have := ih fun t ht => hne t (List.mem_cons_of_mem _ ht)
    have hlen : s.length = 1 := by
      have := hne s List.mem_cons_self
      have := List.length_pos_iff.2 this
      omega
    rw [segRanges, ← this, hlen]
    cases gs with
    | nil =>
      simp only [rangesFrom, List.flatten_cons, List.length_append]
      rw [singles_cons (by omega), hlen, Nat.add_assoc]
    | cons g gs =>
      have := hr.head_ge g gs rfl
      simp only [rangesFrom, List.flatten_cons, List.length_append]
      rw [singles_cons (by omega), hlen, Nat.add_assoc]
      rfl

theorem segRanges_length (ss : List (List Nat)) : ∀ off, (segRanges off ss).length = ss.length := by
  induction ss with
  | nil => intro _; rfl
  | cons s ss ih => intro off; simp [segRanges, ih]

theorem rep_count {b off ss gs} (h : Rep b off ss gs) (hne : ∀ s ∈ ss, s ≠ []) :
    ((ss.flatten.length : Int) - ((gs.map fun g => (g.2 : Int) - g.1).sum - gs.length)) = ss.length := by
  induction h with
  | nil off => simp
  | @keep off s ss gs _ _ ih =>
    have := ih fun t ht => hne t (List.mem_cons_of_mem _ ht)
    simp only [List.flatten_cons, List.length_append, List.map_cons, List.sum_cons, List.length_cons]
    push_cast
    omega
  | @skip off s ss gs hs hr ih =>
    have := ih fun t ht => hne t (List.mem_cons_of_mem _ ht)
    have hlen : s.length = 1 := by
      have := hne s List.mem_cons_self
      have := List.length_pos_iff.2 this
      omega
    simp only [List.flatten_cons, List.length_append, List.length_cons, hlen]
    push_cast
    omega

/-- The aggregation loop over the segments: result row `i` is the aggregate of the `i`-th segment. -/
theorem aggLoop_ok {ops : Ops V} {fn : Option GFn} {resT argT : VTC} {src : Nat → V} {arg : Buf V} :
    ∀ (ss : List (List Nat)) (pre : List Nat) (row : Nat) (out : Buf V) (res : List Nat → V),
      (∀ r, r < (pre ++ ss.flatten).length → arg.data r = src ((pre ++ ss.flatten).getD r 0)) →
      (pre ++ ss.flatten).length ≤ arg.size → row + ss.length ≤ out.size →
      (∀ s ∈ ss, aggregate ops fn resT argT (s.map src) = .ok (res s)) →
      ∃ o, (segRanges pre.length ss).foldlM (init := (row, out)) (fun st g => do
          let vals ← readRange arg g.1 g.2
          let v ← aggregate ops fn resT argT vals
          let o ← st.2.write st.1 v
          .ok (st.1 + 1, o)) = (.ok (row + ss.length, o) : Res (Nat × Buf V)) ∧
        o.size = out.size ∧ (∀ i, i < row → o.data i = out.data i) ∧
        ∀ i, i < ss.length → o.data (row + i) = res (ss.getD i []) := by
  intro ss
  induction ss with
  | nil =>
    intro pre row out res _ _ _ _
    exact ⟨out, rfl, rfl, fun _ _ => rfl, fun i hi => by simp at hi⟩
  | cons s ss ih =>
    intro pre row out res hd hsz hout hagg
    have hmem := hagg s List.mem_cons_self
    have hrd : readRange arg pre.length (pre.length + s.length) = .ok (s.map src) := by
      rw [readRange_eq (by simp at hsz; omega) (by omega)]
      congr 1
      apply List.ext_getElem
      · simp
      · intro i h1 h2
        simp only [List.length_map, List.length_range', Nat.add_sub_cancel_left] at h1
        simp only [List.getElem_map, List.getElem_range', Nat.one_mul]
        rw [hd _ (by simp; omega)]
        congr 1
        rw [List.getD_eq_getElem?_getD, List.getElem?_append_right (by omega), Nat.add_sub_cancel_left, List.flatten_cons,
          List.getElem?_append_left h1]
        simp [h1]
    simp only [List.length_cons] at hout
    obtain ⟨o, h1, h2, h3, h4⟩ := ih (pre ++ s) (row + 1) (out.put row (res s)) res (by
        simpa using hd) (by simpa using hsz) (by simp only [Buf.put_size]; omega)
      (fun t ht => hagg t (List.mem_cons_of_mem _ ht))
    refine ⟨o, ?_, h2, ?_, ?_⟩
    · rw [segRanges, List.foldlM_cons]
      dsimp only
      rw [hrd, Res.ok_bind, hmem, Res.ok_bind, Buf.write_eq (by omega), Res.ok_bind, Res.ok_bind]
      rw [List.length_append] at h1
      rw [h1, List.length_cons]
      congr 2
      omega
    · intro i hi
      rw [h3 i (by omega), Buf.put_data_ne _ _ _ _ (by omega)]
    · intro i hi
      cases i with
      | zero => rw [Nat.add_zero, h3 row (by omega)]; simp
      | succ i =>
        simp only [List.length_cons] at hi
        have := h4 i (by omega)
        rw [show row + (i + 1) = row + 1 + i by omega, this]
        simp

theorem columnGroupAgg_ok {ops : Ops V} {fn : Option GFn} {resT argT : VTC} {src : Nat → V} {arg : Buf V}
    {ss : List (List Nat)} {gs : List (Nat × Nat)} {n : Nat} {out : Buf V} (res : List Nat → V)
    (hr : aggRanges gs n = segRanges 0 ss)
    (hd : ∀ r, r < ss.flatten.length → arg.data r = src (ss.flatten.getD r 0))
    (hsz : ss.flatten.length ≤ arg.size) (hout : ss.length ≤ out.size)
    (hagg : ∀ s ∈ ss, aggregate ops fn resT argT (s.map src) = .ok (res s)) :
    ∃ o, columnGroupAgg ops fn resT argT arg gs n out = .ok o ∧ o.size = out.size ∧
      ∀ i, i < ss.length → o.data i = res (ss.getD i []) := by
  obtain ⟨o, h1, h2, _, h4⟩ := aggLoop_ok (ops := ops) (fn := fn) (resT := resT) (argT := argT) (src := src) (arg := arg)
    ss [] 0 out res (by simpa using hd) (by simpa using hsz) (by omega) hagg
  refine ⟨o, ?_, h2, fun i hi => by simpa using h4 i hi⟩
  unfold columnGroupAgg
  rw [hr]
  rw [List.length_nil] at h1
  rw [h1]
  rfl

/-! ## Minimum and maximum -/

theorem minFold_spec {lt : V → V → Bool} (hirr : ∀ a, lt a a = false) (htr : ∀ a b c, lt a b → lt b c → lt a c)
    (hnt : ∀ a b c, lt a b = false → lt b c = false → lt a c = false) :
    ∀ (xs : List V) (x : V), let m := xs.foldl (fun best y => if lt y best then y else best) x
      (m ∈ x :: xs) ∧ ∀ v ∈ x :: xs, lt v m = false := by
  intro xs
  induction xs with
  | nil => intro x; simp [hirr]
  | cons y xs ih =>
    intro x
    rw [List.foldl_cons]
    cases h : lt y x
    · rw [if_neg (by simp)]
      obtain ⟨h1, h2⟩ := ih x
      refine ⟨?_, ?_⟩
      · rcases List.mem_cons.1 h1 with h1 | h1
        · rw [h1]; simp
        · exact List.mem_cons_of_mem _ (List.mem_cons_of_mem _ h1)
      · intro v hv
        rcases List.mem_cons.1 hv with rfl | hv
        · exact h2 v (by simp)
        · rcases List.mem_cons.1 hv with rfl | hv
          · exact hnt _ _ _ h (h2 x (by simp))
          · exact h2 v (by simp [hv])
    · rw [if_pos rfl]
      obtain ⟨h1, h2⟩ := ih y
      refine ⟨List.mem_cons_of_mem _ h1, ?_⟩
      intro v hv
      rcases List.mem_cons.1 hv with rfl | hv
      · have hxy : lt v y = false := by
          cases h' : lt v y
          · rfl
          · have := htr _ _ _ h h'
            rw [hirr] at this; simp at this
        exact hnt _ _ _ hxy (h2 y (by simp))
      · exact h2 v hv

theorem minElem_spec {lt : V → V → Bool} (hirr : ∀ a, lt a a = false) (htr : ∀ a b c, lt a b → lt b c → lt a c)
    (hnt : ∀ a b c, lt a b = false → lt b c = false → lt a c = false) {l : List V} (hl : l ≠ []) :
    ∃ m, minElem lt l = some m ∧ m ∈ l ∧ ∀ v ∈ l, lt v m = false := by
  cases l with
  | nil => exact absurd rfl hl
  | cons x xs =>
    obtain ⟨h1, h2⟩ := minFold_spec hirr htr hnt xs x
    exact ⟨_, rfl, h1, h2⟩

theorem maxElem_spec {lt : V → V → Bool} (hirr : ∀ a, lt a a = false) (htr : ∀ a b c, lt a b → lt b c → lt a c)
    (hnt : ∀ a b c, lt a b = false → lt b c = false → lt a c = false) {l : List V} (hl : l ≠ []) :
    ∃ m, maxElem lt l = some m ∧ m ∈ l ∧ ∀ v ∈ l, lt m v = false := by
  cases l with
  | nil => exact absurd rfl hl
  | cons x xs =>
    obtain ⟨h1, h2⟩ := minFold_spec (lt := fun a b => lt b a) hirr (fun a b c h h' => htr _ _ _ h' h)
      (fun a b c h h' => hnt _ _ _ h' h) xs x
    exact ⟨_, rfl, h1, h2⟩

end Verif.Rel
