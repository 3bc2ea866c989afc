/-
  C32, C33: columnar grouping and grouped aggregation.
-/
import Verif.Col.Props

namespace Verif.Col
open Verif Verif.Dense
variable {α δ : Type}

/-! ### Specification -/

/-- `r` is the first row with its key. -/
def isFirst [DecidableEq δ] (key : Nat → δ) (r : Nat) : Bool := (List.range r).all fun q => key q ≠ key r

theorem isFirst_iff [DecidableEq δ] (key : Nat → δ) (r : Nat) : isFirst key r = true ↔ ∀ q, q < r → key q ≠ key r := by
  simp [isFirst]

/-- Group ids and representatives for `n` rows with the given keys: the representatives are the first rows of the groups in
ascending order; every row has the id (position in that list) of the representative with its key. -/
structure GroupsOf [DecidableEq δ] (n : Nat) (key : Nat → δ) (ids reprs : Column Nat) : Prop where
  idsWF : ids.WF
  reprsWF : reprs.WF
  rows : ids.numRows = n
  firsts : reprs.toList = positions n (isFirst key)
  id_lt : ∀ r, r < n → ids.at r < reprs.numRows
  same : ∀ r s, r < n → s < n → (ids.at r = ids.at s ↔ key r = key s)
  repr : ∀ r, r < n → key (reprs.at (ids.at r)) = key r ∧ reprs.at (ids.at r) ≤ r

theorem HMap.length_assign [DecidableEq δ] (m : HMap δ) (k : δ) (v : Nat) :
    (m.assign k v).length = if (m.find k).isSome then m.length else m.length + 1 := by
  induction m with
  | nil => simp [assign, find]
  | cons e m ih =>
    obtain ⟨j, w⟩ := e
    simp only [assign, find] at ih ⊢
    by_cases h : j = k
    · subst h; simp
    · rw [if_neg h]
      have hb : (k == j) = false := by simpa using Ne.symm h
      simp only [List.length_cons, List.lookup, hb]
      rw [ih]
      by_cases hq : (List.lookup k m).isSome = true <;> simp [hq]

theorem groupLoop_ok [DecidableEq δ] (n : Nat) (key : Nat → Res δ) (κ : Nat → δ) (hk : ∀ r, r < n → key r = .ok (κ r)) (j1 j2 : Nat → Nat) :
    Res.Ok (groupLoop n key ⟨n, j1⟩ ⟨n, j2⟩) fun (_, ids, k, reprs) => k ≤ n ∧ GroupsOf n κ ⟨n, ids⟩ ⟨k, reprs⟩ := by
  unfold groupLoop
  refine (forLoop_ok (fun r (s : HMap δ × Buf Nat × Nat × Buf Nat) => s.1.length = s.2.2.1 ∧ s.2.1.size = n ∧ s.2.2.2.size = n ∧ s.2.2.1 ≤ r ∧
      s.2.2.2.toList s.2.2.1 = positions r (isFirst κ) ∧
      (∀ x g, s.1.find x = some g → ∃ q, q < r ∧ κ q = x) ∧
      (∀ q, q < r → s.1.find (κ q) = some (s.2.1.data q + 1) ∧ s.2.1.data q < s.2.2.1 ∧
        κ (s.2.2.2.data (s.2.1.data q)) = κ q ∧ s.2.2.2.data (s.2.1.data q) ≤ q))
    0 n ([], ⟨n, j1⟩, 0, ⟨n, j2⟩) (Nat.zero_le _) ⟨rfl, rfl, rfl, Nat.le_refl _, by simp [positions, Buf.toList], by simp [HMap.find],
      fun q h => by omega⟩ ?_).mono ?_
  · rintro r ⟨m, ids, k, reprs⟩ _ hr ⟨h1, h2, h3, h4, h5, h6, h7⟩
    simp only at h1 h2 h3 h4 h5 h6 h7 ⊢
    rw [hk r hr, Res.ok_bind]
    cases hf : m.find (κ r) with
    | some g =>
      obtain ⟨q, hq, hqk⟩ := h6 _ _ hf
      obtain ⟨q1, q2, q3, q4⟩ := h7 q hq
      rw [hqk, hf] at q1
      cases q1
      have e : grpLookup m (κ r) = (ids.data q + 1, m, false) := by simp [grpLookup, hf]
      simp only [e]
      rw [if_neg (by simp), Buf.write_eq (by omega), Res.ok_bind]
      have hnf : isFirst κ r = false := by
        rw [Bool.eq_false_iff, Ne, isFirst_iff]; intro h; exact h q hq hqk
      refine Res.ok_iff.2 ⟨h1, h2, h3, by simp only; omega, by rw [positions_succ]; simpa [hnf] using h5, fun x g hg => ?_, fun p hp => ?_⟩
      · obtain ⟨p, hp1, hp2⟩ := h6 x g hg
        exact ⟨p, by omega, hp2⟩
      · by_cases ep : p = r
        · subst ep
          simp only [Buf.put_data_same, Nat.add_sub_cancel]
          exact ⟨hf, q2, by rw [q3, hqk], by omega⟩
        · simp only [Buf.put_data_ne _ _ _ _ ep]
          exact h7 p (by omega)
    | none =>
      have e : grpLookup m (κ r) = (m.length + 1, m.assign (κ r) (m.length + 1), true) := by simp [grpLookup, hf]
      simp only [e]
      rw [if_pos trivial, Buf.write_eq (by omega), Res.ok_bind, Buf.write_eq (by omega), Res.ok_bind]
      have hfst : isFirst κ r = true := by
        rw [isFirst_iff]; intro q hq hqk
        have := (h7 q hq).1
        rw [hqk, hf] at this; cases this
      refine Res.ok_iff.2 ⟨?_, h2, h3, by simp only; omega, ?_, fun x g hg => ?_, fun p hp => ?_⟩
      · simp only [HMap.length_assign, hf]; simp [h1]
      · rw [positions_succ, if_pos hfst, ← h5]; exact Buf.toList_put _ _ _
      · simp only [HMap.find_assign] at hg
        split at hg
        · exact ⟨r, by omega, by assumption⟩
        · obtain ⟨p, hp1, hp2⟩ := h6 x g hg
          exact ⟨p, by omega, hp2⟩
      · simp only [HMap.find_assign]
        by_cases ep : p = r
        · subst ep
          simp only [Buf.put_data_same, Nat.add_sub_cancel, h1, if_true]
          exact ⟨trivial, by omega, trivial, Nat.le_refl _⟩
        · simp only [Buf.put_data_ne _ _ _ _ ep]
          obtain ⟨p1, p2, p3, p4⟩ := h7 p (by omega)
          have hne : κ r ≠ κ p := fun g => (isFirst_iff κ r).1 hfst p (by omega) g.symm
          rw [if_neg hne, Buf.put_data_ne _ _ _ _ (by omega)]
          exact ⟨p1, by omega, p3, p4⟩
  · rintro ⟨m, ids, k, reprs⟩ ⟨h1, h2, h3, h4, h5, h6, h7⟩
    simp only at h1 h2 h3 h4 h5 h6 h7 ⊢
    refine ⟨h4, ⟨Nat.le_of_eq h2.symm, Nat.le_trans h4 (Nat.le_of_eq h3.symm), rfl, h5, fun r hr => (h7 r hr).2.1, fun r s hr hs => ?_,
      fun r hr => (h7 r hr).2.2⟩⟩
    obtain ⟨a1, a2, a3, a4⟩ := h7 r hr
    obtain ⟨b1, b2, b3, b4⟩ := h7 s hs
    constructor
    · intro e
      simp only [Column.at] at e
      rw [← a3, ← b3, e]
    · intro e
      rw [e, b1] at a1
      simp only [Option.some.injEq, Nat.add_right_cancel_iff] at a1
      exact a1.symm

/-- **C32 (first column).** -/
theorem C32_groupFirst [DecidableEq α] (arg : Column α) (w : arg.WF) (j1 j2 : Nat → Nat) :
    Res.Ok (groupFirst arg j1 j2) fun p => GroupsOf arg.numRows arg.at p.1 p.2 := by
  unfold groupFirst
  refine (groupLoop_ok arg.numRows _ arg.at (fun r hr => read_at w hr) j1 j2).bind ?_
  rintro ⟨m, ids, k, reprs⟩ ⟨h1, h2⟩
  simp only at h1 h2 ⊢
  unfold Column.shrinkNumRows
  rw [if_neg (by simpa using h1), Res.ok_bind]
  exact Res.ok_iff.2 h2

/-- **C32 (next column).** Refining given group ids by a further column; different lengths are rejected. -/
theorem C32_groupNext [DecidableEq α] (arg : Column α) (grp : Column Nat) (w : arg.WF) (wg : grp.WF) (j1 j2 : Nat → Nat) :
    (arg.numRows = grp.numRows → Res.Ok (groupNext arg grp j1 j2) fun p => GroupsOf arg.numRows (fun r => (arg.at r, grp.at r)) p.1 p.2) ∧
    (arg.numRows ≠ grp.numRows → Res.Throws (groupNext arg grp j1 j2)) := by
  constructor
  · intro h
    unfold groupNext
    rw [if_neg (by omega)]
    refine (groupLoop_ok arg.numRows _ (fun r => (arg.at r, grp.at r)) (fun r hr => by
      rw [read_at w hr, Res.ok_bind, read_at wg (by omega)]; rfl) j1 j2).bind ?_
    rintro ⟨m, ids, k, reprs⟩ ⟨h1, h2⟩
    simp only at h1 h2 ⊢
    unfold Column.shrinkNumRows
    rw [if_neg (by simpa using h1), Res.ok_bind]
    exact Res.ok_iff.2 h2
  · intro h
    unfold groupNext
    rw [if_pos h]; exact ⟨_, rfl⟩

theorem GroupsOf.congr {δ' : Type} [DecidableEq δ] [DecidableEq δ'] {n : Nat} {κ : Nat → δ} {κ' : Nat → δ'} {ids reprs : Column Nat}
    (g : GroupsOf n κ ids reprs) (h : ∀ r s, r < n → s < n → (κ r = κ s ↔ κ' r = κ' s)) : GroupsOf n κ' ids reprs := by
  refine ⟨g.idsWF, g.reprsWF, g.rows, ?_, g.id_lt, fun r s hr hs => (g.same r s hr hs).trans (h r s hr hs), fun r hr => ?_⟩
  · rw [g.firsts]
    unfold positions
    apply List.filter_congr
    intro r hr
    have hr := List.mem_range.1 hr
    rw [Bool.eq_iff_iff, isFirst_iff, isFirst_iff]
    constructor
    · intro f q hq e; exact f q hq ((h q r (by omega) hr).2 e)
    · intro f q hq e; exact f q hq ((h q r (by omega) hr).1 e)
  · have := g.repr r hr
    exact ⟨(h _ r (by omega) hr).1 this.1, this.2⟩

/-- **C32 (all columns).** Grouping by any number of columns, chaining the kernels: two rows get the same id iff they agree on all
columns, ids are dense in first-occurrence order, and the representatives are the first rows of the groups. -/
theorem C32_groupBy [DecidableEq α] (n : Nat) (first : Column α) (rest : List (Column α)) (hw : ∀ c ∈ first :: rest, c.WF ∧ c.numRows = n)
    (j1 j2 : Nat → Nat) :
    Res.Ok (groupBy first rest j1 j2) fun p => GroupsOf n (fun r => (first :: rest).map fun c => c.at r) p.1 p.2 := by
  have key : ∀ (rest done : List (Column α)) (p : Column Nat × Column Nat), (∀ c ∈ rest, c.WF ∧ c.numRows = n) →
      GroupsOf n (fun r => done.map fun c => c.at r) p.1 p.2 →
      Res.Ok (rest.foldlM (fun p c => groupNext c p.1 j1 j2) p) fun p => GroupsOf n (fun r => (done ++ rest).map fun c => c.at r) p.1 p.2 := by
    intro rest
    induction rest with
    | nil => intro done p _ h; exact ⟨p, rfl, by simpa using h⟩
    | cons c rest ih =>
      intro done p hr h
      have hc := hr c (by simp)
      rw [List.foldlM_cons]
      refine ((C32_groupNext c p.1 hc.1 h.idsWF j1 j2).1 (by rw [hc.2, h.rows])).bind fun q hq => ?_
      rw [hc.2] at hq
      have hiff : ∀ r s, r < n → s < n → (((c.at r, p.1.at r) = (c.at s, p.1.at s)) ↔
          ((done ++ [c]).map fun c => c.at r) = ((done ++ [c]).map fun c => c.at s)) := by
        intro r s hr hs
        rw [Prod.mk.injEq, h.same r s hr hs, List.map_append, List.map_append]
        constructor
        · rintro ⟨h1, h2⟩; rw [h2]; simp [h1]
        · intro e
          have := List.append_inj e (by simp)
          exact ⟨by simpa using this.2, this.1⟩
      have := ih (done ++ [c]) q (fun c hc => hr c (by simp [hc])) (hq.congr hiff)
      simpa using this
  have h1 := hw first (by simp)
  unfold groupBy
  refine (C32_groupFirst first h1.1 j1 j2).bind fun p hp => ?_
  rw [h1.2] at hp
  exact key rest [first] p (fun c hc => hw c (by simp [hc])) (hp.congr fun r s _ _ => by simp)

/-! ### Grouped aggregation -/

/-- Aggregate of the rows of group `g`, in row order. -/
def groupFold (f : α → α → α) (neutral : α) (n : Nat) (grp : Nat → Int) (v : Nat → α) (g : Nat) : α :=
  (positions n fun r => grp r = (g : Int)).foldl (fun a r => f a (v r)) neutral

theorem groupFold_succ (f : α → α → α) (neutral : α) (n : Nat) (grp : Nat → Int) (v : Nat → α) (g : Nat) :
    groupFold f neutral (n + 1) grp v g = if grp n = (g : Int) then f (groupFold f neutral n grp v g) (v n) else groupFold f neutral n grp v g := by
  unfold groupFold
  rw [positions_succ, List.foldl_append]
  by_cases h : grp n = (g : Int) <;> simp [h]

theorem checkGrp_ok {g : Int} {nd : Nat} (h : 0 ≤ g ∧ g < nd) : checkGrp g nd = .ok g.toNat := by
  unfold checkGrp; rw [if_neg (by omega)]

theorem checkGrp_throws {g : Int} {nd : Nat} (h : g < 0 ∨ (nd : Int) < g) : Res.Throws (checkGrp g nd) := by
  unfold checkGrp; rw [if_pos (by omega)]; exact ⟨_, rfl⟩

/-- **C33 (plain).** For group ids below the number of groups, the kernel returns for each group the aggregate of its rows, in row
order. Different lengths are rejected; and so are ids below 0 or above the number of groups (an id equal to the number of groups:
see C49). -/
theorem C33_aggGrp (f : α → α → α) (neutral : α) (data : Column α) (grp : Column Int) (w : data.WF) (wg : grp.WF) (nd : Nat) :
    (data.numRows = grp.numRows → (∀ r, r < grp.numRows → 0 ≤ grp.at r ∧ grp.at r < nd) →
      Res.Ok (aggGrp f neutral data grp nd) fun res => res.WF ∧ res.numRows = nd ∧
        ∀ g, g < nd → res.at g = groupFold f neutral data.numRows grp.at data.at g) ∧
    (data.numRows ≠ grp.numRows → Res.Throws (aggGrp f neutral data grp nd)) ∧
    (data.numRows = grp.numRows → (∀ r, r < grp.numRows → grp.at r ≠ nd) → (∃ r, r < grp.numRows ∧ (grp.at r < 0 ∨ (nd : Int) < grp.at r)) →
      Res.Throws (aggGrp f neutral data grp nd)) := by
  refine ⟨fun hn h => ?_, fun hn => ?_, fun hn hne hb => ?_⟩
  · unfold aggGrp applyAgg
    rw [if_neg (by omega)]
    refine Res.Ok.bind (forLoop_ok (fun r (b : Buf α) => b.size = nd ∧ ∀ g, g < nd → b.data g = groupFold f neutral r grp.at data.at g)
      0 data.numRows _ (Nat.zero_le _) ⟨rfl, fun g _ => by simp [groupFold, positions]⟩ fun r b _ hr ⟨h1, h2⟩ => ?_) fun b ⟨h1, h2⟩ =>
        Res.ok_iff.2 ⟨Nat.le_of_eq h1.symm, rfl, h2⟩
    have hg := h r (by omega)
    rw [read_at wg (by omega), Res.ok_bind, checkGrp_ok hg, Res.ok_bind, Buf.read_eq (by omega), Res.ok_bind, read_at w hr, Res.ok_bind,
      Buf.write_eq (by omega)]
    refine Res.ok_iff.2 ⟨h1, fun g hgn => ?_⟩
    rw [groupFold_succ]
    by_cases e : grp.at r = (g : Int)
    · rw [if_pos e, ← h2 g hgn, e]; simp
    · rw [if_neg e, Buf.put_data_ne _ _ _ _ (by omega), h2 g hgn]
  · unfold aggGrp; rw [if_pos hn]; exact ⟨_, rfl⟩
  · obtain ⟨r, hr, hb⟩ := hb
    unfold aggGrp applyAgg
    rw [if_neg (by omega)]
    refine Res.throws_bind (forLoop_throws (fun b : Buf α => b.size = nd) _ _ _ rfl (fun q b _ hq hs => ?_) ⟨r, Nat.zero_le _, by omega, fun b _ => ?_⟩)
    · rw [read_at wg (by omega), Res.ok_bind]
      have := hne q (by omega)
      by_cases hg : 0 ≤ grp.at q ∧ grp.at q < nd
      · rw [checkGrp_ok hg, Res.ok_bind, Buf.read_eq (by omega), Res.ok_bind, read_at w hq, Res.ok_bind, Buf.write_eq (by omega)]
        exact .inl (Res.ok_iff.2 hs)
      · exact .inr (Res.throws_bind (checkGrp_throws (by omega)))
    · rw [read_at wg hr, Res.ok_bind]
      exact Res.throws_bind (checkGrp_throws hb)

/-! ### Optimistic splitting -/

theorem IntTy.wrap_add_left (t : IntTy) (a b : Int) : t.wrap (t.wrap a + b) = t.wrap (a + b) := by
  unfold wrap; split
  · exact Int.bmod_add_bmod
  · exact Int.emod_add_emod _ _ _

theorem IntTy.wrap_add_right (t : IntTy) (a b : Int) : t.wrap (a + t.wrap b) = t.wrap (a + b) := by
  rw [Int.add_comm, wrap_add_left, Int.add_comm]

theorem IntTy.wrap_wrap (t : IntTy) (a : Int) : t.wrap (t.wrap a) = t.wrap a := by
  have := t.wrap_add_left a 0; simpa using this

theorem IntTy.wrap_zero (t : IntTy) : t.wrap 0 = 0 := by
  unfold wrap; split <;> simp

theorem IntTy.wrap_dvd (t : IntTy) (a : Int) : ((2 ^ t.width : Nat) : Int) ∣ t.wrap a - a := by
  unfold wrap; split
  · exact Int.dvd_bmod_sub_self
  · have h := Int.emod_add_mul_ediv a (2 ^ t.width : Nat)
    exact ⟨-(a / (2 ^ t.width : Nat)), by rw [Int.mul_neg]; omega⟩

/-- Range of a type of at least one bit. -/
theorem IntTy.wrap_range (t : IntTy) (hw : 1 ≤ t.width) (a : Int) :
    ∃ H : Nat, 2 ^ t.width = 2 * H ∧ 0 < H ∧
      (t.signed = true → -(H : Int) ≤ t.wrap a ∧ t.wrap a < H) ∧ (t.signed = false → 0 ≤ t.wrap a ∧ t.wrap a < 2 * H) := by
  obtain ⟨k, hk⟩ : ∃ k, t.width = k + 1 := ⟨t.width - 1, by omega⟩
  refine ⟨2 ^ k, by rw [hk, Nat.pow_succ, Nat.mul_comm], Nat.two_pow_pos k, fun hs => ?_, fun hs => ?_⟩
  · have hp : 0 < 2 ^ t.width := Nat.two_pow_pos _
    have h1 := Int.le_bmod (x := a) hp
    have h2 := Int.bmod_lt (x := a) hp
    have e : 2 ^ t.width = 2 * 2 ^ k := by rw [hk, Nat.pow_succ, Nat.mul_comm]
    unfold wrap
    rw [if_pos hs]
    rw [e] at h1 h2 ⊢
    omega
  · have hp : 0 < 2 ^ t.width := Nat.two_pow_pos _
    have h1 := Int.emod_nonneg a (b := (2 ^ t.width : Nat)) (by omega)
    have h2 := Int.emod_lt_of_pos a (b := (2 ^ t.width : Nat)) (by omega)
    have e : 2 ^ t.width = 2 * 2 ^ k := by rw [hk, Nat.pow_succ, Nat.mul_comm]
    unfold wrap
    rw [if_neg (by simp [hs])]
    rw [e] at h1 h2 ⊢
    omega

/-- Without overflow, the half-width sum is exact. -/
theorem overflow_exact (half : IntTy) (hw : 1 ≤ half.width) (x lo : Int) (hlo : half.wrap lo = lo) (hx : half.signed = false → 0 ≤ x)
    (h : overflow x (half.wrap (half.wrap x + lo)) = false) : half.wrap (half.wrap x + lo) = x + lo := by
  rw [IntTy.wrap_add_left] at *
  obtain ⟨H, h1, h2, h3, h4⟩ := half.wrap_range hw (x + lo)
  obtain ⟨H', g1, g2, g3, g4⟩ := half.wrap_range hw lo
  have : H' = H := by omega
  subst this
  rw [hlo] at g3 g4
  obtain ⟨k, hk⟩ := half.wrap_dvd (x + lo)
  rw [h1] at hk
  generalize half.wrap (x + lo) = tmp at *
  have hk0 : k = 0 := by
    simp only [overflow] at h
    have hbound : -(2 * (H' : Int)) < tmp - (x + lo) ∧ tmp - (x + lo) < 2 * (H' : Int) := by
      cases hs : half.signed with
      | false =>
        have := h4 hs; have := g4 hs; have := hx hs
        have : ¬ tmp < x := by intro hc; simp_all
        omega
      | true =>
        have := h3 hs; have := g3 hs
        by_cases hx0 : 0 ≤ x
        · have : ¬ tmp < x := by intro hc; simp_all
          omega
        · have : tmp < x := by
            by_contra hc; simp_all
          omega
    rw [hk] at hbound
    push_cast at hbound
    have hH : (0 : Int) < 2 * (H' : Int) := by omega
    by_contra hne
    rcases Int.lt_or_gt_of_ne hne with g | g
    · have : 2 * (H' : Int) * k ≤ 2 * (H' : Int) * (-1) := Int.mul_le_mul_of_nonneg_left (by omega) (by omega)
      omega
    · have : 2 * (H' : Int) * 1 ≤ 2 * (H' : Int) * k := Int.mul_le_mul_of_nonneg_left (by omega) (by omega)
      omega
  subst hk0
  omega

/-- Exact sum of the rows of group `g`. -/
def groupSum (n : Nat) (grp : Nat → Int) (v : Nat → Int) (g : Nat) : Int := groupFold (· + ·) 0 n grp v g

theorem groupFold_wrap (t : IntTy) (n : Nat) (grp : Nat → Int) (v : Nat → Int) (g : Nat) :
    groupFold (fun a b => t.wrap (a + b)) 0 n grp v g = t.wrap (groupSum n grp v g) := by
  induction n with
  | zero => simp [groupSum, groupFold, positions, IntTy.wrap_zero]
  | succ n ih =>
    unfold groupSum at *
    rw [groupFold_succ, groupFold_succ, ih]
    split
    · rw [IntTy.wrap_add_left]
    · rfl

/-- **C33 (optimistic splitting).** For every integer type and every half type of the same signedness, every column of values of the type and group ids
below the number of groups: the kernel with optimistic splitting returns the wrap-around sum of each group. -/
theorem C33_split_sum (full half : IntTy) (hs : half.signed = full.signed) (hw : 1 ≤ half.width) (data : Column Int) (grp : Column Int)
    (w : data.WF) (wg : grp.WF) (hdata : ∀ r, r < data.numRows → full.wrap (data.at r) = data.at r) (nd : Nat)
    (hn : data.numRows = grp.numRows) (h : ∀ r, r < grp.numRows → 0 ≤ grp.at r ∧ grp.at r < nd) :
    Res.Ok (aggGrpSplit full half data grp nd) fun res => res.WF ∧ res.numRows = nd ∧
      ∀ g, g < nd → res.at g = full.wrap (groupSum data.numRows grp.at data.at g) := by
  unfold aggGrpSplit applyAggSplit
  rw [if_neg (by omega)]
  refine Res.Ok.bind (P := fun b : Buf Int => b.size = nd ∧ ∀ g, g < nd → b.data g = full.wrap (groupSum data.numRows grp.at data.at g)) ?_
    fun b ⟨h1, h2⟩ => Res.ok_iff.2 ⟨Nat.le_of_eq h1.symm, rfl, h2⟩
  refine Res.Ok.bind (forLoop_ok (fun r (s : Buf Int × Buf Int) => s.1.size = nd ∧ s.2.size = nd ∧ ∀ g, g < nd →
      half.wrap (s.2.data g) = s.2.data g ∧ full.wrap (s.1.data g + s.2.data g) = full.wrap (groupSum r grp.at data.at g))
    0 data.numRows _ (Nat.zero_le _) ⟨rfl, rfl, fun g _ => ⟨IntTy.wrap_zero _, by simp [groupSum, groupFold, positions]⟩⟩ ?_) ?_
  · rintro r ⟨res, lows⟩ _ hr ⟨h1, h2, h3⟩
    simp only at h1 h2 h3 ⊢
    have hg := h r (by omega)
    unfold splitStep
    rw [read_at wg (by omega), Res.ok_bind, checkGrp_ok hg, Res.ok_bind, read_at w hr, Res.ok_bind]
    simp only
    rw [Buf.read_eq (by omega), Res.ok_bind]
    obtain ⟨i1, i2⟩ := h3 (grp.at r).toNat (by omega)
    have hstep : ∀ g, groupSum (r + 1) grp.at data.at g =
        if grp.at r = (g : Int) then groupSum r grp.at data.at g + data.at r else groupSum r grp.at data.at g := fun g => groupFold_succ _ _ _ _ _ _
    cases ho : overflow (data.at r) (half.wrap (half.wrap (data.at r) + lows.data (grp.at r).toNat)) with
    | true =>
      simp only [if_true]
      rw [Buf.read_eq (by omega), Res.ok_bind, Buf.write_eq (by omega), Res.ok_bind, Buf.write_eq (by omega), Res.ok_bind]
      refine Res.ok_iff.2 ⟨h1, h2, fun g hgn => ?_⟩
      rw [hstep]
      by_cases e : grp.at r = (g : Int)
      · rw [if_pos e]
        rw [e] at i2 ⊢
        simp only [Int.toNat_natCast, Buf.put_data_same] at i2 ⊢
        refine ⟨IntTy.wrap_zero _, ?_⟩
        rw [Int.add_zero, IntTy.wrap_wrap, IntTy.wrap_add_right, ← IntTy.wrap_add_left _ (groupSum _ _ _ _), ← i2, IntTy.wrap_add_left]
        congr 1; omega
      · rw [if_neg e]
        simp only
        rw [Buf.put_data_ne _ _ _ _ (by omega), Buf.put_data_ne _ _ _ _ (by omega)]
        exact h3 g hgn
    | false =>
      simp only [Bool.false_eq_true, if_false]
      rw [Buf.write_eq (by omega), Res.ok_bind]
      refine Res.ok_iff.2 ⟨h1, h2, fun g hgn => ?_⟩
      rw [hstep]
      have hex := overflow_exact half hw (data.at r) _ i1 (fun hu => by
        have := hdata r hr
        rw [hs] at hu
        unfold IntTy.wrap at this
        rw [if_neg (by simp [hu])] at this
        rw [← this]
        exact Int.emod_nonneg _ (by have := Nat.two_pow_pos full.width; omega)) ho
      by_cases e : grp.at r = (g : Int)
      · rw [if_pos e]
        rw [e] at i2 hex ⊢
        simp only [Int.toNat_natCast, Buf.put_data_same] at i2 hex ⊢
        refine ⟨IntTy.wrap_wrap _ _, ?_⟩
        rw [hex, ← IntTy.wrap_add_left _ (groupSum _ _ _ _), ← i2, IntTy.wrap_add_left]
        congr 1; omega
      · rw [if_neg e]
        simp only
        rw [Buf.put_data_ne _ _ _ _ (by omega)]
        exact h3 g hgn
  · rintro ⟨res, lows⟩ ⟨h1, h2, h3⟩
    simp only at h1 h2 h3 ⊢
    refine (forLoop_ok (fun g (b : Buf Int) => b.size = nd ∧ (∀ q, q < g → b.data q = full.wrap (groupSum data.numRows grp.at data.at q)) ∧
      ∀ q, g ≤ q → b.data q = res.data q) 0 nd res (Nat.zero_le _) ⟨h1, fun q hq => by omega, fun _ _ => rfl⟩ fun g b _ hg ⟨j1, j2, j3⟩ => ?_).mono
      fun b ⟨j1, j2, _⟩ => ⟨j1, j2⟩
    rw [Buf.read_eq (by omega), Res.ok_bind, Buf.read_eq (by omega), Res.ok_bind, Buf.write_eq (by omega)]
    refine Res.ok_iff.2 ⟨j1, fun q hq => ?_, fun q hq => ?_⟩
    · by_cases e : q = g
      · subst e
        rw [Buf.put_data_same, j3 q (Nat.le_refl _), (h3 q hg).2]
      · rw [Buf.put_data_ne _ _ _ _ e]; exact j2 q (by omega)
    · rw [Buf.put_data_ne _ _ _ _ (by omega)]; exact j3 q (by omega)

/-- **C33 (both agree).** The kernel with optimistic splitting and the plain kernel return the same sums. -/
theorem C33_split_equals_plain (full half : IntTy) (hs : half.signed = full.signed) (hw : 1 ≤ half.width) (data : Column Int) (grp : Column Int)
    (w : data.WF) (wg : grp.WF) (hdata : ∀ r, r < data.numRows → full.wrap (data.at r) = data.at r) (nd : Nat)
    (hn : data.numRows = grp.numRows) (h : ∀ r, r < grp.numRows → 0 ≤ grp.at r ∧ grp.at r < nd) :
    ∃ a b, aggGrpSplit full half data grp nd = .ok a ∧ aggGrp (fun a b => full.wrap (a + b)) 0 data grp nd = .ok b ∧ a.toList = b.toList := by
  obtain ⟨a, ha, _, a2, a3⟩ := C33_split_sum full half hs hw data grp w wg hdata nd hn h
  obtain ⟨b, hb, _, b2, b3⟩ := (C33_aggGrp (fun a b => full.wrap (a + b)) 0 data grp w wg nd).1 hn h
  refine ⟨a, b, ha, hb, ?_⟩
  unfold Column.toList Buf.toList
  rw [a2, b2]
  apply List.map_congr_left
  intro g hg
  have hg := List.mem_range.1 hg
  have h1 := a3 g hg
  have h2 := b3 g hg
  rw [groupFold_wrap] at h2
  exact h1.trans h2.symm

/-- **C49: refuted.** A group id equal to the number of groups is not rejected: the kernel accesses memory past the end of the
result, whatever the aggregation and number of groups. -/
theorem C49_boundary_id_undefined (f : α → α → α) (neutral v : α) (nd : Nat) :
    Res.IsUB (aggGrp f neutral ⟨1, ⟨1, fun _ => v⟩⟩ ⟨1, ⟨1, fun _ => (nd : Int)⟩⟩ nd) := by
  have e : checkGrp (nd : Int) nd = .ok nd := by unfold checkGrp; rw [if_neg (by omega)]; simp
  unfold aggGrp applyAgg
  rw [if_neg (by simp), forLoop_succ _ _ _ (by simp)]
  rw [Buf.read_eq (by simp), Res.ok_bind, e, Res.ok_bind]
  unfold Buf.read
  rw [if_neg (by simp)]
  exact ⟨_, rfl⟩

/-! ### Examples -/

example : Res.Ok (groupBy (Column.ofList [4, 7, 4, 4]) [Column.ofList [1, 1, 2, 1]] (fun _ => 0) (fun _ => 0))
    (fun p => p.2.toList = [0, 1, 2] ∧ (p.1.at 0 = p.1.at 3)) :=
  (C32_groupBy 4 (Column.ofList [4, 7, 4, 4]) [Column.ofList [1, 1, 2, 1]] (by simp [Column.WF, Column.ofList, Buf.ofList]) _ _).mono
    fun _ h => ⟨h.firsts.trans (by decide), (h.same 0 3 (by decide) (by decide)).2 (by decide)⟩

/-- 64-bit values with 32-bit halves: the low half overflows, the sums agree with the exact ones. -/
example : Res.Ok (aggGrpSplit ⟨true, 64⟩ ⟨true, 32⟩ (Column.ofList [2147483647, -5, 2147483647, 3]) (Column.ofList [0, 1, 0, 1]) 2)
    (fun res => res.at 0 = 4294967294 ∧ res.at 1 = -2) :=
  (C33_split_sum ⟨true, 64⟩ ⟨true, 32⟩ rfl (by decide) (Column.ofList [2147483647, -5, 2147483647, 3]) (Column.ofList [0, 1, 0, 1])
    (Nat.le_refl _) (Nat.le_refl _) (fun r hr => by
      have : ∀ r, r < 4 → IntTy.wrap ⟨true, 64⟩ ((Column.ofList [2147483647, -5, 2147483647, 3]).at r) = (Column.ofList [2147483647, -5, 2147483647, 3]).at r := by decide
      exact this r hr) 2 rfl (fun r hr => by
      have : ∀ r, r < 4 → 0 ≤ (Column.ofList [0, 1, 0, (1 : Int)]).at r ∧ (Column.ofList [0, 1, 0, (1 : Int)]).at r < 2 := by decide
      exact this r hr)).mono fun _ h => ⟨(h.2.2 0 (by decide)).trans (by decide), (h.2.2 1 (by decide)).trans (by decide)⟩

end Verif.Col
