/-
  Concrete inputs for the theorems about joins, and the comparison of columns of different types (C75).
-/
import Verif.Rel.SemiThms

namespace Verif.Rel
open Verif

theorem labelsOK_of_initL {f : Frame V} (h : initL 0 f.labels [] = .ok f.l2i) : f.LabelsOK := by
  apply labelsOK_of_map
  by_cases hn : f.labels.Nodup
  · obtain ⟨m, hm, hok⟩ := (initL_iff f.labels).1 hn
    rw [hm] at h; cases h; exact hok
  · obtain ⟨m, hm⟩ := (initL_iff f.labels).2 hn
    rw [hm] at h; cases h

/-- Customers: number and balance. -/
def exL : Frame Int := ⟨3, [⟨.si64, "id", Buf.ofList [1, 2, 1]⟩, ⟨.f64, "bal", Buf.ofList [10, 20, 30]⟩], [("bal", 1), ("id", 0)]⟩
/-- Orders: customer, amount, and a column of type `ui8`. -/
def exR : Frame Int := ⟨3, [⟨.si64, "cust", Buf.ofList [1, 3, 1]⟩, ⟨.si64, "amt", Buf.ofList [5, 6, 7]⟩, ⟨.ui8, "flag", Buf.ofList [0, 1, 1]⟩],
  [("flag", 2), ("amt", 1), ("cust", 0)]⟩

theorem exL_wf : exL.WF := by intro c hc; simp [exL] at hc; rcases hc with rfl | rfl <;> exact Nat.le_refl _
theorem exR_wf : exR.WF := by intro c hc; simp [exR] at hc; rcases hc with rfl | rfl | rfl <;> exact Nat.le_refl _
theorem exL_ok : exL.LabelsOK := labelsOK_of_initL (by decide +kernel)
theorem exR_ok : exR.LabelsOK := labelsOK_of_initL (by decide +kernel)

theorem ex_inner : InnerOK exL exR "id" "cust" 0 0 .si64 := ⟨by decide +kernel, rfl, rfl, rfl, rfl, .inr rfl⟩

/-- `C72_inner_join` applies: customers 0 and 2 each match orders 0 and 2. -/
example : equalPairs exL exR 0 0 = [(0, 0), (0, 2), (2, 0), (2, 2)] ∧
    ∃ res, innerJoin exL exR "id" "cust" none (fun _ _ => 99) = .ok res ∧
      JoinResult [.str, .si64, .f64] exL exR (equalPairs exL exR 0 0) res :=
  ⟨by decide +kernel, (C72_inner_join exL exR "id" "cust" none _ exL_wf exR_wf exL_ok exR_ok 0 0 .si64 ex_inner).1 (by simp)⟩

/-- A row-count hint of 3 is too small. -/
example : Res.Throws (innerJoin exL exR "id" "cust" (some 3) (fun _ _ => 99)) :=
  (C72_inner_join exL exR "id" "cust" (some 3) _ exL_wf exR_wf exL_ok exR_ok 0 0 .si64 ex_inner).2 3 rfl (by decide +kernel)

/-- The `ui8` column of the join has the uninitialized values. -/
example : ∃ res, innerJoin exL exR "id" "cust" none (fun _ _ => 99) = .ok res ∧ res.cell 4 1 = some 99 ∧ exR.cell 2 2 = some 1 := by
  obtain ⟨res, h1, h2⟩ := C74_inner_join_other_types_partial exL exR "id" "cust" (fun _ _ => 99) exL_wf exR_wf exL_ok exR_ok 0 0 .si64 ex_inner
    4 .ui8 rfl (by decide)
  obtain ⟨res', h1', h3⟩ := (C72_inner_join exL exR "id" "cust" none (fun _ _ => 99) exL_wf exR_wf exL_ok exR_ok 0 0 .si64 ex_inner).1 (by simp)
  rw [h1] at h1'; cases h1'
  exact ⟨res, h1, h2 1 (by rw [h3.rows]; decide +kernel), rfl⟩

example : Res.Throws (innerJoin exL exR "id" "flag" none (fun _ _ => 99)) :=
  C72_inner_join_throws exL exR "id" "flag" none _ exR_wf exL_ok exR_ok (by
    rintro ⟨cl, cr, vt, h⟩
    have h1 := (exR_ok "flag" cr).2 h.right
    have h2 := (exR_ok "flag" 2).2 rfl
    rw [h1] at h2
    cases h2
    have h3 := h.tright
    simp [exR, Frame.schema] at h3
    rcases h.key with h4 | h4 <;> rw [h4] at h3 <;> cases h3)

example : (allPairs exL exR).length = 9 ∧ ∃ res, cartesian exL exR (fun _ _ => 99) = .ok res ∧
    JoinResult [.si64, .f64] exL exR (allPairs exL exR) res :=
  ⟨by decide +kernel, (C71_cartesian exL exR _ exL_wf exR_wf).1 (by decide +kernel)⟩

example : Res.Throws (cartesian exL exL (fun _ _ => 99)) := (C71_cartesian exL exL _ exL_wf exL_wf).2 (by decide +kernel)

/-- Comparison of mathematical integers. -/
def exCmp : CmpSem Int where
  same _ op x y := match op with
    | .eq => x == y | .lt => x < y | .le => x ≤ y | .gt => x > y | .ge => x ≥ y | .ne => x != y
  cast _ _ x := x

/-- `id = cust` and `id ≤ amt`, `id != flag`. -/
example : thetaPairs exCmp exL exR [(0, 0, .eq), (0, 2, .ne)] = [(0, 0), (2, 0)] ∧
    ∃ res, thetaJoin exCmp exL exR [("id", "cust", .eq), ("id", "flag", .ne)] (fun _ _ => 99) = .ok res ∧
      JoinResult thetaTypes exL exR (thetaPairs exCmp exL exR [(0, 0, .eq), (0, 2, .ne)]) res :=
  ⟨by decide +kernel, (C73_theta_join exCmp exL exR _ _ exL_wf exR_wf exL_ok exR_ok (by simp)).1 _
    (.cons ⟨rfl, rfl, rfl⟩ (.cons ⟨rfl, rfl, rfl⟩ .nil)) (by decide +kernel) (by decide +kernel)⟩

example : Res.Throws (thetaJoin exCmp exL exR [("id", "nix", .eq)] (fun _ _ => 99)) :=
  (C73_theta_join exCmp exL exR _ _ exL_wf exR_wf exL_ok exR_ok (by simp)).2 (.inr (.inl ⟨_, List.mem_singleton.2 rfl, .inr (by decide +kernel)⟩))

example : semiRows exL exR 0 0 = [0, 2] ∧ ∃ res tid, semiJoin exL exR "id" "cust" none (fun _ _ => 99) = .ok (res, tid) ∧
    SemiResult exL 0 "id" (semiRows exL exR 0 0) res tid :=
  ⟨by decide +kernel, ((C76_semi_join exL exR "id" "cust" none _ exL_wf exR_wf exL_ok exR_ok).1 0 0 rfl rfl rfl rfl).1 (by simp)⟩

example : Res.Throws (semiJoin exL exR "id" "cust" (some 1) (fun _ _ => 99)) :=
  ((C76_semi_join exL exR "id" "cust" (some 1) _ exL_wf exR_wf exL_ok exR_ok).1 0 0 rfl rfl rfl rfl).2 1 rfl (by decide +kernel)

example : Res.IsUB (semiJoin exL exR "bal" "cust" none (fun _ _ => 99)) :=
  C78_semi_join_types_partial exL exR "bal" "cust" none _ exL_ok exR_ok 1 0 .f64 .si64 rfl rfl rfl rfl (by decide)

def exOps : Ops Int where
  lt _ x y := x < y
  ne _ x y := x ≠ y
  ofCount n := n
  zero _ := 0
  add _ x y := x + y
  addD _ x y := x + y
  zeroD := 0
  divD x _ := x

/-- One group: key 1, sum 5 + 7, first row 0. -/
example : firstRows exL exR 0 0 = [0] ∧ joinSum exOps .si64 exL exR 0 0 1 0 = 12 ∧
    ∃ res tid rows, groupJoin exOps List.reverse exL exR "id" "cust" "amt" (fun _ _ => 99) = .ok (res, tid) ∧ rows.Perm (firstRows exL exR 0 0) ∧
      GroupJoinResult exOps .si64 exL exR 0 0 1 ["id", "SUM(amt)"] rows res tid :=
  ⟨by decide +kernel, by decide +kernel, ((C77_group_join exOps List.reverse List.reverse_perm exL exR "id" "cust" "amt" _ exL_wf exR_wf exL_ok exR_ok).1
    0 0 1 .si64 rfl rfl rfl rfl rfl rfl (.inr rfl)).1 (by decide +kernel)⟩

example : Res.IsUB (groupJoin exOps List.reverse exL exR "id" "cust" "flag" (fun _ _ => 99)) :=
  C78_group_join_types_partial exOps _ exL exR "id" "cust" "flag" _ exL_ok exR_ok 0 0 2 .si64 .si64 .ui8 rfl rfl rfl rfl rfl rfl (by decide)

/-! ### Columns of different types in a condition -/

/-- Comparison and conversion of values given in halves: a column of type `f64` can have any value, and the conversion to
    `si64` truncates (for non-negative values). -/
def halves : CmpSem Nat where
  same _ op x y := match op with
    | .eq => x == y | .lt => x < y | .le => x ≤ y | .gt => x > y | .ge => x ≥ y | .ne => x != y
  cast _ t x := if t = .si64 then x / 2 * 2 else x

/-- An integer column with the value 2, and a floating-point column with the value 2.5 (in halves: 4 and 5). -/
def exI : Frame Nat := ⟨1, [⟨.si64, "i", ⟨1, fun _ => 4⟩⟩], [("i", 0)]⟩
def exD : Frame Nat := ⟨1, [⟨.f64, "d", ⟨1, fun _ => 5⟩⟩], [("d", 0)]⟩

/-- Full property: a condition on columns of different numeric types compares the numbers. The code converts the value of
    `rhs` to the type of the column of `lhs`, so that joining 2 with 2.5 for equality gives a row, although the numbers
    differ, and exchanging the arguments gives none. -/
theorem C75_theta_mixed_types_partial :
    (∃ res, thetaJoin halves exI exD [("i", "d", .eq)] (fun _ _ => 0) = .ok res ∧ res.numRows = 1 ∧
      res.cell 0 0 = some 4 ∧ res.cell 1 0 = some 5) ∧
    (∃ res, thetaJoin halves exD exI [("d", "i", .eq)] (fun _ _ => 0) = .ok res ∧ res.numRows = 0) := by
  have hi : exI.LabelsOK := labelsOK_of_initL (by decide +kernel)
  have hd : exD.LabelsOK := labelsOK_of_initL (by decide +kernel)
  have wi : exI.WF := by intro c hc; simp [exI] at hc; subst hc; exact Nat.le_refl _
  have wd : exD.WF := by intro c hc; simp [exD] at hc; subst hc; exact Nat.le_refl _
  constructor
  · obtain ⟨res, h1, h2⟩ := (C73_theta_join halves exI exD [("i", "d", .eq)] (fun _ _ => 0) wi wd hi hd (by simp)).1 [(0, 0, .eq)]
      (.cons ⟨rfl, rfl, rfl⟩ .nil) (by decide +kernel) (by decide +kernel)
    have hp : thetaPairs halves exI exD [(0, 0, .eq)] = [(0, 0)] := by decide +kernel
    rw [hp] at h2
    exact ⟨res, h1, h2.rows, h2.left 0 (0, 0) rfl 0 .si64 rfl (by decide), h2.right 0 (0, 0) rfl 0 .f64 rfl (by decide)⟩
  · obtain ⟨res, h1, h2⟩ := (C73_theta_join halves exD exI [("d", "i", .eq)] (fun _ _ => 0) wd wi hd hi (by simp)).1 [(0, 0, .eq)]
      (.cons ⟨rfl, rfl, rfl⟩ .nil) (by decide +kernel) (by decide +kernel)
    have hp : thetaPairs halves exD exI [(0, 0, .eq)] = [] := by decide +kernel
    rw [hp] at h2
    exact ⟨res, h1, h2.rows⟩

end Verif.Rel
