/-
  Concrete cases that meet the hypotheses of C178–C189.
-/
import Verif.Columnar.Group

namespace Verif.Columnar.Examples
open Verif Verif.Dense Verif.Rel Verif.Columnar

/-- A comparison of column 2 of a 3×4 matrix of the numbers 0…11 (a strided view of 2, 6, 10) with a scalar. -/
example : Res.Ok (exM.h.view 0 3 2 3) (fun v =>
    Res.Ok (compareColumnar (fun u => decide (u > 5)) 0 1 ⟨v, exM.mem⟩ (fun _ => 0) (fun _ => 0))
      (fun z => z.Is (⟨3, 1, fun r _ => if decide ((0 + r) * 4 + (2 + 0) > 5) then 1 else 0⟩ : Mat Nat))) :=
  (exM_is.view (by decide) (by decide)).mono fun v hv =>
    (C178_compare (fun u v : Nat => decide (u > v)) 0 1 5 ⟨v, exM.mem⟩ _ hv rfl (fun _ => 0) (fun _ => 0) (fun _ => 0)).1

/-- Two bitmaps of three rows. -/
def bm1 : DM Nat := ⟨Hdr.new 3 1, ⟨3, fun i => if i = 0 then 0 else 1⟩⟩
def bm2 : DM Nat := ⟨Hdr.new 3 1, ⟨3, fun i => if i = 2 then 0 else 1⟩⟩
theorem bm1_is : bm1.Is ⟨3, 1, fun r _ => if r = 0 then 0 else 1⟩ := is_new rfl fun r c hr hc => by simp at hc; subst hc; simp
theorem bm2_is : bm2.Is ⟨3, 1, fun r _ => if r = 2 then 0 else 1⟩ := is_new rfl fun r c hr hc => by simp at hc; subst hc; simp

example : ∃ m : Mat Nat, Res.Ok (logicalColumnar Col.intersect 0 1 bm1 bm2 (fun _ => 0)) (fun z => z.Is m) ∧
    m.cell 0 0 = 0 ∧ m.cell 1 0 = 1 ∧ m.cell 2 0 = 0 := by
  obtain ⟨⟨m, h1, -, -, -, h2⟩, -⟩ := C179_logical 0 1 (by decide) bm1 bm2 _ _ bm1_is bm2_is rfl rfl rfl
    (by intro r _; simp only; split <;> simp) (by intro r _; simp only; split <;> simp) (fun _ => 0) (fun _ => 0)
  exact ⟨m, h1, h2 0 (by decide), h2 1 (by decide), h2 2 (by decide)⟩

/-- The same strided view minus a single value. -/
def one : DM Nat := ⟨Hdr.new 1 1, ⟨1, fun _ => 1⟩⟩
example : Res.Ok (exM.h.view 0 3 2 3) (fun v =>
    ∃ m : Mat Nat, Res.Ok (calcColumnar (· - ·) ⟨v, exM.mem⟩ one (fun _ => 0) (fun _ => 0)) (fun z => z.Is m) ∧ m.cell 2 0 = 9) := by
  have h1 : one.Is ⟨1, 1, fun _ _ => 1⟩ := is_new rfl fun _ _ _ _ => rfl
  refine (exM_is.view (by decide) (by decide)).mono fun v hv => ?_
  obtain ⟨m, -, -, h2, h3, -⟩ := (C181_calc (fun a b : Nat => a - b) ⟨v, exM.mem⟩ one _ _ hv h1 rfl rfl (fun _ => 0) (fun _ => 0) (fun _ => 0)).1 (Or.inr rfl)
  exact ⟨m, h3, h2 2 (by decide)⟩

/-! Frames -/

/-- Three rows of one byte per cell, as cells and as bytes. -/
def bfr : BFrame Nat := ⟨3, [⟨.si8, "a", ⟨10, fun i => 100 + i⟩⟩, ⟨.ui8, "b", ⟨10, fun i => 200 + i⟩⟩]⟩
def cfr : Frame (List Nat) := ⟨3, [⟨.si8, "a", ⟨3, fun i => [100 + i]⟩⟩, ⟨.ui8, "b", ⟨3, fun i => [200 + i]⟩⟩], [("b", 1), ("a", 0)]⟩

theorem mapOK_two {x y : String} (hxy : x ≠ y) : MapOK [(y, 1), (x, 0)] [x, y] := by
  intro l i
  by_cases h1 : l = y
  · subst h1
    match i with
    | 0 => simp [lookupLabel, List.lookup, hxy]
    | 1 => simp [lookupLabel, List.lookup]
    | i + 2 => simp [lookupLabel, List.lookup]
  · have e1 : (l == y) = false := by simpa using h1
    by_cases h2 : l = x
    · subst h2
      match i with
      | 0 => simp [lookupLabel, List.lookup, e1]
      | 1 => simp [lookupLabel, List.lookup, e1]; exact fun h => h1 h.symm
      | i + 2 => simp [lookupLabel, List.lookup, e1]
    · have e2 : (l == x) = false := by simpa using h2
      match i with
      | 0 => simp [lookupLabel, List.lookup, e1, e2]; exact fun h => h2 h.symm
      | 1 => simp [lookupLabel, List.lookup, e1, e2]; exact fun h => h1 h.symm
      | i + 2 => simp [lookupLabel, List.lookup, e1, e2]

theorem cfr_usable : Usable cfr where
  wf := by intro c hc; simp [cfr] at hc; rcases hc with rfl | rfl <;> simp [cfr]
  lookup := labelsOK_of_map (mapOK_two (by decide))
  plain := by intro l hl; simp [cfr, Frame.labels] at hl; rcases hl with rfl | rfl <;> decide
  types := by intro t ht; simp [cfr, Frame.schema] at ht; rcases ht with rfl | rfl <;> simp
  nonempty := by simp [cfr]

theorem cfr_represents : Represents cfr bfr where
  rows := rfl
  labels := rfl
  schema := rfl
  cells := by
    intro c r
    by_cases hr : r < 3
    · match c with
      | 0 => simp [Frame.cell, BFrame.cell, cfr, bfr, hr, VTC.cellSize, List.range_succ]
      | 1 => simp [Frame.cell, BFrame.cell, cfr, bfr, hr, VTC.cellSize, List.range_succ]
      | c + 2 => simp [Frame.cell, BFrame.cell, cfr, bfr]
    · simp [Frame.cell, BFrame.cell, cfr, bfr, hr]

def sel01 : DM Int := ⟨Hdr.new 3 1, ⟨3, fun i => if i = 1 then 0 else 1⟩⟩
theorem sel01_is : IsPositions sel01 [1, 0, 1] := by
  refine ⟨is_new rfl fun r c hr hc => ?_, rfl⟩
  have : c = 0 := by simp at hc; exact hc
  subst this
  match r, hr with
  | 0, _ => rfl
  | 1, _ => rfl
  | 2, _ => rfl

theorem bfr_loadable : ∀ c ∈ bfr.cols, ∀ r, r < bfr.numRows → c.Loadable r := by
  intro c hc r hr
  simp only [bfr] at hr
  simp only [bfr, List.mem_cons, List.not_mem_nil, or_false] at hc
  rcases hc with rfl | rfl <;> simp [BCol.Loadable, VTC.size, VTC.load] <;> omega

/-- The hypotheses of `C182_filterRow` are met. -/
example : Res.Ok (filterRowB (fun _ _ => 0) bfr sel01) (fun gb =>
    Res.Ok (filterRowColumnar cfr cfr.labels sel01 (fun _ => 0) (fun _ => [])) (fun g => Represents g gb ∧ g.LabelsOK)) :=
  C182_filterRow cfr bfr cfr_represents cfr_usable sel01 _ sel01_is rfl (by decide) (fun c hc r hr _ => bfr_loadable c hc r hr) _ _ _

/-- The hypotheses of `C182_extractRow` are met: rows 2 and 0. -/
def pos20 : DM Int := ⟨Hdr.new 2 1, ⟨2, fun i => if i = 0 then 2 else 0⟩⟩
theorem pos20_is : IsPositions pos20 [2, 0] := by
  refine ⟨is_new rfl fun r c hr hc => ?_, rfl⟩
  have : c = 0 := by simp at hc; exact hc
  subst this
  match r, hr with
  | 0, _ => rfl
  | 1, _ => rfl
example : Res.Ok (extractRowB (fun _ _ => 0) bfr pos20) (fun gb =>
    Res.Ok (extractRowColumnar cfr cfr.labels pos20 (fun _ => 0) (fun _ => [])) (fun g => Represents g gb ∧ g.LabelsOK)) :=
  (C182_extractRow cfr bfr cfr_represents cfr_usable pos20 _ pos20_is (by decide) (fun c hc r hr _ => bfr_loadable c hc r hr) _ _ _).1 (by decide)

/-- The hypotheses of `C183_nonzero_values_partial` are met: the bitmap 7, 0, 7. -/
example : Res.Ok (filterRowColumnar cfr cfr.labels BytesExample.sel (fun _ => 0) (fun _ => [])) (fun g => g.numRows = 0) :=
  (C183_nonzero_values_partial cfr bfr cfr_represents cfr_usable BytesExample.sel _ BytesExample.sel_is rfl (by decide)
    (fun c hc r hr _ => bfr_loadable c hc r hr) (fun _ _ => 0) _ _).1

/-- The hypotheses of `C183_negative_positions_partial` are met: rows -1 and 0. -/
example : Res.Throws (extractRowColumnar cfr cfr.labels BytesExample.pos (fun _ => 0) (fun _ => [])) :=
  (C183_negative_positions_partial cfr bfr cfr_represents cfr_usable BytesExample.pos _ BytesExample.pos_is ⟨-1, by decide, by decide⟩ [2, 0] rfl (by
      intro i hi
      simp at hi
      match i, hi with
      | 0, _ => exact ⟨by decide, .inr (by decide)⟩
      | 1, _ => exact ⟨by decide, .inl (by decide)⟩) bfr_loadable (fun _ _ => 0) _ _).2

/-- Orders and customers. -/
def ordersF : Frame Int := ⟨3, [⟨.si64, "o.c", Buf.ofList [2, 1, 2]⟩, ⟨.si64, "o.v", Buf.ofList [10, 20, 30]⟩], [("o.v", 1), ("o.c", 0)]⟩
def custF : Frame Int := ⟨2, [⟨.si64, "c.id", Buf.ofList [2, 5]⟩, ⟨.si64, "c.x", Buf.ofList [7, 8]⟩], [("c.x", 1), ("c.id", 0)]⟩

theorem ordersF_usable : Usable ordersF where
  wf := by intro c hc; simp [ordersF] at hc; rcases hc with rfl | rfl <;> simp [ordersF, Buf.ofList]
  lookup := labelsOK_of_map (mapOK_two (by decide))
  plain := by intro l hl; simp [ordersF, Frame.labels] at hl; rcases hl with rfl | rfl <;> decide
  types := by intro t ht; simp [ordersF, Frame.schema] at ht; subst ht; simp
  nonempty := by simp [ordersF]

theorem custF_usable : Usable custF where
  wf := by intro c hc; simp [custF] at hc; rcases hc with rfl | rfl <;> simp [custF, Buf.ofList]
  lookup := labelsOK_of_map (mapOK_two (by decide))
  plain := by intro l hl; simp [custF, Frame.labels] at hl; rcases hl with rfl | rfl <;> decide
  types := by intro t ht; simp [custF, Frame.schema] at ht; subst ht; simp
  nonempty := by simp [custF]

/-- The hypotheses of `C184_inner_join` are met; the matching pairs are rows 0 and 2 of the left frame with row 0 of the right frame. -/
example : equalPairs ordersF custF 0 0 = [(0, 0), (2, 0)] ∧
    Res.Ok (innerJoinColumnar ordersF custF ordersF.labels custF.labels "o.c" "c.id" none (fun _ => 0) (fun _ => 0))
      (JoinResult allTypes ordersF custF (equalPairs ordersF custF 0 0)) := by
  refine ⟨by decide +kernel, ?_⟩
  exact C184_inner_join ordersF custF ordersF_usable custF_usable (by decide) "o.c" "c.id" 0 0 rfl rfl (by
    intro p q hp hq
    have hp : p < 2 := hp
    have hq : q < 2 := hq
    match p, q, hp, hq with
    | 0, 0, _, _ => simp
    | 1, 1, _, _ => simp
    | 0, 1, _, _ => decide
    | 1, 0, _, _ => decide) none (by simp) _ _

/-- The hypotheses of `C185_semi_join` and `C188_columns_partial` are met. -/
example : semiRows ordersF custF 0 0 = [0, 2] ∧
    Res.Ok (semiJoinColumnar ordersF custF ordersF.labels "o.c" "c.id" none (fun _ => 0) (fun _ => 0)) (fun g => g.1.labels ≠ ["o.c"]) := by
  refine ⟨by decide +kernel, ?_⟩
  exact (C188_columns_partial ordersF custF ordersF_usable custF_usable "o.c" "c.id" 0 0 rfl rfl rfl rfl (by decide) _ _ (fun _ _ => 0)).mono
    fun g ⟨_, _, h1, _, h3⟩ => by rw [h1] at h3; exact h3

/-- The hypotheses of `C186_same_rows` and `C189_order_partial` are met: group the orders by customer, summing the values. -/
example : Res.Ok (groupColumnar intOps ordersF ["o.c"] ["o.v"] (fun _ => 0) (fun _ => 0)) fun res => res.cell 0 0 = some 2 ∧
    ∃ resK, group intOps (fun k => k + 24) 3 ordersF ["o.c"] [("o.v", .sum)] (fun _ _ => 0) = .ok (some resK) ∧ ∃ v, resK.cell 0 0 = some v ∧ v ≠ 2 :=
  C189_order_partial intOps (fun k => k + 24) ordersF ordersF_usable.wf ordersF_usable.lookup ⟨.si64, "o.c", Buf.ofList [2, 1, 2]⟩ (by simp [ordersF])
    ["o.v"] [⟨.si64, "o.v", Buf.ofList [10, 20, 30]⟩] (.cons ⟨by simp [ordersF], rfl⟩ .nil)
    (by intro l hl; simp at hl; rcases hl with rfl | rfl <;> decide) (by intro c hc; simp at hc; rcases hc with rfl | rfl <;> simp)
    (by intro c hc; simp at hc; subst hc; simp) (intOps_lawful _) (by intro a b; simp [intOps]) (by decide)
    (by
      intro l hl k hk
      have h := congrArg (fun s => s.toList.head?) hk
      simp at hl
      rcases hl with rfl | rfl <;> simp [defaultLabel] at h)
    (by decide) 1 (by decide) (by decide) (fun _ => 0) (fun _ => 0) (fun _ _ => 0)

end Verif.Columnar.Examples
