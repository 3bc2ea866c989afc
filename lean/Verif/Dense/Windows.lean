/-
  C18: a dense matrix and all views on it, used in any order, behave like windows of one table.
-/
import Verif.Dense.Model

namespace Verif.Dense
open Verif
variable {α : Type _}

/-! ### Specification: one table, a list of windows -/

/-- A call on the `i`-th matrix object (object 0 is the original matrix, views are numbered as they are created). -/
inductive Call (α : Type _) where
  | slice (i : Nat) (rl ru cl cu : Int)
  | get (i r c : Nat)
  | set (i r c : Nat) (v : α)
  /-- `shrinkNumRows` on the original -/
  | shrink (n : Nat)

/-- What the caller observes. -/
inductive Obs (α : Type _) where
  | done
  | value (v : α)
  | exception
  | crash

/-- A window: first row, first column, number of rows, number of columns, in table coordinates. -/
structure Window where
  r0 : Nat
  c0 : Nat
  rows : Nat
  cols : Nat

structure SpecState (α : Type _) where
  table : Nat → Nat → α
  wins : List Window

/-- Legal sub-range of `n` rows or columns: `0 ≤ lo ≤ hi ≤ n`, and `lo < n` unless `lo = 0`. -/
def LegalRange (lo hi : Int) (n : Nat) : Prop := 0 ≤ lo ∧ lo ≤ hi ∧ hi ≤ n ∧ (lo < n ∨ lo = 0)

instance (lo hi : Int) (n : Nat) : Decidable (LegalRange lo hi n) := by unfold LegalRange; infer_instance

/-- What each call should do. -/
def specStep (s : SpecState α) : Call α → SpecState α × Obs α
  | .slice i rl ru cl cu =>
    match s.wins[i]? with
    | none => (s, .done)
    | some w =>
      if LegalRange rl ru w.rows ∧ LegalRange cl cu w.cols then
        ({ s with wins := s.wins ++ [⟨w.r0 + rl.toNat, w.c0 + cl.toNat, (ru - rl).toNat, (cu - cl).toNat⟩] }, .done)
      else (s, .exception)
  | .get i r c =>
    match s.wins[i]? with
    | none => (s, .done)
    | some w => if r < w.rows ∧ c < w.cols then (s, .value (s.table (w.r0 + r) (w.c0 + c))) else (s, .exception)
  | .set i r c v =>
    match s.wins[i]? with
    | none => (s, .done)
    | some w =>
      if r < w.rows ∧ c < w.cols then
        ({ s with table := fun r' c' => if r' = w.r0 + r ∧ c' = w.c0 + c then v else s.table r' c' }, .done)
      else (s, .exception)
  | .shrink n =>
    match s.wins[0]? with
    | none => (s, .done)
    | some w => if n ≤ w.rows then ({ s with wins := s.wins.set 0 { w with rows := n } }, .done) else (s, .exception)

/-- The observations of a whole sequence of calls. -/
def specRun (s : SpecState α) : List (Call α) → List (Obs α)
  | [] => []
  | o :: os => (specStep s o).2 :: specRun (specStep s o).1 os

/-! ### The implementation -/

/-- All matrix objects, and the allocation they share. -/
structure ImplState (α : Type _) where
  objs : List Hdr
  mem : Buf α

/-- Lift the outcome of a C++ call: a failing call leaves the objects as they were. -/
def outcome {β : Type _} (s : ImplState α) (m : Res β) (k : β → ImplState α × Obs α) : ImplState α × Obs α :=
  match m with
  | .ok b => k b
  | .error (.throw _) => (s, .exception)
  | .error (.ub _) => (s, .crash)

/-- One call on the modelled code. -/
def implStep (s : ImplState α) : Call α → ImplState α × Obs α
  | .slice i rl ru cl cu =>
    match s.objs[i]? with
    | none => (s, .done)
    | some h => outcome s (h.view rl ru cl cu) fun v => ({ s with objs := s.objs ++ [v] }, .done)
  | .get i r c =>
    match s.objs[i]? with
    | none => (s, .done)
    | some h => outcome s (h.get s.mem r c) fun v => (s, .value v)
  | .set i r c v =>
    match s.objs[i]? with
    | none => (s, .done)
    | some h => outcome s (h.set s.mem r c v) fun m => ({ s with mem := m }, .done)
  | .shrink n =>
    match s.objs[0]? with
    | none => (s, .done)
    | some h => outcome s (h.shrinkNumRows n) fun h' => ({ s with objs := s.objs.set 0 h' }, .done)

def implRun (s : ImplState α) : List (Call α) → List (Obs α)
  | [] => []
  | o :: os => (implStep s o).2 :: implRun (implStep s o).1 os

/-! ### Simulation -/

/-- Header `h` shows window `w` of an `R × C` allocation. -/
structure Shows (R C : Nat) (h : Hdr) (w : Window) : Prop where
  rows : h.numRows = w.rows
  cols : h.numCols = w.cols
  skip : h.rowSkip = C
  base : h.base = w.r0 * C + w.c0
  fitR : w.r0 + w.rows ≤ R
  fitC : w.c0 + w.cols ≤ C
  /-- the buffer size matches, or it is a shrunk original (offset 0, all columns) -/
  part : h.bufElems = h.numRows * C ∨ (h.rowOff = 0 ∧ h.colOff = 0 ∧ h.numCols = C)

theorem Shows.start {R C : Nat} {h : Hdr} {w : Window} (s : Shows R C h w) : h.start = w.r0 * C + w.c0 := by
  unfold Hdr.start
  rcases s.part with hp | ⟨h1, h2, h3⟩
  · simp [Hdr.isPartial, hp, s.skip, s.base]
  · simp [Hdr.offset, h1, h2, s.base]

theorem Shows.stride {R C : Nat} {h : Hdr} {w : Window} (s : Shows R C h w) :
    (if h.isPartial then h.numCols else h.rowSkip) = C := by
  rcases s.part with hp | ⟨_, _, h3⟩
  · simp [Hdr.isPartial, hp, s.skip]
  · simp [h3, s.skip]

theorem Shows.idx {R C : Nat} {h : Hdr} {w : Window} (s : Shows R C h w) (r c : Nat) :
    h.start + (r * C + c) = (w.r0 + r) * C + (w.c0 + c) := by
  rw [s.start]; ring

theorem Shows.bound {R C : Nat} {h : Hdr} {w : Window} (s : Shows R C h w) {r c : Nat} (hr : r < w.rows) (hc : c < w.cols) :
    h.start + (r * C + c) < R * C := by
  rw [s.idx]
  have := s.fitR; have := s.fitC
  exact rm_lt (C := C) (by omega) (by omega) (Nat.le_refl _)

theorem Shows.get {R C : Nat} {h : Hdr} {w : Window} (s : Shows R C h w) (m : Buf α) (hm : m.size = R * C) (r c : Nat) :
    (r < w.rows → c < w.cols → h.get m r c = .ok (m.data ((w.r0 + r) * C + (w.c0 + c)))) ∧
    (¬ (r < w.rows ∧ c < w.cols) → Res.Throws (h.get m r c)) := by
  constructor
  · intro hr hc
    have h1 : ¬ h.numRows ≤ r := by have := s.rows; omega
    have h2 : ¬ h.numCols ≤ c := by have := s.cols; omega
    have hb := s.bound hr hc
    simp only [Hdr.get, Hdr.pos, h1, h2, if_false, s.stride]
    show m.read _ = _
    rw [Buf.read_eq (by omega), s.idx]
  · intro hn
    by_cases h1 : h.numRows ≤ r
    · exact ⟨"rowIdx is out of bounds", by simp [Hdr.get, Hdr.pos, h1]; rfl⟩
    · have h2 : h.numCols ≤ c := by have := s.rows; have := s.cols; omega
      exact ⟨"colIdx is out of bounds", by simp [Hdr.get, Hdr.pos, h1, h2]; rfl⟩

theorem Shows.set {R C : Nat} {h : Hdr} {w : Window} (s : Shows R C h w) (m : Buf α) (hm : m.size = R * C) (r c : Nat) (v : α) :
    (r < w.rows → c < w.cols → h.set m r c v = .ok (m.put ((w.r0 + r) * C + (w.c0 + c)) v)) ∧
    (¬ (r < w.rows ∧ c < w.cols) → Res.Throws (h.set m r c v)) := by
  constructor
  · intro hr hc
    have h1 : ¬ h.numRows ≤ r := by have := s.rows; omega
    have h2 : ¬ h.numCols ≤ c := by have := s.cols; omega
    have hb := s.bound hr hc
    have hs := s.skip
    simp only [Hdr.set, Hdr.pos, h1, h2, if_false, hs]
    show m.write _ _ = _
    simp only [Bool.false_eq_true, if_false]
    rw [Buf.write_eq (by omega), s.idx]
  · intro hn
    by_cases h1 : h.numRows ≤ r
    · exact ⟨"rowIdx is out of bounds", by simp [Hdr.set, Hdr.pos, h1]; rfl⟩
    · have h2 : h.numCols ≤ c := by have := s.rows; have := s.cols; omega
      exact ⟨"colIdx is out of bounds", by simp [Hdr.set, Hdr.pos, h1, h2]; rfl⟩

theorem validRange_iff (lo hi : Int) (n : Nat) : Hdr.validRange lo hi n = true ↔ LegalRange lo hi n := by
  unfold Hdr.validRange LegalRange
  simp only [Bool.not_eq_true', Bool.or_eq_false_iff, Bool.and_eq_false_iff, decide_eq_false_iff_not, not_lt, ne_eq, Decidable.not_not]
  omega

theorem Shows.view {R C : Nat} {h : Hdr} {w : Window} (s : Shows R C h w) (rl ru cl cu : Int) :
    (LegalRange rl ru w.rows ∧ LegalRange cl cu w.cols →
      Res.Ok (h.view rl ru cl cu) (fun v => Shows R C v
        ⟨w.r0 + rl.toNat, w.c0 + cl.toNat, (ru - rl).toNat, (cu - cl).toNat⟩)) ∧
    (¬ (LegalRange rl ru w.rows ∧ LegalRange cl cu w.cols) → Res.Throws (h.view rl ru cl cu)) := by
  have e1 := validRange_iff rl ru h.numRows
  have e2 := validRange_iff cl cu h.numCols
  rw [s.rows] at e1; rw [s.cols] at e2
  constructor
  · rintro ⟨l1, l2⟩
    have hv : h.view rl ru cl cu = .ok ⟨(ru - rl).toNat, (cu - cl).toNat, h.rowSkip,
        h.base + (rl.toNat * h.rowSkip + cl.toNat), rl.toNat, cl.toNat, (ru - rl).toNat * h.rowSkip, true, 0, 0⟩ := by
      simp [Hdr.view, s.rows, s.cols, e1.2 l1, e2.2 l2]
    refine ⟨_, hv, ?_⟩
    unfold LegalRange at l1 l2
    have := s.fitR; have := s.fitC
    exact ⟨rfl, rfl, s.skip, by simp only [s.base, s.skip]; ring, by simp only; omega, by simp only; omega,
      .inl (by simp only [s.skip])⟩
  · intro hn
    by_cases l1 : LegalRange rl ru w.rows
    · have l2 : ¬ LegalRange cl cu w.cols := fun l2 => hn ⟨l1, l2⟩
      have : Hdr.validRange cl cu w.cols = false := by simpa [← e2] using l2
      exact ⟨"invalid column range", by simp [Hdr.view, s.rows, s.cols, e1.2 l1, this]⟩
    · have : Hdr.validRange rl ru w.rows = false := by simpa [← e1] using l1
      exact ⟨"invalid row range", by simp [Hdr.view, s.rows, this]⟩

/-- Simulation relation between all objects plus the shared allocation and the table plus windows. -/
structure Sim (R C : Nat) (s : ImplState α) (t : SpecState α) : Prop where
  size : s.mem.size = R * C
  cells : ∀ r c, r < R → c < C → s.mem.data (r * C + c) = t.table r c
  len : s.objs.length = t.wins.length
  shows : ∀ (i : Nat) h w, s.objs[i]? = some h → t.wins[i]? = some w → Shows R C h w
  /-- object 0 is the original -/
  orig : ∀ h, s.objs[0]? = some h → h.rowOff = 0 ∧ h.colOff = 0 ∧ h.numCols = C

theorem Sim.lookup {R C : Nat} {s : ImplState α} {t : SpecState α} (sim : Sim R C s t) (i : Nat) :
    (s.objs[i]? = none ∧ t.wins[i]? = none) ∨
    ∃ h w, s.objs[i]? = some h ∧ t.wins[i]? = some w ∧ Shows R C h w := by
  by_cases hi : i < s.objs.length
  · have hj : i < t.wins.length := by rw [← sim.len]; exact hi
    exact .inr ⟨_, _, List.getElem?_eq_getElem hi, List.getElem?_eq_getElem hj,
      sim.shows i _ _ (List.getElem?_eq_getElem hi) (List.getElem?_eq_getElem hj)⟩
  · exact .inl ⟨List.getElem?_eq_none (by omega), List.getElem?_eq_none (by rw [← sim.len]; omega)⟩

theorem sim_step {R C : Nat} {s : ImplState α} {t : SpecState α} (sim : Sim R C s t) (o : Call α) :
    (implStep s o).2 = (specStep t o).2 ∧ Sim R C (implStep s o).1 (specStep t o).1 := by
  cases o with
  | slice i rl ru cl cu =>
    rcases sim.lookup i with ⟨e1, e2⟩ | ⟨h, w, e1, e2, sh⟩
    · simp only [implStep, specStep, e1, e2]; exact ⟨by trivial, sim⟩
    · simp only [implStep, specStep, e1, e2]
      by_cases hl : LegalRange rl ru w.rows ∧ LegalRange cl cu w.cols
      · obtain ⟨v, ev, sv⟩ := (sh.view rl ru cl cu).1 hl
        simp only [ev, outcome, hl]
        refine ⟨rfl, sim.size, sim.cells, by simp [sim.len], ?_, ?_⟩
        · intro j h' w' hj hw
          simp only [and_self, if_true, List.getElem?_append] at hj hw
          by_cases hlt : j < s.objs.length
          · rw [if_pos hlt] at hj
            rw [if_pos (by rw [← sim.len]; exact hlt)] at hw
            exact sim.shows j h' w' hj hw
          · rw [if_neg hlt] at hj
            rw [if_neg (by rw [← sim.len]; exact hlt)] at hw
            rw [← sim.len] at hw
            cases hk : j - s.objs.length with
            | zero => rw [hk] at hj hw; simp at hj hw; subst hj; subst hw; exact sv
            | succ k => rw [hk] at hj; simp at hj
        · intro h' hh
          simp only [List.getElem?_append] at hh
          have : 0 < s.objs.length := by
            rcases Nat.eq_zero_or_pos s.objs.length with h0 | h0
            · have := List.getElem?_eq_none (l := s.objs) (i := i) (by omega); rw [this] at e1; cases e1
            · exact h0
          rw [if_pos this] at hh
          exact sim.orig h' hh
      · obtain ⟨msg, em⟩ := (sh.view rl ru cl cu).2 hl
        simp only [em, outcome, hl, if_false]
        exact ⟨by trivial, sim⟩
  | get i r c =>
    rcases sim.lookup i with ⟨e1, e2⟩ | ⟨h, w, e1, e2, sh⟩
    · simp only [implStep, specStep, e1, e2]; exact ⟨by trivial, sim⟩
    · simp only [implStep, specStep, e1, e2]
      by_cases hl : r < w.rows ∧ c < w.cols
      · rw [(sh.get s.mem sim.size r c).1 hl.1 hl.2, if_pos hl]
        refine ⟨?_, sim⟩
        simp only [outcome]
        rw [sim.cells]
        · have := sh.fitR; omega
        · have := sh.fitC; omega
      · obtain ⟨msg, em⟩ := (sh.get s.mem sim.size r c).2 hl
        simp only [em, outcome, hl, if_false]
        exact ⟨by trivial, sim⟩
  | set i r c v =>
    rcases sim.lookup i with ⟨e1, e2⟩ | ⟨h, w, e1, e2, sh⟩
    · simp only [implStep, specStep, e1, e2]; exact ⟨by trivial, sim⟩
    · simp only [implStep, specStep, e1, e2]
      by_cases hl : r < w.rows ∧ c < w.cols
      · rw [(sh.set s.mem sim.size r c v).1 hl.1 hl.2, if_pos hl]
        simp only [outcome]
        refine ⟨by trivial, sim.size, ?_, sim.len, sim.shows, sim.orig⟩
        intro r' c' hr' hc'
        have := sh.fitR; have := sh.fitC
        simp only [Buf.put_data, rm_eq_iff hc' (show w.c0 + c < C by omega)]
        split
        · rfl
        · exact sim.cells r' c' hr' hc'
      · obtain ⟨msg, em⟩ := (sh.set s.mem sim.size r c v).2 hl
        simp only [em, outcome, hl, if_false]
        exact ⟨by trivial, sim⟩
  | shrink n =>
    rcases sim.lookup 0 with ⟨e1, e2⟩ | ⟨h, w, e1, e2, sh⟩
    · simp only [implStep, specStep, e1, e2]; exact ⟨by trivial, sim⟩
    · simp only [implStep, specStep, e1, e2]
      by_cases hl : n ≤ w.rows
      · have : ¬ h.numRows < n := by have := sh.rows; omega
        simp only [Hdr.shrinkNumRows, this, if_false, outcome, hl, if_true]
        have hlen : 0 < s.objs.length := by
          rcases Nat.eq_zero_or_pos s.objs.length with h0 | h0
          · have := List.getElem?_eq_none (l := s.objs) (i := 0) (by omega); rw [this] at e1; cases e1
          · exact h0
        have ho := sim.orig h e1
        refine ⟨by trivial, sim.size, sim.cells, by simp [sim.len], ?_, ?_⟩
        · intro j h' w' hj hw
          simp only [List.getElem?_set] at hj hw
          by_cases h0 : 0 = j
          · subst h0
            simp only [if_true, hlen] at hj
            rw [if_pos rfl, if_pos (by rw [← sim.len]; exact hlen)] at hw
            cases hj; cases hw
            have := sh.fitR
            exact ⟨rfl, sh.cols, sh.skip, sh.base, by simp only; omega, sh.fitC, .inr ho⟩
          · rw [if_neg h0] at hj hw; exact sim.shows j h' w' hj hw
        · intro h' hh
          simp only [List.getElem?_set, if_true, hlen] at hh
          cases hh; exact ho
      · have : h.numRows < n := by have := sh.rows; omega
        simp only [Hdr.shrinkNumRows, this, if_true, outcome, hl, if_false]
        exact ⟨by trivial, sim⟩

theorem sim_run {R C : Nat} (os : List (Call α)) : ∀ {s : ImplState α} {t : SpecState α}, Sim R C s t →
    implRun s os = specRun t os := by
  induction os with
  | nil => intros; rfl
  | cons o os ih =>
    intro s t sim
    obtain ⟨h1, h2⟩ := sim_step sim o
    simp only [implRun, specRun, h1, ih h2]

/-- **C18.** Create an `R × C` dense matrix with arbitrary contents. For every sequence of calls (slicing the matrix or any
of its views, reading and writing cells through any of them, shrinking the original), the caller observes exactly what one
`R × C` table with windows would show: values written through one object are seen through all others, out-of-range accesses
and slices throw, nothing crashes. -/
theorem C18_views_are_windows (R C : Nat) (contents : Nat → Nat → α) (mem : Buf α) (hsize : mem.size = R * C)
    (hmem : ∀ r c, r < R → c < C → mem.data (r * C + c) = contents r c) (calls : List (Call α)) :
    implRun ⟨[Hdr.new R C], mem⟩ calls = specRun ⟨contents, [⟨0, 0, R, C⟩]⟩ calls := by
  refine sim_run (R := R) (C := C) calls ⟨hsize, hmem, rfl, ?_, ?_⟩
  · intro i h w hh hw
    match i with
    | 0 =>
      simp at hh hw; subst hh; subst hw
      exact ⟨rfl, rfl, rfl, by simp [Hdr.new], by simp, by simp, .inl rfl⟩
    | i + 1 => simp at hh
  · intro h hh
    simp at hh; subst hh; exact ⟨rfl, rfl, rfl⟩

/-- Non-trivial instance of C18: a 3×4 matrix, a view of a view, a write through the inner view seen in the original. -/
example : implRun ⟨[Hdr.new 3 4], ⟨12, fun i => i⟩⟩
    [.slice 0 1 3 1 4, .slice 1 1 2 1 3, .set 2 0 1 99, .get 0 2 3, .get 1 1 2, .get 1 2 0, .slice 1 3 3 0 0]
    = [.done, .done, .done, .value 99, .value 99, .exception, .exception] := by
  rw [C18_views_are_windows 3 4 (fun r c => r * 4 + c) ⟨12, fun i => i⟩ rfl (fun _ _ _ _ => rfl)]
  rfl

/-- Why `shrinkNumRows` is only covered on the original: on a row view (`row_offset ≠ 0`), `getValues()` adds the offset a
second time, so that `get(0, 0)` of the shrunk view reads row 2 instead of row 1. -/
theorem C18_shrunk_view_reads_wrong_row :
    ∃ (h v v' : Hdr) (m : Buf Nat), h = Hdr.new 4 1 ∧ h.view 1 3 0 1 = .ok v ∧ v.get m 0 0 = .ok 11 ∧
      v.shrinkNumRows 1 = .ok v' ∧ v'.get m 0 0 = .ok 12 := by
  refine ⟨_, _, _, ⟨4, fun i => 10 + i⟩, rfl, rfl, rfl, rfl, rfl⟩

end Verif.Dense
