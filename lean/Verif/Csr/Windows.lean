/-
  C12, C14: a sparse matrix and all its row views, used in any order, behave like windows of one table.
-/
import Verif.Csr.Set

namespace Verif.Csr
open Verif
variable {α : Type}

/-! ### Specification: one table, a list of row windows, and the number of non-zero cells -/

/-- A call on the `i`-th matrix object (object 0 is the original matrix, views are numbered as they are created). -/
inductive Call (α : Type) where
  | slice (i rl ru : Nat)
  | get (i r c : Nat)
  | set (i r c : Nat) (v : α)
  | shrink (i n : Nat)

/-- What the caller observes. -/
inductive Obs (α : Type) where
  | done
  | value (v : α)
  | exception
  | crash
  deriving DecidableEq

/-- `rows` rows starting at row `r0` of the table. -/
structure RowWin where
  r0 : Nat
  rows : Nat

structure SpecState (α : Type) where
  cols : Nat
  table : Nat → Nat → α
  /-- number of non-zero cells of the table -/
  nnz : Nat
  wins : List RowWin

/-- What each call should do. -/
def specStep [DecidableEq α] (zero : α) (s : SpecState α) : Call α → SpecState α × Obs α
  | .slice i rl ru =>
    match s.wins[i]? with
    | none => (s, .done)
    | some w => if rl < ru ∧ ru ≤ w.rows then ({ s with wins := s.wins ++ [⟨w.r0 + rl, ru - rl⟩] }, .done) else (s, .exception)
  | .get i r c =>
    match s.wins[i]? with
    | none => (s, .done)
    | some w => if r < w.rows ∧ c < s.cols then (s, .value (s.table (w.r0 + r) c)) else (s, .exception)
  | .set i r c v =>
    match s.wins[i]? with
    | none => (s, .done)
    | some w =>
      if r < w.rows ∧ c < s.cols then
        ({ s with table := fun r' c' => if r' = w.r0 + r ∧ c' = c then v else s.table r' c',
                  nnz := nnzAfter zero s.nnz (s.table (w.r0 + r) c) v }, .done)
      else (s, .exception)
  | .shrink i n =>
    match s.wins[i]? with
    | none => (s, .done)
    | some w => if n ≤ w.rows then ({ s with wins := s.wins.set i { w with rows := n } }, .done) else (s, .exception)

def specRun [DecidableEq α] (zero : α) (s : SpecState α) : List (Call α) → List (Obs α)
  | [] => []
  | o :: os => (specStep zero s o).2 :: specRun zero (specStep zero s o).1 os

/-- The call fits a capacity of `cap` non-zero entries: a `set` that adds or removes an entry needs one free entry. (That
removing an entry from a full matrix is excluded is property C42.) -/
def FitsCall (zero : α) (cap : Nat) (s : SpecState α) : Call α → Prop
  | .set i r c v => ∀ w, s.wins[i]? = some w → r < w.rows → c < s.cols →
      s.nnz < cap ∨ (v = zero ↔ s.table (w.r0 + r) c = zero)
  | _ => True

def Fits [DecidableEq α] (zero : α) (cap : Nat) (s : SpecState α) : List (Call α) → Prop
  | [] => True
  | o :: os => FitsCall zero cap s o ∧ Fits zero cap (specStep zero s o).1 os

/-! ### The implementation -/

structure ImplState (α : Type) where
  objs : List CHdr
  mem : CMem α

/-- Lift the outcome of a C++ call: a throwing call leaves the objects as they were. -/
def outcome {β : Type} (s : ImplState α) (m : Res β) (k : β → ImplState α × Obs α) : ImplState α × Obs α :=
  match m with
  | .ok b => k b
  | .error (.throw _) => (s, .exception)
  | .error (.ub _) => (s, .crash)

/-- One call on the modelled code. -/
def implStep [DecidableEq α] (zero : α) (s : ImplState α) : Call α → ImplState α × Obs α
  | .slice i rl ru =>
    match s.objs[i]? with
    | none => (s, .done)
    | some h => outcome s (h.sliceRow rl ru) fun v => ({ s with objs := s.objs ++ [v] }, .done)
  | .get i r c =>
    match s.objs[i]? with
    | none => (s, .done)
    | some h => outcome s (h.get zero s.mem r c) fun v => (s, .value v)
  | .set i r c v =>
    match s.objs[i]? with
    | none => (s, .done)
    | some h => outcome s (h.set zero s.mem r c v) fun m => ({ s with mem := m }, .done)
  | .shrink i n =>
    match s.objs[i]? with
    | none => (s, .done)
    | some h => outcome s (h.shrinkNumRows n) fun h' => ({ s with objs := s.objs.set i h' }, .done)

def implRun [DecidableEq α] (zero : α) (s : ImplState α) : List (Call α) → List (Obs α)
  | [] => []
  | o :: os => (implStep zero s o).2 :: implRun zero (implStep zero s o).1 os

/-! ### Simulation -/

structure Shows (N C : Nat) (h : CHdr) (w : RowWin) : Prop where
  on : h.On N C
  off : h.rowOff = w.r0
  rows : h.numRows = w.rows

structure Sim (zero : α) (cap N C : Nat) (s : ImplState α) (t : SpecState α) : Prop where
  is : CM.Is zero ⟨whole N C, s.mem⟩ ⟨N, C, t.table⟩
  cols : t.cols = C
  capV : s.mem.vals.size = cap
  capC : s.mem.cols.size = cap
  nz : ∀ q, q < s.mem.offs.data N → s.mem.vals.data q ≠ zero
  nnz : s.mem.offs.data N = t.nnz
  len : s.objs.length = t.wins.length
  shows : ∀ (i : Nat) h w, s.objs[i]? = some h → t.wins[i]? = some w → Shows N C h w

theorem Sim.lookup {zero : α} {cap N C : Nat} {s : ImplState α} {t : SpecState α} (sim : Sim zero cap N C s t) (i : Nat) :
    (s.objs[i]? = none ∧ t.wins[i]? = none) ∨
    ∃ h w, s.objs[i]? = some h ∧ t.wins[i]? = some w ∧ Shows N C h w := by
  by_cases hi : i < s.objs.length
  · have hj : i < t.wins.length := by rw [← sim.len]; exact hi
    exact .inr ⟨_, _, List.getElem?_eq_getElem hi, List.getElem?_eq_getElem hj,
      sim.shows i _ _ (List.getElem?_eq_getElem hi) (List.getElem?_eq_getElem hj)⟩
  · exact .inl ⟨List.getElem?_eq_none (by omega), List.getElem?_eq_none (by rw [← sim.len]; omega)⟩

theorem sim_step [DecidableEq α] {zero : α} {cap N C : Nat} {s : ImplState α} {t : SpecState α} (sim : Sim zero cap N C s t)
    (o : Call α) (fits : FitsCall zero cap t o) :
    (implStep zero s o).2 = (specStep zero t o).2 ∧ Sim zero cap N C (implStep zero s o).1 (specStep zero t o).1 := by
  cases o with
  | slice i rl ru =>
    rcases sim.lookup i with ⟨e1, e2⟩ | ⟨h, w, e1, e2, sh⟩
    · simp only [implStep, specStep, e1, e2]; exact ⟨by trivial, sim⟩
    · simp only [implStep, specStep, e1, e2]
      have f1 := sh.rows; have f2 := sh.off
      by_cases hl : rl < ru ∧ ru ≤ w.rows
      · have ev : h.sliceRow rl ru = .ok ⟨ru - rl, h.numCols, h.alloc - rl, decide (0 < rl), h.rowOff + rl, 0⟩ := by
          unfold CHdr.sliceRow
          rw [if_neg (by omega), if_neg (by omega), if_neg (by omega)]
        have ov := On.sliceRow sh.on ev
        simp only [ev, outcome, hl, and_self, if_true]
        refine ⟨by trivial, sim.is, sim.cols, sim.capV, sim.capC, sim.nz, sim.nnz, by simp [sim.len], ?_⟩
        intro j h' w' hj hw
        simp only [List.getElem?_append] at hj hw
        by_cases hlt : j < s.objs.length
        · rw [if_pos hlt] at hj
          rw [if_pos (by rw [← sim.len]; exact hlt)] at hw
          exact sim.shows j h' w' hj hw
        · rw [if_neg hlt] at hj
          rw [if_neg (by rw [← sim.len]; exact hlt)] at hw
          rw [← sim.len] at hw
          cases hk : j - s.objs.length with
          | zero => rw [hk] at hj hw; simp at hj hw; subst hj; subst hw; exact ⟨ov, by simp [f2], rfl⟩
          | succ k => rw [hk] at hj; simp at hj
      · have : Res.Throws (h.sliceRow rl ru) := by
          unfold CHdr.sliceRow
          split
          · exact ⟨_, rfl⟩
          · split
            · exact ⟨_, rfl⟩
            · split
              · exact ⟨_, rfl⟩
              · omega
        obtain ⟨msg, em⟩ := this
        simp only [em, outcome, hl, if_false]
        exact ⟨by trivial, sim⟩
  | get i r c =>
    rcases sim.lookup i with ⟨e1, e2⟩ | ⟨h, w, e1, e2, sh⟩
    · simp only [implStep, specStep, e1, e2]; exact ⟨by trivial, sim⟩
    · simp only [implStep, specStep, e1, e2]
      have f1 := sh.rows; have f2 := sh.off; have f3 := sh.on.cols; have f4 := sim.cols
      by_cases hl : r < w.rows ∧ c < t.cols
      · have hg := (sim.is.on sh.on).get (r := r) (c := c) (by simp [Mat.window]; omega) (by simp [Mat.window]; omega)
        simp only [Mat.window] at hg
        rw [hg, if_pos hl]
        refine ⟨?_, sim⟩
        simp only [outcome, f2, Nat.zero_add]
      · obtain ⟨msg, em⟩ := get_throws zero h s.mem (r := r) (c := c) (by omega)
        simp only [em, outcome, hl, if_false]
        exact ⟨by trivial, sim⟩
  | set i r c v =>
    rcases sim.lookup i with ⟨e1, e2⟩ | ⟨h, w, e1, e2, sh⟩
    · simp only [implStep, specStep, e1, e2]; exact ⟨by trivial, sim⟩
    · simp only [implStep, specStep, e1, e2]
      have f1 := sh.rows; have f2 := sh.off; have f3 := sh.on.cols; have f4 := sim.cols
      by_cases hl : r < w.rows ∧ c < t.cols
      · have hf := fits w e2 hl.1 hl.2
        obtain ⟨m', em, g1, g2, g3, g4⟩ := set_ok sim.is sh.on (r := r) (c := c) (by omega) (by omega) v (by
          rcases hf with h1 | h1
          · left; rw [sim.capV, sim.capC, sim.nnz]; exact ⟨h1, h1⟩
          · right; rw [f2]; exact ⟨h1, sim.nz⟩)
        obtain ⟨g5, g6⟩ := g4 sim.nz
        rw [em, if_pos hl]
        simp only [outcome]
        refine ⟨by trivial, ?_, sim.cols, g2.trans sim.capV, g3.trans sim.capC, g5, ?_, sim.len, sim.shows⟩
        · simp only [Mat.setCell, f2] at g1; exact g1
        · rw [g6, sim.nnz, f2]
      · obtain ⟨msg, em⟩ := set_throws zero h s.mem (r := r) (c := c) v (by omega)
        simp only [em, outcome, hl, if_false]
        exact ⟨by trivial, sim⟩
  | shrink i n =>
    rcases sim.lookup i with ⟨e1, e2⟩ | ⟨h, w, e1, e2, sh⟩
    · simp only [implStep, specStep, e1, e2]; exact ⟨by trivial, sim⟩
    · simp only [implStep, specStep, e1, e2]
      have f1 := sh.rows
      by_cases hl : n ≤ w.rows
      · have : ¬ h.numRows < n := by omega
        simp only [CHdr.shrinkNumRows, this, if_false, outcome, hl, if_true]
        have hlen : i < s.objs.length := by
          rcases Nat.lt_or_ge i s.objs.length with h0 | h0
          · exact h0
          · rw [List.getElem?_eq_none h0] at e1; cases e1
        refine ⟨by trivial, sim.is, sim.cols, sim.capV, sim.capC, sim.nz, sim.nnz, by simp [sim.len], ?_⟩
        intro j h' w' hj hw
        simp only [List.getElem?_set] at hj hw
        by_cases h0 : i = j
        · subst h0
          rw [if_pos rfl, if_pos hlen] at hj
          rw [if_pos rfl, if_pos (by rw [← sim.len]; exact hlen)] at hw
          cases hj; cases hw
          have := sh.on.fit
          exact ⟨⟨sh.on.rows, by simp only; omega, sh.on.cols⟩, sh.off, rfl⟩
        · rw [if_neg h0] at hj hw; exact sim.shows j h' w' hj hw
      · have : h.numRows < n := by omega
        simp only [CHdr.shrinkNumRows, this, if_true, outcome, hl, if_false]
        exact ⟨by trivial, sim⟩

theorem sim_run [DecidableEq α] {zero : α} {cap N C : Nat} (os : List (Call α)) : ∀ {s : ImplState α} {t : SpecState α},
    Sim zero cap N C s t → Fits zero cap t os → implRun zero s os = specRun zero t os := by
  induction os with
  | nil => intros; rfl
  | cons o os ih =>
    intro s t sim fits
    obtain ⟨h1, h2⟩ := sim_step sim o fits.1
    simp only [implRun, specRun, h1, ih h2 fits.2]

/-- **C12, C14.** Create an empty (all-zero) `N × C` sparse matrix with room for `cap` entries. For every sequence of calls
(taking row views of the matrix and of views, reading and writing cells through any of them, shrinking them) that fits the
capacity, the caller observes exactly what one `N × C` table with row windows would show: a value set through one object is
seen through all others and changes no other cell; out-of-range accesses and slices throw; nothing crashes. -/
theorem C12_C14_views_are_windows [DecidableEq α] (zero : α) (N C cap : Nat) (calls : List (Call α))
    (fits : Fits zero cap ⟨C, fun _ _ => zero, 0, [⟨0, N⟩]⟩ calls) :
    implRun zero ⟨[(CM.createZero N C cap zero).h], (CM.createZero N C cap zero).mem⟩ calls
      = specRun zero ⟨C, fun _ _ => zero, 0, [⟨0, N⟩]⟩ calls := by
  refine sim_run (cap := cap) (N := N) (C := C) calls ?_ fits
  have ho : ∀ r, CM.o ⟨whole N C, (CM.createZero N C cap zero).mem⟩ r = 0 := fun r => rfl
  refine ⟨⟨⟨?_, ?_, ?_, ?_, ?_, ?_⟩, rfl, rfl, ?_, ?_⟩, rfl, rfl, rfl, ?_, rfl, rfl, ?_⟩
  · simp [whole, CHdr.new, CM.createZero]
  · intro r _; exact Nat.le_refl _
  · exact Nat.zero_le _
  · exact Nat.zero_le _
  · intro r p q _ _ _ h; rw [ho] at h; omega
  · intro r p _ _ h; rw [ho] at h; omega
  · intro r p _ _ h; rw [ho] at h; omega
  · intro r c _ _ _; rfl
  · intro q h; exact absurd h (Nat.not_lt_zero _)
  · intro i h w hh hw
    match i with
    | 0 =>
      simp at hh hw; subst hh; subst hw
      exact ⟨⟨by simp [CM.createZero, CHdr.new], by simp [CM.createZero, CHdr.new], rfl⟩, rfl, rfl⟩
    | i + 1 => simp at hh

/-- Same for an arbitrary initial sparse matrix with contents `a` that stores no explicit zeros. -/
theorem C12_C14_views_are_windows_any [DecidableEq α] (zero : α) (N C cap : Nat) (a : Mat α) (m : CMem α)
    (is : CM.Is zero ⟨CHdr.new N C, m⟩ a) (capV : m.vals.size = cap) (capC : m.cols.size = cap)
    (nz : ∀ q, q < m.offs.data N → m.vals.data q ≠ zero) (calls : List (Call α))
    (fits : Fits zero cap ⟨C, a.cell, m.offs.data N, [⟨0, N⟩]⟩ calls) :
    implRun zero ⟨[CHdr.new N C], m⟩ calls = specRun zero ⟨C, a.cell, m.offs.data N, [⟨0, N⟩]⟩ calls := by
  refine sim_run (cap := cap) (N := N) (C := C) calls ?_ fits
  refine ⟨?_, rfl, capV, capC, nz, rfl, rfl, ?_⟩
  · have e1 : N = a.rows := is.rows
    have e2 : C = a.cols := is.cols
    have : (⟨N, C, a.cell⟩ : Mat α) = a := by cases a; simp_all
    simp only
    rw [this]; exact is
  · intro i h w hh hw
    match i with
    | 0 =>
      simp at hh hw; subst hh; subst hw
      exact ⟨⟨by simp [CHdr.new], by simp [CHdr.new], rfl⟩, rfl, rfl⟩
    | i + 1 => simp at hh

/-- Non-trivial instance: a 3×2 matrix with room for two entries, a view of the last two rows, a view of it, writes through
all of them, a removal, and rejected accesses. -/
example : implRun 0 ⟨[(CM.createZero 3 2 2 (0 : Int)).h], (CM.createZero 3 2 2 0).mem⟩
    [.slice 0 1 3, .slice 1 1 2, .set 2 0 1 (7 : Int), .get 0 2 1, .set 1 1 1 0, .set 0 0 0 5, .set 1 0 1 6, .get 0 1 1, .get 1 2 0, .slice 1 1 1]
    = [.done, .done, .done, .value 7, .done, .done, .done, .value 6, .exception, .exception] := by
  rw [C12_C14_views_are_windows]
  · rfl
  · simp [Fits, FitsCall, specStep, nnzAfter]

/-- **C42 (refuted).** Clearing an entry of a sparse matrix whose capacity is exhausted: the loop closing the gap reads one
element past the end of the arrays. -/
theorem C42_clear_full_matrix_undefined :
    implRun 0 ⟨[(CM.createZero 1 1 1 (0 : Int)).h], (CM.createZero 1 1 1 0).mem⟩ [.set 0 0 0 (7 : Int), .get 0 0 0, .set 0 0 0 0]
      = [.done, .value 7, .crash] := by
  decide

end Verif.Csr
