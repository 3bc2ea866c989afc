import Verif.Dist.Props
/-
  A history that meets the hypotheses of the properties of the distributed runtime, and histories for which the runtime goes wrong.
-/
namespace Verif.Dist
open Verif Verif.Dense Verif.Sched

def exX : Mat Int := ⟨4, 1, fun i _ => (i : Int) + 1⟩
def exY : Mat Int := ⟨2, 1, fun i _ => (i : Int) + 10⟩
def exFresh : Nat → Worker Int := fun _ => ⟨0, fun _ => none⟩
/-- Responses arrive in the order of the requests / in the opposite order. -/
def exFifo : Order := fun _ _ l => l
def exLifo : Order := fun _ _ l => l.reverse
theorem exFifo_valid : exFifo.Valid := fun _ _ _ => .refl _
theorem exLifo_valid : exLifo.Valid := fun _ _ l => l.reverse_perm

/-- The identity on one matrix, by rows. -/
def exId (ref : Nat) : Pipe Int :=
  ⟨fun | [.mat m] => .ok [m] | _ => .error (.ub "arity"), [(.obj ref, .rows)], [(.rows, some (4, 1))]⟩

/-- Two matrices are created, the first is processed in a pipeline. -/
def exOps : List (Op Int) := [.create exX, .create exY, .pipe exLifo (fun _ _ => 99) (exId 0)]

def run (ws : List Nat) (ops : List (Op Int)) (w : World Int) : Res (World Int) := ops.foldlM (fun w op => step ws op w) w

/-- The contents of an object. -/
def exVal (w : World Int) (ref : Nat) : Option (Val Int) := (w.objs ref).map Obj.val

/-- `z * s + y[0,0]` by rows, and the column sums of `z`. -/
def exF : List (Val Int) → Res (List (Mat Int))
  | [.mat z, .mat y, .scalar s] => .ok [⟨z.rows, z.cols, fun i j => z.cell i j * s + y.cell 0 0⟩,
      ⟨1, z.cols, fun _ j => ((List.range z.rows).map fun i => z.cell i j).sum⟩]
  | _ => .error (.ub "arity")

def exPipe : Pipe Int := ⟨exF, [(.obj 0, .rows), (.obj 1, .none), (.scalar 5, .none)], [(.rows, some (4, 1)), (.add, some (1, 1))]⟩
def exIns : List (Val Int × Split) := [(.mat exX, .rows), (.mat exY, .none), (.scalar 5, .none)]

def exG (a b : Nat) : Nat → Mat Int
  | 0 => ⟨b - a, 1, fun i j => exX.cell (a + i) j * 5 + 10⟩
  | _ => ⟨1, 1, fun _ j => ((List.range (b - a)).map fun i => exX.cell (a + i) j).sum⟩

theorem exSplit : Splittable exF exIns 4 [.rows, .add] exG where
  rows v hv := by
    simp only [exIns, List.mem_cons, Prod.mk.injEq, List.not_mem_nil, or_false, reduceCtorEq, and_false] at hv
    obtain ⟨rfl, -⟩ := hv
    exact ⟨⟨_, rfl⟩, Or.inl rfl⟩
  eval a b _ _ := by
    simp [chunk, exIns, Val.rows, exX, exY, Val.rowsOf, Mat.window, exF, exG, List.range_succ]
  byRows o ho := by
    match o, ho with
    | 0, _ => exact ⟨rfl, fun a b h1 h2 => ⟨rfl, rfl, fun i j hi hj => by simp [exG, Mat.window]⟩⟩
    | 1, h => simp at h
    | k + 2, h => simp at h
  byCols o ho := by
    match o, ho with
    | 0, h => simp at h
    | 1, h => simp at h
    | k + 2, h => simp at h
  byAdd o ho := by
    match o, ho with
    | 0, h => simp at h
    | 1, _ =>
      refine ⟨fun a b _ _ => ⟨rfl, rfl⟩, fun a b c h1 h2 h3 i j hi hj => ?_⟩
      simp only [exG]
      rw [show c - a = (b - a) + (c - b) by omega, List.range_add, List.map_append, List.sum_append, List.map_map]
      congr 3
      funext k
      simp only [Function.comp]
      rw [show a + (b - a + k) = b + k by omega]
    | k + 2, h => simp at h
  combs c hc := by simp at hc; rcases hc with rfl | rfl <;> simp

theorem reachable_run {ws : List Nat} : ∀ (ops : List (Op Int)) (w w' : World Int), Reachable ws w →
    (∀ op ∈ ops, (∀ ord junk p, op = .pipe ord junk p → ord.Valid) ∧ ∀ w, SafeOp w op) → run ws ops w = .ok w' → Reachable ws w'
  | [], w, w', h, _, e => by simp only [run, List.foldlM_nil] at e; cases e; exact h
  | op :: ops, w, w', h, hs, e => by
    simp only [run, List.foldlM_cons] at e
    obtain ⟨w1, h1, e⟩ := bind_ok e
    exact reachable_run ops w1 w' (.step op w w1 h (hs op (by simp)).1 ((hs op (by simp)).2 w) h1) (fun o ho => hs o (by simp [ho])) e

theorem exReach : ∃ w, run [7, 3] exOps (World.init exFresh) = .ok w ∧ Reachable [7, 3] w ∧ exVal w 0 = some (.mat exX) ∧ exVal w 1 = some (.mat exY) := by
  have h0 : Reachable [7, 3] (World.init exFresh) := .init _ (fun _ _ _ => rfl)
  cases e : run [7, 3] exOps (World.init exFresh) with
  | error err =>
    exfalso
    have : (match run [7, 3] exOps (World.init exFresh) with | .ok _ => true | .error _ => false) = true := by decide +kernel
    rw [e] at this
    cases this
  | ok w =>
    refine ⟨w, rfl, reachable_run exOps _ w h0 (fun op hop => ?_) e, ?_⟩
    · simp only [exOps, List.mem_cons, List.not_mem_nil, or_false] at hop
      rcases hop with rfl | rfl | rfl
      · exact ⟨by simp, fun _ => trivial⟩
      · exact ⟨by simp, fun _ => trivial⟩
      · refine ⟨fun ord junk p e => ?_, fun _ => trivial⟩
        cases e
        exact exLifo_valid
    · -- the contents, by evaluation
      have h1 : (run [7, 3] exOps (World.init exFresh)).map (fun w => (exVal w 0, exVal w 1)) = .ok (some (.mat exX), some (.mat exY)) := by rfl
      rw [e] at h1
      injection h1 with h1
      injection h1 with h1 h2
      exact ⟨h1, h2⟩

/-- The hypotheses of `C196_execute_correct` are met after this history (in which one input is already at the workers), for any order of the
responses: the pipeline yields `(X * 5 + 10, colSums X)`. -/
theorem ex_correct (ord : Order) (hord : ord.Valid) : ∃ w w' r r', run [7, 3] exOps (World.init exFresh) = .ok w ∧
    execute [7, 3] ord (fun _ _ => 0) exPipe w = .ok (w', [r, r']) ∧
    w'.HasMat r ⟨4, 1, fun i _ => ((i : Int) + 1) * 5 + 10⟩ ∧ w'.HasMat r' ⟨1, 1, fun _ _ => 10⟩ := by
  obtain ⟨w, hw, hr, v0, v1⟩ := exReach
  have hh : ∀ ref v, exVal w ref = some v → (In.obj ref).Holds w v := by
    intro ref v h
    unfold exVal at h
    obtain ⟨o, ho, e⟩ := Option.map_eq_some_iff.1 h
    exact ⟨o, ho, e⟩
  obtain ⟨w', refs, ms, h1, h2, h3, -, -⟩ := C196_execute_correct (p := exPipe) (ins := exIns) (junk := fun _ _ => 0) (by decide) (by decide) hord hr
    (.cons ⟨hh _ _ v0, rfl⟩ (.cons ⟨hh _ _ v1, rfl⟩ (.cons ⟨rfl, rfl⟩ .nil))) (by decide) exSplit (Or.inl (by decide))
    (fun ms h => by
      simp only [exPipe, exIns, List.map_cons, List.map_nil, exF] at h
      injection h with h
      rw [← h]
      rfl)
  simp only [exPipe, exIns, List.map_cons, List.map_nil, exF] at h2
  injection h2 with h2
  rw [← h2] at h3
  cases h3 with
  | cons a t =>
    cases t with
    | cons b t =>
      cases t
      exact ⟨w, w', _, _, hw, h1, a, b⟩

/-- After the history, the pipeline has one result, a matrix whose entry in row `i`, column 0 is `v`. -/
def shows (ws : List Nat) (ops : List (Op Int)) (ord : Order) (p : Pipe Int) (i : Nat) (v : Int) : Bool :=
  match run ws ops (World.init exFresh) with
  | .ok w => match execute ws ord (fun _ _ => 0) p w with
    | .ok (w', [r]) => match (w'.objs r).map Obj.val with
      | some (.mat m) => decide (m.cell i 0 = v)
      | _ => false
    | _ => false
  | _ => false

theorem shows_spec {ws : List Nat} {ops : List (Op Int)} {ord : Order} {p : Pipe Int} {i : Nat} {v : Int} (h : shows ws ops ord p i v = true) :
    ∃ w w' r m, run ws ops (World.init exFresh) = .ok w ∧ execute ws ord (fun _ _ => 0) p w = .ok (w', [r]) ∧
      (w'.objs r).map Obj.val = some (.mat m) ∧ m.cell i 0 = v := by
  unfold shows at h
  split at h
  · rename_i w hw
    split at h
    · rename_i w' r he
      split at h
      · rename_i m hm
        exact ⟨w, w', r, m, hw, he, hm, by simpa using h⟩
      · cases h
    · cases h
  · cases h

/-! ### Views -/

/-- `X` is distributed, then `Y` is the view of its last two rows. -/
def viewOps : List (Op Int) := [.create exX, .pipe exFifo (fun _ _ => 99) (exId 0), .view 0 2 4 0 1]

/-- `Y[0,0]`, once for every row of `X`. -/
def viewF : List (Val Int) → Res (List (Mat Int))
  | [.mat z, .mat y] => .ok [⟨z.rows, 1, fun _ _ => y.cell 0 0⟩]
  | _ => .error (.ub "arity")
def viewPipe : Pipe Int := ⟨viewF, [(.obj 0, .rows), (.obj 2, .none)], [(.rows, some (4, 1))]⟩
def viewIns : List (Val Int × Split) := [(.mat exX, .rows), (.mat (exX.window 2 4 0 1), .none)]

theorem viewSplit : Splittable viewF viewIns 4 [.rows] (fun a b _ => ⟨b - a, 1, fun _ _ => 3⟩) where
  rows v hv := by
    simp only [viewIns, List.mem_cons, Prod.mk.injEq, List.not_mem_nil, or_false, reduceCtorEq, and_false] at hv
    obtain ⟨rfl, -⟩ := hv
    exact ⟨⟨_, rfl⟩, Or.inl rfl⟩
  eval a b _ _ := by
    simp [chunk, viewIns, Val.rows, exX, Val.rowsOf, Mat.window, viewF, List.range_succ]
  byRows o ho := by
    match o, ho with
    | 0, _ => exact ⟨rfl, fun a b h1 h2 => ⟨rfl, rfl, fun i j hi hj => rfl⟩⟩
    | k + 1, h => simp at h
  byCols o ho := by
    match o, ho with
    | 0, h => simp at h
    | k + 1, h => simp at h
  byAdd o ho := by
    match o, ho with
    | 0, h => simp at h
    | k + 1, h => simp at h
  combs c hc := by simp at hc; simp [hc]

/-- **C201** (refuted). A view of a matrix that has been distributed takes over the information where the parts of that matrix are, with row
numbers of the matrix instead of the view. A program that creates such a view and passes it to a pipeline (which meets all
assumptions of `C196_execute_correct`, except that the history contains a view that does not start in the first row) gets a wrong result. -/
theorem C201_view_stale_partial : ∃ w w' r m, run [7, 3] viewOps (World.init exFresh) = .ok w ∧
    List.Forall₂ (fun x y => x.1.Holds w y.1 ∧ x.2 = y.2) viewPipe.inputs viewIns ∧
    viewPipe.f (viewIns.map Prod.fst) = .ok [m] ∧ viewPipe.outs = [(.rows, some (m.rows, m.cols))] ∧
    execute [7, 3] exFifo (fun _ _ => 0) viewPipe w = .ok (w', [r]) ∧ ¬ w'.HasMat r m := by
  obtain ⟨w, w', r, m', h1, h2, h3, h4⟩ := shows_spec (ws := [7, 3]) (ops := viewOps) (ord := exFifo) (p := viewPipe) (i := 0) (v := 1) (by decide +kernel)
  have hv : (run [7, 3] viewOps (World.init exFresh)).map (fun w => (exVal w 0, exVal w 2)) =
      .ok (some (.mat exX), some (.mat (exX.window 2 4 0 1))) := by rfl
  rw [h1] at hv
  injection hv with hv
  injection hv with v0 v2
  have hh : ∀ ref v, exVal w ref = some v → (In.obj ref).Holds w v := by
    intro ref v h
    unfold exVal at h
    obtain ⟨o, ho, e⟩ := Option.map_eq_some_iff.1 h
    exact ⟨o, ho, e⟩
  refine ⟨w, w', r, ⟨4, 1, fun _ _ => 3⟩, h1, .cons ⟨hh _ _ v0, rfl⟩ (.cons ⟨hh _ _ v2, rfl⟩ .nil), rfl, rfl, h2, ?_⟩
  rintro ⟨m, pls, ho, hr, hc, hm⟩
  rw [show Option.map Obj.val (w'.objs r) = some (Val.mat m) by rw [ho]; rfl] at h3
  injection h3 with h3
  injection h3 with h3
  subst h3
  have := hm 0 0 (by rw [hr]; decide) (by rw [hc]; decide)
  rw [h4] at this
  simp at this

/-! ### A worker that is listed twice -/

/-- **C202** (refuted). If the same worker address is given twice, the two parts overwrite each other: the identity on a matrix with four
rows returns, but the first row of the result is not that of the argument (it was never written). -/
theorem C202_same_worker_partial : ∃ w w' r m, run [7, 7] [.create exX] (World.init exFresh) = .ok w ∧ (In.obj 0).Holds w (.mat exX) ∧
    execute [7, 7] exFifo (fun _ _ => 0) (exId 0) w = .ok (w', [r]) ∧
    (w'.objs r).map Obj.val = some (.mat m) ∧ m.cell 0 0 = 0 ∧ exX.cell 0 0 = 1 := by
  obtain ⟨w, w', r, m', h1, h2, h3, h4⟩ := shows_spec (ws := [7, 7]) (ops := [.create exX]) (ord := exFifo) (p := exId 0) (i := 0) (v := 0) (by decide +kernel)
  have hw : w = (World.init exFresh).alloc (.mat exX) := by
    have : run [7, 7] [.create exX] (World.init exFresh) = .ok ((World.init exFresh).alloc (.mat exX)) := rfl
    rw [this] at h1
    injection h1 with h1
    exact h1.symm
  refine ⟨w, w', r, m', h1, ⟨⟨.mat exX, []⟩, by rw [hw]; rfl, rfl⟩, h2, h3, h4, rfl⟩

/-! ### The hypotheses of the other properties are met -/

theorem ex_created (ws : List Nat) (m : Mat Int) : Reachable ws ((World.init exFresh).alloc (.mat m)) :=
  .step (.create m) _ _ (.init _ (fun _ _ _ => rfl)) (by simp) trivial rfl

/-- `C197_place_again`: a matrix with four rows can be distributed to two workers. -/
example : ∃ w w' : World Int, Reachable [7, 3] w ∧ place .distribute [7, 3] exLifo 0 0 w = .ok w' ∧ place .distribute [7, 3] exFifo 5 0 w' = .ok w' := by
  obtain ⟨w', h⟩ := place_ok (schema := .distribute) (ws := [7, 3]) (ord := exLifo) (k := 0) (ref := 0) (w := (World.init exFresh).alloc (.mat exX))
    (o := ⟨.mat exX, []⟩) rfl ⟨by simp, by simp, by simp⟩ (Or.inr ⟨⟨exX, rfl⟩, by decide⟩)
  exact ⟨_, w', ex_created _ _, h, C197_place_again (by decide) exLifo_valid exFifo_valid (ex_created _ _) h⟩

/-- The column sums of a matrix. -/
def exColSums (ref : Nat) : Pipe Int :=
  ⟨fun | [.mat m] => .ok [⟨1, m.cols, fun _ j => ((List.range m.rows).map fun i => m.cell i j).sum⟩] | _ => .error (.ub "arity"),
    [(.obj ref, .rows)], [(.add, some (1, 2))]⟩
def exRow : Mat Int := ⟨1, 2, fun _ j => (j : Int) + 5⟩

/-- `C198_one_row_add_partial`: the column sums `[5 6]` of the matrix `[5 6]`, on three workers, come out as `[15 18]`. -/
theorem ex_one_row (ord : Order) (hord : ord.Valid) : ∃ w' r,
    execute [7, 3, 4] ord (fun _ _ => 0) (exColSums 0) ((World.init exFresh).alloc (.mat exRow)) = .ok (w', [r]) ∧
    w'.HasMat r ⟨1, 2, fun _ j => 3 * ((j : Int) + 5)⟩ := by
  obtain ⟨w', r, h1, h2⟩ := C198_one_row_add_partial (ws := [7, 3, 4]) (ord := ord) (junk := fun _ _ => 0) (f := (exColSums 0).f)
    (by decide) (by decide) hord (ex_created [7, 3, 4] exRow) (ref := 0) (o := ⟨.mat exRow, []⟩)
    (m := ⟨1, 2, fun _ j => ((List.range 1).map fun i => exRow.cell i j).sum⟩) rfl rfl rfl rfl
  refine ⟨w', r, h1, ?_⟩
  obtain ⟨m', pls, e, hs⟩ := h2
  refine ⟨m', pls, e, hs.1, hs.2.1, fun i j hi hj => ?_⟩
  rw [hs.2.2 i j hi hj]
  simp [times, exRow]

/-- `C199_few_rows_partial`: four rows, five workers. -/
example (ord : Order) : (execute [7, 3, 4, 5, 6] ord (fun _ _ => 0) (exId 0) ((World.init exFresh).alloc (.mat exX))).Throws :=
  C199_few_rows_partial (by decide) (ex_created _ _) (x := exX) rfl (by decide) (by decide)

/-- `C200_equal_scalars_partial`: `X * 2 + 2`. -/
example (ws : List Nat) (ord : Order) (w : World Int) (f : List (Val Int) → Res (List (Mat Int))) :
    (execute ws ord (fun _ _ => 0) ⟨f, [(.obj 0, .rows), (.scalar 2, .none), (.scalar 2, .none)], [(.rows, some (4, 1))]⟩ w).Throws :=
  C200_equal_scalars_partial (i := 1) (j := 2) (by decide) rfl rfl

end Verif.Dist
