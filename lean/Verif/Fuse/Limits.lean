/-
  C168-C173: programs for which the vectorization pass goes wrong; concrete instances for C167.
-/
import Verif.Fuse.Sound
import Verif.Vect.Fused

namespace Verif.Fuse
open Verif Verif.Dense Verif.Vect Verif.Vect.FusedExample

namespace Example

abbrev W := BitVec 64

/-- matrix op scalar, matrix op matrix, matrix multiplication, sum, and an operation that is not vectorizable (it returns its first operand). -/
def sc (f : W → W → W) (x y : Ref) : Stmt W := ⟨.vec (.ewSca f), [x, y], true⟩
def bi (f : W → W → W) (x y : Ref) : Stmt W := ⟨.vec (.ewBin f), [x, y], true⟩
def mm (x y : Ref) : Stmt W := ⟨.vec (.matMul false), [x, y], true⟩
def su (x : Ref) : Stmt W := ⟨.vec (.allAgg .sum), [x], true⟩
def ot (xs : List Ref) : Stmt W := ⟨.other fun l => l.headD (noMat (Agg.int64 id)), xs, true⟩

/-- The kernels of the other operations. -/
def impl (_ : Nat) (xs : List (DM W)) : Res (DM W) :=
  match xs with
  | x :: _ => .ok x
  | [] => .error (.ub "no operand")

/-- Two tasks of one row and the rest, batches of one row, round robin. -/
def two : Item → Plan := fun _ => ⟨fun n => [(0, 1), (1, n)], fun _ => 1, (List.replicate 60 [0, 1]).flatten⟩

/-- Execution of the block after the pass. -/
def runs (P : Prog W) (as : List (Mat W)) (plan : Item → Plan) : Res (Option (Env W)) := do
  let B ← vectorize P
  execBlock (Agg.int64 id) less idx false junk impl P (as.map mk) plan B fun _ => none

/-- The block after the pass. -/
def block (P : Prog W) : Option (List Item) := (vectorize P).toOption

/-- The program as written, op by op. -/
def direct (P : Prog W) (as : List (Mat W)) : Res (Option (Env W)) :=
  execBlock (Agg.int64 id) less idx false junk impl P (as.map mk) two ((List.range P.length).map .one) fun _ => none

/-- The cells of a result. -/
def cellsOf (r : Res (Option (Env W))) (i : Nat) : Option (List W) :=
  match r with
  | .ok (some e) => (e i).map fun y => (List.range y.mem.size).map y.mem.data
  | _ => none

def failsUB {β : Type} : Res β → Bool
  | .error (.ub m) => m == "use of a value before its definition"
  | _ => false

/-- A square matrix (1 2; 3 4). -/
def Q : Mat W := ⟨2, 2, fun r c => idx (2 * r + c + 1)⟩

def shared : Prog W := [sc (·*·) (.arg 0) (.arg 1), sc (·+·) (.arg 0) (.arg 1), sc (·*·) (.op 1) (.arg 1), bi (·+·) (.op 2) (.op 0), su (.op 0),
  sc (·+·) (.op 1) (.op 4)]
def cross : Prog W := [sc (·+·) (.arg 0) (.arg 1), sc (·*·) (.arg 0) (.arg 1), mm (.op 1) (.op 0), mm (.op 0) (.op 1)]
def tree : Prog W := [sc (·+·) (.arg 0) (.arg 1), ot [.op 0], sc (·*·) (.arg 0) (.arg 1), bi (·+·) (.op 0) (.op 2)]
def whole : Prog W := [sc (·+·) (.arg 0) (.arg 1), sc (·*·) (.op 0) (.arg 1), mm (.op 1) (.op 0)]
def rowVec : Prog W := [sc (·+·) (.arg 2) (.arg 1), bi (·+·) (.arg 0) (.op 0)]
def effects : Prog W := [sc (·+·) (.arg 0) (.arg 1), ot [.op 0], ot [.arg 0], sc (·*·) (.op 0) (.arg 1)]

/-- Whether a run ends with an exception. -/
def throws {β : Type} : Res β → Bool
  | .error (.throw _) => true
  | _ => false

/-- C168 (full statement: C167 without the condition that no fusible result is shared). `b = A*3; c = A+3; d = c*3; e = d+b; s = sum(b);
f = c+s`: the pass builds one pipeline whose body computes `f` before the sum `s` that it uses, although the program computes all six results
when its operations are executed one by one. -/
theorem C168_shared_result_body_order_partial :
    block shared = some [.pipe [1, 5, 0, 4, 2, 3]] ∧ Uses shared 5 4 ∧ ((List.range 6).all fun i => (cellsOf (direct shared [Q, S]) i).isSome) = true := by
  refine ⟨by decide +kernel, ?_, by decide +kernel⟩
  unfold Uses; decide +kernel

/-- C169 (full statement: C167 without the condition that the pipelines can be ordered). `x = A+3; y = A*3; y @ x; x @ y`: each of the two
pipelines uses a result of the other one; the first one uses a value before its definition, for every division into tasks and every schedule. -/
theorem C169_pipelines_use_each_other_partial : block cross = some [.pipe [1, 2], .pipe [0, 3]] ∧
    (∀ plan, failsUB (runs cross [Q, S] plan) = true) ∧ ((List.range 4).all fun i => (cellsOf (direct cross [Q, S]) i).isSome) = true :=
  ⟨by decide +kernel, fun _ => rfl, by decide +kernel⟩

/-- C170 (full statement: C167 without the condition that a pipeline can be placed between the users and the definitions). `x = A+3; print(x);
z = A*3; x+z`: the printing is left before the pipeline that computes what is printed, for every division into tasks and every schedule. -/
theorem C170_user_left_before_pipeline_partial : block tree = some [.one 1, .pipe [2, 0, 3]] ∧
    (∀ plan, failsUB (runs tree [Q, S] plan) = true) ∧ ((List.range 4).all fun i => (cellsOf (direct tree [Q, S]) i).isSome) = true :=
  ⟨by decide +kernel, fun _ => rfl, by decide +kernel⟩

/-- C171 (full statement: C167 without the condition on operands that are not split). `x = A+3; y = x*3; y @ x`: the three operations become
one pipeline, in which the right operand of the product is only the part of `x` of the task: two tasks fail. -/
theorem C171_unsplit_operand_from_inside_partial : block whole = some [.pipe [0, 1, 2]] ∧ throws (runs whole [Q, S] two) = true ∧
    cellsOf (direct whole [Q, S]) 2 = some [138, 165, 198, 237] :=
  ⟨by decide +kernel, by decide +kernel, by decide +kernel⟩

/-- C172 (full statement: C167 without the condition on row vectors). `v` a row vector, `w = v+3; A+w`: one pipeline, which divides the
rows of `v`, of which there is only one, like those of `A`: two tasks fail. -/
theorem C172_row_vector_from_inside_partial : block rowVec = some [.pipe [0, 1]] ∧ throws (runs rowVec [Q, S, V] two) = true ∧
    cellsOf (direct rowVec [Q, S, V]) 1 = some [14, 25, 16, 27] :=
  ⟨by decide +kernel, by decide +kernel, by decide +kernel⟩

/-- C173 (full statement: operations with side effects, such as printing, are executed in the order of the program). `x = A+3; print(x);
print(A); x*3`: the second output comes first. -/
theorem C173_side_effects_reordered_partial : block effects = some [.one 2, .pipe [0, 3], .one 1] := by decide +kernel

/-! ### Concrete instances for C167 -/

/-- `x = X+V; print(A); y = x*3; z = X*3; t = y+z; w = t @ M; s = sum(w); u = V+s`. -/
def good : Prog W := [bi (·+·) (.arg 0) (.arg 1), ot [.arg 0], sc (·*·) (.op 0) (.arg 2), sc (·*·) (.arg 0) (.arg 2), bi (·+·) (.op 2) (.op 3),
  mm (.op 4) (.arg 3), su (.op 5), sc (·+·) (.arg 1) (.op 6)]

def goodArgs : List (Mat W) := [X, V, S, M]

theorem cases_len {p : Nat → Prop} {n : Nat} (h : ∀ i < n, p i) (h' : ∀ i, n ≤ i → p i) : ∀ i, p i := fun i =>
  (Nat.lt_or_ge i n).elim (h i) (h' i)

theorem argsOf_ge {P : Prog W} {i : Nat} (h : P.length ≤ i) : argsOf P i = [] := by simp [argsOf, h]
theorem vopOf_ge {P : Prog W} {i : Nat} (h : P.length ≤ i) : vopOf P i = none := by simp [vopOf, h]
theorem cand_ge {P : Prog W} {i : Nat} (h : P.length ≤ i) : cand P i = false := by simp [cand, h]

/-- An operand is an argument or an earlier result. -/
def refOk (n i : Nat) : Ref → Bool
  | .op j => decide (j < i)
  | .arg k => decide (k < n)

/-- The structural conditions of `Fine` can be decided. -/
theorem fine_of (P : Prog W) (as : List (Mat W))
    (h1 : ∀ i < P.length, ∀ r ∈ argsOf P i, refOk as.length i r = true)
    (h2 : ∀ i < P.length, ∀ op, vopOf P i = some op → op.Fits (operands (Agg.int64 id) P as i) ∧ ¬ op.isXXt)
    (h3 : ∀ i < P.length, cand P i = true → 0 < firstRows (Agg.int64 id) P as i ∧
      ∀ w ∈ merges P i, (val (Agg.int64 id) P as w).rows = firstRows (Agg.int64 id) P as i) : Fine (Agg.int64 id) P as := by
  have lt : ∀ i, cand P i = true → i < P.length := fun i h => by
    by_contra hn; rw [cand_ge (by omega)] at h; cases h
  have lt2 : ∀ i op, vopOf P i = some op → i < P.length := fun i op h => by
    by_contra hn; rw [vopOf_ge (by omega)] at h; cases h
  have lt3 : ∀ i r, r ∈ argsOf P i → i < P.length := fun i r h => by
    by_contra hn; rw [argsOf_ge (by omega)] at h; simp at h
  exact ⟨fun i j h => of_decide_eq_true (h1 i (lt3 _ _ h) _ h), fun i k h => of_decide_eq_true (h1 i (lt3 _ _ h) _ h), fun i op h => (h2 i (lt2 i op h) op h).1,
    fun i op _ h => (h2 i (lt2 i op h) op h).2, fun i h => (h3 i (lt i h) h).1, fun v w h hw => (h3 v (lt v h) h).2 w hw⟩

theorem good_fine : Fine (Agg.int64 id) good goodArgs := by
  refine fine_of _ _ (by decide +kernel) ?_ (by decide +kernel)
  intro i hi op h
  match i, hi with
  | 0, _ => obtain rfl := Option.some.inj h; exact ⟨.inr (.inl ⟨rfl, rfl⟩), id⟩
  | 1, _ => cases h
  | 2, _ => obtain rfl := Option.some.inj h; exact ⟨⟨rfl, rfl⟩, id⟩
  | 3, _ => obtain rfl := Option.some.inj h; exact ⟨⟨rfl, rfl⟩, id⟩
  | 4, _ => obtain rfl := Option.some.inj h; exact ⟨.inl ⟨rfl, rfl⟩, id⟩
  | 5, _ => obtain rfl := Option.some.inj h; exact ⟨⟨rfl, by decide +kernel⟩, id⟩
  | 6, _ => obtain rfl := Option.some.inj h; exact ⟨trivial, id⟩
  | 7, _ => obtain rfl := Option.some.inj h; exact ⟨⟨rfl, rfl⟩, id⟩

/-- Each result that is combined by rows is used once. -/
theorem good_single : SingleUse good := by
  refine cases_len (n := 8) (by decide +kernel) fun i hi h => ?_
  rw [cand_ge hi] at h; cases h

theorem impl_ok (P : Prog W) (as : List (Mat W)) (h : ∀ (i : Nat) (f : List (Mat W) → Mat W) (l : List Ref) (m : Bool), P[i]? = some (⟨.other f, l, m⟩ : Stmt W) → f = (fun l => l.headD (noMat (Agg.int64 id))) ∧ l ≠ []) :
    ImplOk (Agg.int64 id) P as impl := by
  intro i f l m hi xs hxs
  obtain ⟨rfl, hl⟩ := h i f l m hi
  have e : operands (Agg.int64 id) P as i = l.map (Ref.val (noMat (Agg.int64 id)) as (values (Agg.int64 id) as P [])) := by
    unfold operands; rw [args_get hi]
  rw [e] at hxs ⊢
  cases l with
  | nil => exact absurd rfl hl
  | cons r l =>
    cases hxs with
    | cons h1 h2 => exact ⟨_, rfl, h1⟩

/-- C167 applies: two pipelines, one of which fuses six operations around a printing operation. Every completed run, with tasks and batches as in
any valid plan, yields V + sum(((X+V)*3 + X*3) @ M). -/
example (plan : Item → Plan) (hplan : ∀ it, (plan it).Valid) :
    block good = some [.one 1, .pipe [0, 3, 2, 4, 5, 6], .pipe [7]] ∧
    Res.Ok (runs good goodArgs plan) fun o => ∀ env, o = some env → ∃ x, env 7 = some x ∧ x.get 0 1 = .ok 2360 := by
  have hb : block good = some [.one 1, .pipe [0, 3, 2, 4, 5, 6], .pipe [7]] := by decide +kernel
  have hargs : List.Forall₂ DM.Is (goodArgs.map mk) goodArgs := .cons (mk_is X) (.cons (mk_is V) (.cons (mk_is S) (.cons (mk_is M) .nil)))
  have hI : ImplOk (Agg.int64 id) good goodArgs impl := impl_ok _ _ fun i f l m h => by
    match i with
    | 1 => cases h; exact ⟨rfl, by simp⟩
    | 0 | 2 | 3 | 4 | 5 | 6 | 7 => cases h
    | i + 8 => simp [good] at h
  refine ⟨hb, ?_⟩
  have := C167_single_use laws less idx false junk good goodArgs (goodArgs.map mk) impl good_fine good_single hargs hI plan hplan
  refine this.bind fun B hB => hB.2.2.1.mono fun o ho env he => ?_
  obtain ⟨x, h1, h2⟩ := ho env he 7 (by decide)
  refine ⟨x, h1, (h2.2.2.2 0 1 (by decide +kernel) (by decide +kernel)).trans (congrArg Except.ok ?_)⟩
  decide +kernel

/-- `x = X+3; print(x); y = x*3`: `x` is used twice, but the pipeline can be placed before the printing. -/
def printed : Prog W := [sc (·+·) (.arg 0) (.arg 2), ot [.op 0], sc (·*·) (.op 0) (.arg 2)]

def level (i : Nat) : Nat := if i = 1 then 1 else 0

theorem printed_uses {v j : Nat} (h : Uses printed v j) : (v = 1 ∨ v = 2) ∧ j = 0 := by
  unfold Uses at h
  match v with
  | 0 => simp [argsOf, printed, sc] at h
  | 1 => simp [argsOf, printed, ot] at h; exact ⟨.inl rfl, h⟩
  | 2 => simp [argsOf, printed, sc] at h; exact ⟨.inr rfl, h⟩
  | v + 3 => rw [argsOf_ge (by simp [printed])] at h; simp at h

/-- The general form of C167 covers more than single use. -/
example : Fusible printed level ∧ ¬ SingleUse printed ∧ block printed = some [.pipe [0, 2], .one 1] := by
  have hp : pipelines printed = [[2, 0]] := by decide +kernel
  refine ⟨⟨?_, ?_, ?_, ?_, ?_⟩, ?_, by decide +kernel⟩
  · unfold NoSharing; decide +kernel
  · rw [hp]
    intro L hL
    obtain rfl : L = [2, 0] := by simpa using hL
    right
    refine ⟨.cons_cons (by unfold Uses; decide +kernel) (.singleton _), fun v _ j h hj => ?_⟩
    exact absurd (by rw [(printed_uses h).2]; simp) hj
  · rw [hp]
    intro L hL
    obtain rfl : L = [2, 0] := by simpa using hL
    decide
  · intro j i h
    rw [(printed_uses h).2]
    exact Nat.zero_le _
  · rw [hp]
    intro L hL
    obtain rfl : L = [2, 0] := by simpa using hL
    intro v hv p j h _
    rcases List.mem_cons.1 hv with rfl | hv
    · rcases p with _ | _ | p
      · rfl
      · simp [argsOf, printed, sc] at h
      · simp [argsOf, printed, sc] at h
    · obtain rfl : v = 0 := by simpa using hv
      rcases p with _ | _ | p <;> simp [argsOf, printed, sc] at h
  · intro h
    exact absurd (h 0 (by decide +kernel) (by decide +kernel)) (by decide +kernel)

end Example
end Verif.Fuse
