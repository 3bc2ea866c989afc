/-
  C166: the declared combine of `X @ t(X)` is wrong; concrete instances for C164 and C165.
-/
import Verif.Vect.Body
import Verif.Agg.Limits

namespace Verif.Vect
open Verif Verif.Dense
variable {α : Type}

/-- C166 (the full statement: the declared splits and combines are right for *every* vectorizable operation; it does not hold for
`X @ t(X)`): partial products of blocks of rows of `X` have the shape of the block, and their sum is not the product, for every `X` with at
least two rows. -/
theorem C166_xxt_not_a_sum_over_rows_partial (A : Agg.VT α) (X : Mat α) (h : 2 ≤ X.rows) : ¬ CombineRight A (.syrk false) X.rows [X] := by
  intro hc
  have := (hc.2.1 0 1 (by omega) (by omega)).1
  change (Inp.part ⟨X, .rows⟩ 0 1).rows = X.rows at this
  unfold Inp.part at this
  rw [if_neg (by simp; omega)] at this
  simp only [Mat.window] at this
  omega

namespace FusedExample

theorem laws : Laws (Agg.int64 id) :=
  ⟨Agg.int64_lawful id _, Agg.int64_lawful id _, Agg.int64_lawful id _, fun a b => BitVec.mul_comm a b⟩

def less (a b : BitVec 64) : Bool := a.slt b
def idx (n : Nat) : BitVec 64 := BitVec.ofNat 64 n
def junk (_ : Nat) : BitVec 64 := 77

/-- A 2x1 matrix (1, 2). -/
def colObj : DM (BitVec 64) := ⟨Hdr.new 2 1, ⟨2, fun i => idx (i + 1)⟩⟩
def xxt : List (Node (BitVec 64)) := [⟨.syrk false, [.inp 0]⟩]

/-- Whether a run ends with an exception. -/
def failed {β : Type} : Res β → Bool
  | .error (.throw _) => true
  | _ => false

/-- Two tasks of one row each: `X @ t(X)` for X = (1, 2) fails as a pipeline, but yields ((1, 2), (2, 4)) when the kernel is called on X. -/
theorem C166_xxt_fails_partial :
    failed (run (bodyPipe (Agg.int64 id) less idx false junk [⟨colObj, .rows⟩] xxt) [(0, 1), (1, 2)] (fun _ => 1)
      (St.init [(0, 1), (1, 2)] (bodyOutputs (Agg.int64 id) junk [⟨colObj, .rows⟩] xxt)) [0, 0, 0, 0, 0]) = true ∧
    (match execBody (Agg.int64 id) less idx false junk [colObj] xxt [] with
      | .ok [y] => some ((List.range y.mem.size).map y.mem.data)
      | _ => none) = some [1, 2, 2, 4] := by
  decide +kernel

/-! ### Concrete instances -/

/-- A 5x2 matrix with cells 2r+c, a row vector (10, 20), a scalar 3 and a 2x2 matrix. -/
def X : Mat (BitVec 64) := ⟨5, 2, fun r c => idx (2 * r + c)⟩
def V : Mat (BitVec 64) := ⟨1, 2, fun _ c => idx (10 * (c + 1))⟩
def S : Mat (BitVec 64) := ⟨1, 1, fun _ _ => 3⟩
def M : Mat (BitVec 64) := ⟨2, 2, fun r c => idx (r + 2 * c)⟩

def mk (a : Mat (BitVec 64)) : DM (BitVec 64) := ⟨Hdr.new a.rows a.cols, ⟨a.rows * a.cols, fun i => a.cell (i / a.cols) (i % a.cols)⟩⟩

theorem mk_is (a : Mat (BitVec 64)) : (mk a).Is a := by
  refine is_new rfl fun r c hr hc => ?_
  have h1 : (r * a.cols + c) / a.cols = r := by rw [Nat.mul_comm, Nat.mul_add_div (by omega), Nat.div_eq_of_lt hc]; rfl
  have h2 : (r * a.cols + c) % a.cols = c := by rw [Nat.mul_comm, Nat.mul_add_mod, Nat.mod_eq_of_lt hc]
  show a.cell _ _ = _
  rw [h1, h2]

/-- `Y = X + V; Z = Y * 3; W = Z @ M; s = sum(W); T = t(Y)` as one pipeline. -/
def body : List (Node (BitVec 64)) :=
  [⟨.ewBin (· + ·), [.inp 0, .inp 1]⟩, ⟨.ewSca (· * ·), [.res 0, .inp 2]⟩, ⟨.matMul false, [.res 1, .inp 3]⟩, ⟨.allAgg .sum, [.res 2]⟩,
    ⟨.transpose, [.res 0]⟩]
def inps : List (Inp (BitVec 64)) := [⟨X, .rows⟩, ⟨V, .rows⟩, ⟨S, .none⟩, ⟨M, .none⟩]
def objects : List (InObj (BitVec 64)) := [⟨mk X, .rows⟩, ⟨mk V, .rows⟩, ⟨mk S, .none⟩, ⟨mk M, .none⟩]

theorem well : WellSplit 5 inps body [] := by
  have inr : ∀ i, (inps.map (·.split))[i]? = some .rows → SrcOk (α := BitVec 64) (inps.map (·.split)) [] (.inp i) .rows := fun _ h => h
  refine ⟨.cons rfl (.cons rfl .nil), ?_, id, .cons ⟨rfl, _, rfl, rfl⟩ (.cons rfl .nil), ?_, id, .cons ⟨rfl, _, rfl, rfl⟩ (.cons rfl .nil), ?_, id,
    .cons ⟨rfl, _, rfl, rfl⟩ .nil, ?_, id, .cons ⟨rfl, _, rfl, rfl⟩ .nil, ?_, id, trivial⟩
  · intro p i x h1 h2 h3
    match p with
    | 0 => simp only [List.getElem?_cons_zero, Option.some.injEq, Src.inp.injEq] at h1; subst h1; simp [inps] at h2; subst h2; exact .inl rfl
    | 1 => simp only [List.getElem?_cons_succ, List.getElem?_cons_zero, Option.some.injEq, Src.inp.injEq] at h1; subst h1; simp [inps] at h2; subst h2; exact .inr ⟨rfl, rfl⟩
    | p + 2 => simp at h1
  all_goals
    intro p i x h1 h2 h3
    rcases p with _ | _ | p <;> simp at h1
    try (subst h1; simp [inps] at h2; subst h2; cases h3)

/-- C165 applies: under every interleaving of the two tasks the sum is that of the whole matrix. -/
example (sch : List Nat) : Res.Ok (run (bodyPipe (Agg.int64 id) less idx false junk objects body) [(0, 2), (2, 5)] (fun t => t + 1)
      (St.init [(0, 2), (2, 5)] (bodyOutputs (Agg.int64 id) junk objects body)) sch)
    (fun s => s.finished 2 → ∃ x, s.res 3 = some x ∧ x.get 0 0 = .ok 1920) := by
  have hin : List.Forall₂ (fun (i : InObj (BitVec 64)) (s : Inp (BitVec 64)) => i.obj.Is s.mat ∧ i.split = s.split ∧
      (s.split = .rows → s.mat.rows = 1 ∨ s.mat.rows = 5)) objects inps :=
    .cons ⟨mk_is X, rfl, fun _ => .inr rfl⟩ (.cons ⟨mk_is V, rfl, fun _ => .inl rfl⟩ (.cons ⟨mk_is S, rfl, fun _ => .inl rfl⟩
      (.cons ⟨mk_is M, rfl, fun h => by cases h⟩ .nil)))
  have hfit : FitsFrom (Agg.int64 id) (Inp.mats inps) body [] :=
    ⟨.inr (.inl ⟨rfl, rfl⟩), ⟨rfl, rfl⟩, ⟨rfl, by decide⟩, trivial, trivial, trivial⟩
  obtain ⟨ys, _, _, h⟩ := (C165_fused_pipeline laws less idx false junk (len := 5) (by decide) objects inps body [(0, 2), (2, 5)] (fun t => t + 1)
    hin well hfit ⟨rfl, by decide, rfl, by decide, rfl⟩ (fun t => by omega) sch).1
  refine h.mono fun s hs hf => ?_
  obtain ⟨x, h1, h2⟩ := hs hf 3 (by decide)
  refine ⟨x, h1, (h2.2.2.2 0 0 (by decide) (by decide)).trans (congrArg Except.ok ?_)⟩
  decide +kernel

/-- C164 applies to a sum and to a row vector operand. -/
example : CombineRight (Agg.int64 id) (.colAgg .sum) 5 [X] ∧ CombineRight (Agg.int64 id) (.ewBin (· + ·)) 5 [X, V] :=
  ⟨(C164_declared_splits_and_combines laws less idx false junk (.colAgg .sum) (ws := [X]) (by decide) (show 0 < X.rows by decide)
      (fun i s w h1 h2 _ => by rcases i with _ | i <;> simp at h2; subst h2; exact .inl rfl) id).1,
    (C164_declared_splits_and_combines laws less idx false junk (.ewBin (· + ·)) (ws := [X, V]) (by decide) (.inr (.inl ⟨rfl, rfl⟩))
      (fun i s w h1 h2 _ => by
        rcases i with _ | _ | i <;> simp at h2
        · subst h2; exact .inl rfl
        · subst h2; exact .inr ⟨rfl, rfl⟩) id).1⟩

end FusedExample

end Verif.Vect
