/-
  Specification: what a DaphneDSL script means (doc/DaphneDSL/LanguageRef.md, sections on statements and control flow), written
  without SSA values, scopes tables or block arguments: a state maps the names of the existing variables to their values.
-/
import Verif.Front.Ssa

namespace Verif.Front

mutual
/-- Expressions: a variable, or an operation (operator, builtin, literal, …) on argument expressions. -/
inductive Expr (ν F : Type) where
  | var (n : ν)
  | app (f : F) (args : Args ν F)
/-- Lists of argument expressions. -/
inductive Args (ν F : Type) where
  | nil
  | cons (e : Expr ν F) (as : Args ν F)
end

/-- Statements. `skip` and `seq` make up the statement lists of scripts and blocks. Left indexing `x[i, j] = e` is an assignment whose
right-hand side is the insertion operation applied to `e`, `x` and the indices. -/
inductive Stmt (ν F : Type) where
  | skip
  | seq (s t : Stmt ν F)
  | expr (e : Expr ν F)
  | assign (x : ν) (e : Expr ν F)
  | assigns (xs : List ν) (f : F) (args : Args ν F)
  | block (s : Stmt ν F)
  | ifThen (c : Expr ν F) (t : Stmt ν F)
  | ifElse (c : Expr ν F) (t e : Stmt ν F)
  | while (c : Expr ν F) (s : Stmt ν F)
  | doWhile (s : Stmt ν F) (c : Expr ν F)
  | for (x : ν) (lo hi : Expr ν F) (s : Stmt ν F)
  | forStep (x : ν) (lo hi st : Expr ν F) (s : Stmt ν F)

/-- The existing variables and their values. -/
abbrev Vars (ν Val : Type) := ν → Option Val

section
variable {ν F Val W : Type} [DecidableEq ν] (S : Sem F Val W)

def Vars.set (σ : Vars ν Val) (x : ν) (v : Val) : Vars ν Val := fun y => if y = x then some v else σ y

/-- Leaving a scope: variables that did not exist when it was entered are gone, all others keep their current values. -/
def leave (σ σ' : Vars ν Val) : Vars ν Val := fun n => if (σ n).isSome then σ' n else none

def Vars.get (σ : Vars ν Val) (x : ν) : Run Val :=
  match σ x with
  | some v => .ok v
  | none => .error .unbound

mutual
/-- Evaluate an expression: arguments left to right, then the operation. -/
def Expr.eval : Expr ν F → Vars ν Val → W → Run (Val × W)
  | .var n, σ, w => σ.get n >>= fun v => .ok (v, w)
  | .app f as, σ, w => as.eval σ w >>= fun p =>
    match S.op f p.1 p.2 with
    | ([v], w') => .ok (v, w')
    | _ => .error .undef
def Args.eval : Args ν F → Vars ν Val → W → Run (List Val × W)
  | .nil, _, w => .ok ([], w)
  | .cons e as, σ, w => e.eval σ w >>= fun p => as.eval σ p.2 >>= fun q => .ok (p.1 :: q.1, q.2)
end

/-- Assign the values to the variables, one after the other. -/
def Vars.setAll (σ : Vars ν Val) : List ν → List Val → Run (Vars ν Val)
  | [], [] => .ok σ
  | x :: xs, v :: vs => setAll (σ.set x v) xs vs
  | _, _ => .error .undef

/-- `a, a + s, a + 2s, …` up to and including the bound `b`, in the direction of the step. -/
def forVals (a b s : Int) : List Int :=
  if 0 < s then (List.range ((b - a) / s + 1).toNat).map fun (k : Nat) => a + k * s
  else if s < 0 then (List.range ((a - b) / (-s) + 1).toNat).map fun (k : Nat) => a + k * s
  else []

/-- The bounds and the step of a for-loop are 64-bit integers, with one value to spare at both ends. -/
def ForRange (a b s : Int) : Prop :=
  - 2 ^ 63 < a ∧ a < 2 ^ 63 ∧ - 2 ^ 63 < s ∧ s < 2 ^ 63 ∧ - 2 ^ 63 < b - 1 ∧ b + 1 < 2 ^ 63

instance (a b s : Int) : Decidable (ForRange a b s) := by unfold ForRange; infer_instance

/-- Run the body for each value of the loop variable. In each iteration the loop variable is set in the scope of the body. -/
def forRun (body : Vars ν Val → W → Run (Vars ν Val × W)) (x : ν) (σ : Vars ν Val) (w : W) (a b s : Int) : Run (Vars ν Val × W) :=
  if ForRange a b s then
    foldRun (fun (p : Vars ν Val × W) z => body (p.1.set x (S.ofInt z)) p.2 >>= fun q => .ok (leave p.1 q.1, q.2)) (σ, w) (forVals a b s)
  else .error .undef

/-- Run a statement; `fuel` bounds the number of iterations of each while-loop. -/
def Stmt.run (fuel : Nat) : Stmt ν F → Vars ν Val → W → Run (Vars ν Val × W)
  | .skip, σ, w => .ok (σ, w)
  | .seq s t, σ, w => s.run fuel σ w >>= fun p => t.run fuel p.1 p.2
  | .expr e, σ, w => e.eval S σ w >>= fun p => .ok (σ, p.2)
  | .assign x e, σ, w => e.eval S σ w >>= fun p => .ok (σ.set x p.1, p.2)
  | .assigns xs f as, σ, w =>
    as.eval S σ w >>= fun p => σ.setAll xs (S.op f p.1 p.2).1 >>= fun σ' => .ok (σ', (S.op f p.1 p.2).2)
  | .block s, σ, w => s.run fuel σ w >>= fun p => .ok (leave σ p.1, p.2)
  | .ifThen c t, σ, w => c.eval S σ w >>= fun p =>
    if S.toBool p.1 then t.run fuel σ p.2 >>= fun q => .ok (leave σ q.1, q.2) else .ok (σ, p.2)
  | .ifElse c t e, σ, w => c.eval S σ w >>= fun p =>
    if S.toBool p.1 then t.run fuel σ p.2 >>= fun q => .ok (leave σ q.1, q.2)
    else e.run fuel σ p.2 >>= fun q => .ok (leave σ q.1, q.2)
  | .while c s, σ, w =>
    iterate (fun (st : Vars ν Val × W) => c.eval S st.1 st.2 >>= fun p =>
      if S.toBool p.1 then s.run fuel st.1 p.2 >>= fun q => .ok (.inl (leave st.1 q.1, q.2)) else .ok (.inr (st.1, p.2))) fuel (σ, w)
  | .doWhile s c, σ, w =>
    iterate (fun (st : Vars ν Val × W) => s.run fuel st.1 st.2 >>= fun q => c.eval S (leave st.1 q.1) q.2 >>= fun p =>
      if S.toBool p.1 then .ok (.inl (leave st.1 q.1, p.2)) else .ok (.inr (leave st.1 q.1, p.2))) fuel (σ, w)
  | .for x lo hi s, σ, w => lo.eval S σ w >>= fun p => hi.eval S σ p.2 >>= fun q =>
    forRun S (s.run fuel) x σ q.2 (S.toInt p.1) (S.toInt q.1) (if S.toInt p.1 ≤ S.toInt q.1 then 1 else -1)
  | .forStep x lo hi st s, σ, w => lo.eval S σ w >>= fun p => hi.eval S σ p.2 >>= fun q => st.eval S σ q.2 >>= fun r =>
    forRun S (s.run fuel) x σ r.2 (S.toInt p.1) (S.toInt q.1) (S.toInt r.1)

end

/-- The values of a for-loop, described without computing them. -/
theorem mem_forVals (a b s z : Int) : z ∈ forVals a b s ↔ s ≠ 0 ∧ (∃ k : Nat, z = a + k * s) ∧ (0 < s → z ≤ b) ∧ (s < 0 → b ≤ z) := by
  unfold forVals
  split
  next hs =>
    simp only [List.mem_map, List.mem_range]
    constructor
    · rintro ⟨k, hk, rfl⟩
      refine ⟨by omega, ⟨k, rfl⟩, fun _ => ?_, fun h => by omega⟩
      have h1 : (k : Int) ≤ (b - a) / s := by omega
      have := (Int.le_ediv_iff_mul_le hs).1 h1
      omega
    · rintro ⟨_, ⟨k, rfl⟩, h, _⟩
      refine ⟨k, ?_, rfl⟩
      have := (Int.le_ediv_iff_mul_le hs).2 (show (k : Int) * s ≤ b - a by have := h hs; omega)
      omega
  next hs =>
    split
    next hs' =>
      simp only [List.mem_map, List.mem_range]
      have hn : 0 < -s := by omega
      constructor
      · rintro ⟨k, hk, rfl⟩
        refine ⟨by omega, ⟨k, rfl⟩, fun h => by omega, fun _ => ?_⟩
        have h1 : (k : Int) ≤ (a - b) / (-s) := by omega
        have := (Int.le_ediv_iff_mul_le hn).1 h1
        rw [Int.mul_neg] at this
        omega
      · rintro ⟨_, ⟨k, rfl⟩, _, h⟩
        refine ⟨k, ?_, rfl⟩
        have := (Int.le_ediv_iff_mul_le hn).2 (show (k : Int) * (-s) ≤ a - b by have := h hs'; rw [Int.mul_neg]; omega)
        omega
    next hs' => simp; omega

/-- The loop variable takes its values in the order of counting: the k-th value is `a + k·s`. -/
theorem forVals_getElem (a b s : Int) (k : Nat) (h : k < (forVals a b s).length) : (forVals a b s)[k] = a + k * s := by
  revert h
  unfold forVals
  split
  · intro h; simp
  · split
    · intro h; simp
    · intro h; simp at h

end Verif.Front
