/-
  The translation of scripts to SSA code: what users rely on.
-/
import Verif.Front.Fuel

namespace Verif.Front
open Verif

section
variable {ν F Val W : Type} [DecidableEq ν]

/-- The script ends, with these values of its variables and this state of the outside world. -/
def Stmt.Ends (S : Sem F Val W) (st : Stmt ν F) (w : W) (σ' : Vars ν Val) (w' : W) : Prop :=
  ∃ fuel, st.run S fuel (fun _ => none) w = .ok (σ', w')

/-- The script runs forever. -/
def Stmt.Diverges (S : Sem F Val W) (st : Stmt ν F) (w : W) : Prop := ∀ fuel, st.run S fuel (fun _ => none) w = .error .fuel

/-- The code ends. -/
def Code.Ends (S : Sem F Val W) (c : Code F) (w : W) (ρ' : Env Val) (w' : W) : Prop := ∃ fuel, c.exec S fuel (fun _ => none) w = .ok (ρ', w')

/-- The code runs forever. -/
def Code.Diverges (S : Sem F Val W) (c : Code F) (w : W) : Prop := ∀ fuel, c.exec S fuel (fun _ => none) w = .error .fuel

theorem rel_init : Rel (Scopes.init : Syms ν) (fun _ => none) (fun _ => (none : Option Val)) :=
  ⟨fun n i h => by simp [Scopes.init, Scopes.look, Tab.find] at h, fun _ _ => rfl⟩

/-- C59: The parser accepts a script exactly if it reads variables only where they exist and never assigns a loop variable in its loop;
any other script is rejected with an exception. -/
theorem script_accepted_iff (st : Stmt ν F) : (st.WellScoped → ∃ r, transS st 0 Scopes.init = .ok r) ∧
    (¬ st.WellScoped → (transS st 0 Scopes.init).Throws) := by
  have h := transS_check (F := F) st 0 Scopes.init inv_init
  rw [ro_init] at h
  unfold Stmt.WellScoped
  cases hc : st.check (fun _ => none) with
  | none => rw [hc] at h; exact ⟨fun ⟨D, hD⟩ => (by cases hD), fun _ => h⟩
  | some D => rw [hc] at h; obtain ⟨r, hr, _⟩ := h; exact ⟨fun _ => ⟨r, hr⟩, fun hn => absurd ⟨D, rfl⟩ hn⟩

/-- C60: If the script ends, so does the code generated for it: the outside world is in the same state, and the value the symbol table
has for each variable holds the value of the variable. -/
theorem script_translation_ends (S : Sem F Val W) (hS : S.Lawful) (st : Stmt ν F) (c : Code F) (nx : Nat) (s : Syms ν)
    (h : transS st 0 Scopes.init = .ok (c, nx, s)) (w w' : W) (σ' : Vars ν Val) (hr : st.Ends S w σ' w') :
    ∃ ρ', c.Ends S w ρ' w' ∧
      (∀ x v, σ' x = some v → ∃ i, s.get x = .ok i ∧ ρ' i.value = some v) ∧ (∀ x, σ' x = none → (s.get x).Throws) := by
  obtain ⟨fuel, hr⟩ := hr
  have hs := (transS_ok hS st 0 Scopes.init inv_init c nx s h).sim fuel (fun _ => none) (fun _ => none) w rel_init
  rw [hr] at hs
  obtain ⟨⟨ρ', w1⟩, e, hw, hrel⟩ := hs
  dsimp only at hw hrel
  subst hw
  refine ⟨ρ', ⟨fuel, e⟩, fun x v hv => ?_, fun x hx => ?_⟩
  · cases hl : s.look x with
    | none => rw [hrel.2 x hl] at hv; cases hv
    | some i =>
      obtain ⟨u, h1, h2⟩ := hrel.1 x i hl
      rw [hv] at h2; cases h2
      exact ⟨i, get_ok.2 hl, h1⟩
  · cases hl : s.look x with
    | none => rw [Scopes.get_eq, hl]; exact ⟨_, rfl⟩
    | some i =>
      obtain ⟨u, _, h2⟩ := hrel.1 x i hl
      rw [hx] at h2; cases h2

/-- The outcome of the code is unique: nothing else can come out. -/
theorem code_ends_unique (S : Sem F Val W) (c : Code F) (w w1 w2 : W) (ρ1 ρ2 : Env Val) (h1 : c.Ends S w ρ1 w1) (h2 : c.Ends S w ρ2 w2) :
    ρ1 = ρ2 ∧ w1 = w2 := by
  obtain ⟨n, h1⟩ := h1
  obtain ⟨m, h2⟩ := h2
  have e1 := (Code.exec_further c n m (fun _ => none) w (S := S)).resolve_left (by rw [h1]; simp)
  have e2 := (Code.exec_further c m n (fun _ => none) w (S := S)).resolve_left (by rw [h2]; simp)
  rw [Nat.add_comm, e1] at e2
  rw [h1, h2] at e2
  cases e2
  exact ⟨rfl, rfl⟩

/-- The same for scripts. -/
theorem script_ends_unique (S : Sem F Val W) (st : Stmt ν F) (w w1 w2 : W) (σ1 σ2 : Vars ν Val) (h1 : st.Ends S w σ1 w1) (h2 : st.Ends S w σ2 w2) :
    σ1 = σ2 ∧ w1 = w2 := by
  obtain ⟨n, h1⟩ := h1
  obtain ⟨m, h2⟩ := h2
  have e1 := (Stmt.run_further st n m (fun _ => none) w (S := S)).resolve_left (by rw [h1]; simp)
  have e2 := (Stmt.run_further st m n (fun _ => none) w (S := S)).resolve_left (by rw [h2]; simp)
  rw [Nat.add_comm, e1] at e2
  rw [h1, h2] at e2
  cases e2
  exact ⟨rfl, rfl⟩

/-- C60: If the script runs forever, so does the code. -/
theorem script_translation_diverges (S : Sem F Val W) (hS : S.Lawful) (st : Stmt ν F) (c : Code F) (nx : Nat) (s : Syms ν)
    (h : transS st 0 Scopes.init = .ok (c, nx, s)) (w : W) (hr : st.Diverges S w) : c.Diverges S w := fun fuel => by
  have hs := (transS_ok hS st 0 Scopes.init inv_init c nx s h).sim fuel (fun _ => none) (fun _ => none) w rel_init
  rw [hr fuel] at hs
  exact hs

/-- C60: An accepted script never reads a variable that does not exist, whatever branches it takes. -/
theorem script_never_unbound (S : Sem F Val W) (hS : S.Lawful) (st : Stmt ν F) (hw : st.WellScoped) (fuel : Nat) (w : W) :
    st.run S fuel (fun _ => none) w ≠ .error .unbound := fun hr => by
  obtain ⟨⟨c, nx, s⟩, h⟩ := (script_accepted_iff st).1 hw
  have hs := (transS_ok hS st 0 Scopes.init inv_init c nx s h).sim fuel (fun _ => none) (fun _ => none) w rel_init
  rw [hr] at hs
  exact hs

end

/-! ### For-loops at the ends of the integer range -/

/-- A single for-loop with constant bounds, whose body runs the operation `f` on the loop variable. -/
def countLoop (a b : Int) : Stmt String (Option Int) :=
  .for "i" (.app (some a) .nil) (.app (some b) .nil) (.expr (.app none (.cons (.var "i") .nil)))

/-- Operations for the example: constants, and one that appends its argument to a log. -/
def logSem : Sem (Option Int) Int (List Int) :=
  ⟨fun f xs w => match f with
    | some z => ([z], w)
    | none => (xs, w ++ xs), fun z => z ≠ 0, fun z => z, fun z => z⟩

theorem logSem_lawful : logSem.Lawful := fun _ _ => rfl

/-- The code generated for it. -/
def countCode (a b : Int) : Code (Option Int) :=
  .op [0] (some a) [] <| .op [1] (some b) [] <| .arith 2 (.const (-1)) [] <| .arith 3 (.const 2) [] <| .arith 4 .ge [1, 0] <|
  .arith 5 .mul [3, 4] <| .arith 6 .add [2, 5] <| .arith 7 .add [1, 6] <| .arith 8 .mul [0, 6] <| .arith 9 .mul [7, 6] <| .arith 10 .mul [6, 6] <|
  .loop [] 8 9 10 [] 14 [] (.arith 11 (.const 123) [] <| .arith 12 .mul [14, 6] <| .op [13] none [12] .done) [] .done

theorem countLoop_code (a b : Int) : transS (countLoop a b) 0 Scopes.init = .ok (countCode a b, 15, Scopes.init) := rfl

/-- C61: A loop from any number to `2^63 - 1` is accepted but its body is not run at all: the exclusive upper bound the parser computes
overflows. -/
theorem for_overflow_skips_partial (a : Int) (h : InI64 a) : ∃ c nx s ρ', transS (countLoop a (2 ^ 63 - 1)) 0 Scopes.init = .ok (c, nx, s) ∧
    c.Ends logSem [] ρ' [] := by
  have h1 : a ≤ 2 ^ 63 - 1 := by unfold InI64 at h; omega
  have h2 : wrap64 a = a := wrap64_eq h
  have h3 : -2 ^ 63 ≤ a := h.1
  suffices ∃ ρ', (countCode a (2 ^ 63 - 1)).exec logSem 1 (fun _ => none) [] = .ok (ρ', []) by
    obtain ⟨ρ', h⟩ := this
    exact ⟨_, _, _, ρ', countLoop_code _ _, 1, h⟩
  simp only [countCode, Code.exec, Env.getAll, Env.setAll, Env.get, Env.upd, Run.ok_bind, logSem, Arith.eval, List.map_cons, List.map_nil]
  simp only [Nat.reduceEqDiff, if_true, if_false, Run.ok_bind, List.map_cons, List.map_nil, Arith.eval, if_pos h1]
  have e1 : wrap64 2 = 2 := by decide
  have e2 : wrap64 (-1 + 2) = 1 := by decide
  have e3 : wrap64 (2 ^ 63 - 1 + 1) = -2 ^ 63 := by decide
  have e4 : wrap64 (-2 ^ 63) = -2 ^ 63 := by decide
  have e5 : wrap64 1 = 1 := by decide
  simp only [Int.mul_one, e1, e2, e3, e4, h2, e5, scfVals, if_pos h3, Run.ok_bind, foldRun]
  exact ⟨_, rfl⟩

/-- What the loop should do: here the body should run for `2^63 - 1`. -/
example : 2 ^ 63 - 1 ∈ forVals (2 ^ 63 - 1) (2 ^ 63 - 1) 1 := by rw [mem_forVals]; exact ⟨by omega, ⟨0, by omega⟩, by omega, by omega⟩

/-! ### Examples: the hypotheses are met -/

/-- Operations for the examples. -/
inductive Fn where
  | lit (z : Int)
  | add
  | lt
  | print

/-- Their meaning; the world is what has been printed. -/
def fnSem : Sem Fn Int (List Int) :=
  ⟨fun f xs w => match f, xs with
    | .lit z, _ => ([z], w)
    | .add, [a, b] => ([a + b], w)
    | .lt, [a, b] => ([if a < b then 1 else 0], w)
    | .print, [a] => ([a], w ++ [a])
    | _, _ => ([], w), fun z => z ≠ 0, fun z => z, fun z => z⟩

def lit (z : Int) : Expr Char Fn := .app (.lit z) .nil
def fn2 (f : Fn) (a b : Expr Char Fn) : Expr Char Fn := .app f (.cons a (.cons b .nil))

/-- `x = 1; y = 2; n = 0; while (n < 3) { t = x; x = y; y = t; n = n + 1; if (x < y) print(x); else { x = x + 10; } }
for (i in 3:1) for (j in 1:10:i) print(i + j); do n = n + 1; while (n < 7);` -/
def exScript : Stmt Char Fn :=
  .seq (.assign 'x' (lit 1)) <| .seq (.assign 'y' (lit 2)) <| .seq (.assign 'n' (lit 0)) <|
  .seq (.while (fn2 .lt (.var 'n') (lit 3)) (.block (
    .seq (.assign 't' (.var 'x')) <| .seq (.assign 'x' (.var 'y')) <| .seq (.assign 'y' (.var 't')) <|
    .seq (.assign 'n' (fn2 .add (.var 'n') (lit 1))) <|
    .ifElse (fn2 .lt (.var 'x') (.var 'y')) (.expr (.app .print (.cons (.var 'x') .nil)))
      (.block (.assign 'x' (fn2 .add (.var 'x') (lit 10))))))) <|
  .seq (.for 'i' (lit 3) (lit 1) (.forStep 'j' (lit 1) (lit 10) (fn2 .add (.var 'i') (.var 'i')) (.expr (.app .print (.cons (fn2 .add (.var 'i') (.var 'j')) .nil)))))
  (.doWhile (.assign 'n' (fn2 .add (.var 'n') (lit 1))) (fn2 .lt (.var 'n') (lit 7)))

example : exScript.WellScoped := ⟨_, rfl⟩

example : ∃ σ', exScript.Ends fnSem [] σ' [1, 4, 10, 3, 7, 11, 2, 4, 6, 8, 10] ∧ σ' 'x' = some 22 ∧ σ' 'y' = some 1 ∧ σ' 'n' = some 7 ∧ σ' 't' = none := by
  have key : (exScript.run fnSem 10 (fun _ => none) []).toOption.map (fun p => (p.2, p.1 'x', p.1 'y', p.1 'n', p.1 't')) =
      some ([1, 4, 10, 3, 7, 11, 2, 4, 6, 8, 10], some 22, some 1, some 7, none) := by decide +kernel
  cases h : exScript.run fnSem 10 (fun _ => none) [] with
  | error e => rw [h] at key; cases key
  | ok p =>
    rw [h] at key
    simp only [Except.toOption, Option.map_some, Option.some.injEq, Prod.mk.injEq] at key
    obtain ⟨h1, h2⟩ := key
    exact ⟨p.1, ⟨10, by rw [h, ← h1]⟩, h2⟩

/-- `n = 0; while (n < 1) n = n + 0;` runs forever. -/
def exLoop : Stmt Char Fn :=
  .seq (.assign 'n' (lit 0)) (.while (fn2 .lt (.var 'n') (lit 1)) (.assign 'n' (fn2 .add (.var 'n') (lit 0))))

example : exLoop.WellScoped := ⟨_, rfl⟩

example : exLoop.Diverges fnSem [] := fun fuel => by
  have key : ∀ (σ : Vars Char Int), σ 'n' = some 0 → (Stmt.while (fn2 .lt (.var 'n') (lit 1)) (.assign 'n' (fn2 .add (.var 'n') (lit 0)))).run fnSem fuel σ [] =
      .error .fuel := by
    intro σ hσ
    simp only [Stmt.run]
    generalize hf : (fun st : Vars Char Int × List Int => _) = f
    have hstep : ∀ σ : Vars Char Int, σ 'n' = some 0 → ∃ σ', f (σ, []) = .ok (.inl (σ', [])) ∧ σ' 'n' = some 0 := by
      intro σ hσ
      subst hf
      refine ⟨leave σ (σ.set 'n' 0), ?_, by simp [leave, Vars.set, hσ]⟩
      simp [fn2, lit, Expr.eval, Args.eval, Vars.get, hσ, fnSem]
    clear hf
    induction fuel generalizing σ with
    | zero => rfl
    | succ n ih =>
      obtain ⟨σ', h1, h2⟩ := hstep σ hσ
      simp only [iterate, h1, Run.ok_bind]
      exact ih σ' h2
  simp only [exLoop, Stmt.run]
  simp only [lit, Expr.eval, Args.eval, Run.ok_bind, fnSem]
  exact key _ (by simp [Vars.set])

/-- Assigning the loop variable, and reading a variable after the block that created it, are rejected. -/
example : ¬ (Stmt.for 'i' (lit 1) (lit 3) (.assign 'i' (lit 0))).WellScoped := fun ⟨_, h⟩ => by cases h
example : ¬ (Stmt.seq (.block (.assign 'x' (lit 1))) (.expr (.var 'x'))).WellScoped := fun ⟨_, h⟩ => by cases h

end Verif.Front
