import Verif.Ref.Main

namespace Verif.Ref

section
variable {F V W : Type} {ty : Nat → Ty} {S : Sem F V W}

/-! ### On the machine with unlimited memory nothing is ever freed -/

theorem get_nf {ρ : Env V} {v : Nat} : ρ.get v ≠ .error .freed := by
  unfold Env.get; split <;> simp

theorem bind_nf {α β : Type} {m : Run α} {f : α → Run β} (h1 : m ≠ .error .freed) (h2 : ∀ a, f a ≠ .error .freed) : (m >>= f) ≠ .error .freed := by
  cases m with
  | error e => simpa using h1
  | ok a => exact h2 a

theorem getAll_nf {ρ : Env V} {vs : List Nat} : ρ.getAll vs ≠ .error .freed := by
  induction vs with
  | nil => simp [Env.getAll]
  | cons v vs ih => exact bind_nf get_nf fun x => bind_nf ih fun xs => by simp

theorem envBind_nf {ρ : Env V} {rs : List Nat} {xs : List (RVal V)} : ρ.bind ty rs xs ≠ .error .freed := by
  induction rs generalizing ρ xs with
  | nil => cases xs <;> simp [Env.bind]
  | cons r rs ih =>
    cases xs with
    | nil => simp [Env.bind]
    | cons x xs =>
      simp only [Env.bind]
      split
      · exact ih
      · simp

theorem iterate_nf {α β : Type} {f : α → Run (α ⊕ β)} (hf : ∀ a, f a ≠ .error .freed) (n : Nat) (a : α) : iterate f n a ≠ .error .freed := by
  induction n generalizing a with
  | zero => simp [iterate]
  | succ n ih =>
    refine bind_nf (hf a) fun q => ?_
    cases q with
    | inl a => exact ih a
    | inr b => simp

theorem foldRun_nf {α β : Type} {f : β → α → Run β} (hf : ∀ b a, f b a ≠ .error .freed) (l : List α) (b : β) : foldRun f b l ≠ .error .freed := by
  induction l generalizing b with
  | nil => simp [foldRun]
  | cons a l ih => exact bind_nf (hf b a) fun b => ih b

theorem test_nf {x : RVal V} : S.plain.test x ≠ .error .freed := by cases x <;> simp [Machine.test]

theorem range_nf {x y z : RVal V} : S.plain.range x y z ≠ .error .freed := by
  cases x <;> cases y <;> cases z <;> simp only [Machine.range, Sem.plain, ne_eq, reduceCtorEq, not_false_eq_true, Except.error.injEq]
  unfold Sem.ivsRun; split <;> simp

theorem exec_nf {callee : Nat → List (RVal V) → W → Run (List (RVal V) × W)} (hc : ∀ g xs w, callee g xs w ≠ .error .freed) (fuel : Nat)
    (c : Ir F) (ρ : Env V) (w : W) : c.exec S.plain ty callee fuel ρ w ≠ .error .freed := by
  induction c generalizing ρ w with
  | term vs => exact bind_nf getAll_nf fun xs => by simp
  | op rs f as k ih => exact bind_nf getAll_nf fun xs => bind_nf (by simp [Sem.plain]) fun q => bind_nf envBind_nf fun _ => ih _ _
  | cast r a k ih => exact bind_nf get_nf fun x => bind_nf envBind_nf fun _ => ih _ _
  | sel r c a b k ih =>
    exact bind_nf get_nf fun x => bind_nf test_nf fun _ => bind_nf get_nf fun _ => bind_nf get_nf fun _ => bind_nf envBind_nf fun _ => ih _ _
  | lit r s k ih => exact bind_nf envBind_nf fun _ => ih _ _
  | call rs g as k ih => exact bind_nf getAll_nf fun xs => bind_nf (hc _ _ _) fun q => bind_nf envBind_nf fun _ => ih _ _
  | ite rs c t e k iht ihe ih =>
    refine bind_nf get_nf fun x => bind_nf test_nf fun b => bind_nf ?_ fun _ => bind_nf envBind_nf fun _ => ih _ _
    split
    · exact iht _ _
    · exact ihe _ _
  | whil rs is bs before aas after k ihb iha ih =>
    refine bind_nf getAll_nf fun x => bind_nf (iterate_nf (fun st => ?_) _ _) fun _ => bind_nf envBind_nf fun _ => ih _ _
    refine bind_nf envBind_nf fun _ => bind_nf (ihb _ _) fun p => ?_
    split
    · simp
    · refine bind_nf test_nf fun b => ?_
      split
      · exact bind_nf envBind_nf fun _ => bind_nf (iha _ _) fun _ => by simp
      · simp
  | loop rs l u s is iv it body k ihb ih =>
    refine bind_nf get_nf fun _ => bind_nf get_nf fun _ => bind_nf get_nf fun _ => bind_nf getAll_nf fun _ => bind_nf range_nf fun _ =>
      bind_nf (foldRun_nf (fun _ _ => bind_nf envBind_nf fun _ => ihb _ _) _ _) fun _ => bind_nf envBind_nf fun _ => ih _ _
  | inc v k ih => exact bind_nf get_nf fun _ => bind_nf (by simp [Sem.plain]) fun _ => ih _ _
  | dec v k ih => exact bind_nf get_nf fun _ => bind_nf (by simp [Sem.plain]) fun _ => ih _ _

theorem runFn_nf (fns : Nat → Option (List Nat × Ir F)) (n g : Nat) (xs : List (RVal V)) (w : W) :
    runFn S.plain ty fns n g xs w ≠ .error .freed := by
  induction n generalizing g xs w with
  | zero => simp [runFn]
  | succ n ih =>
    simp only [runFn]
    split
    · simp
    · exact bind_nf envBind_nf fun _ => exec_nf (fun _ _ _ => ih _ _ _) _ _ _ _

/-! ### The property -/

/-- A program whose functions are SSA code and fit the pass (see `Ir.Tame`). -/
def TameProgram (ty : Nat → Ty) (fns : Nat → Option (List Nat × Ir F)) : Prop :=
  ∀ g ps body, fns g = some (ps, body) → ps.Nodup ∧ body.WF (fun v => v ∈ ps) ∧ body.Tame ty false ps

/-- **C26.** Let every function of a program go through the pass, and call function `g` with arguments that come with one reference each;
`rest` are the references held by others, among them one for each string literal. Then the call ends exactly like on a machine on which
nothing is ever freed: same results, same effects, same error if any; no freed object is ever touched; and at the end there is exactly one
reference for each returned value on top of those of others, so that everything else was freed. -/
theorem C26_reference_counting (fns : Nat → Option (List Nat × Ir F)) (hfns : TameProgram ty fns) (n g : Nat) (xs : List (RVal V)) (w : W)
    (rest : Heap) (hlit : ∀ g ps body, fns g = some (ps, body) → ∀ s ∈ body.lits, 1 ≤ rest s) :
    (∀ ys w', runFn S.plain ty fns n g xs w = .ok (ys, w') →
      runFn S.counting ty (fun g => (fns g).map (passFn ty)) n g xs (w, fun o => rest o + cnt xs o) = .ok (ys, (w', fun o => rest o + cnt ys o))) ∧
    (∀ e, runFn S.plain ty fns n g xs w = .error e →
      runFn S.counting ty (fun g => (fns g).map (passFn ty)) n g xs (w, fun o => rest o + cnt xs o) = .error e) ∧
    runFn S.counting ty (fun g => (fns g).map (passFn ty)) n g xs (w, fun o => rest o + cnt xs o) ≠ .error .freed := by
  have h := runFn_good (L := fun s => 1 ≤ rest s) (S := S) (fns := fns) (ty := ty)
    (fun g ps body hg => ⟨(hfns g ps body hg).1, (hfns g ps body hg).2.1, (hfns g ps body hg).2.2, hlit g ps body hg⟩) n g xs w rest (fun s hs => hs)
  refine ⟨fun ys w' hr => ?_, fun e hr => ?_, fun hf => ?_⟩
  · rw [h, hr]; rfl
  · rw [h, hr]; rfl
  · rw [h] at hf
    cases hr : runFn S.plain ty fns n g xs w with
    | ok p => rw [hr] at hf; cases hf
    | error e =>
      rw [hr] at hf
      cases hf
      exact runFn_nf _ _ _ _ _ hr

end

/-! ### Examples -/

/-- Kernels for the examples: `0` makes a new object, `1` returns its argument (with a new reference), `2` returns the scalar 1 until the
world counts 3, `3` uses its arguments. The world counts the kernel calls. -/
def exSem : Sem Nat Nat Nat where
  op f xs w :=
    match f with
    | 0 => ([.obj (100 + w)], w + 1)
    | 1 => (xs, w + 1)
    | 2 => ([.sca (if w < 7 then 1 else 0)], w + 1)
    | _ => ([], w + 1)
  toBool x := x == 1
  ivs l u s := some ((List.range (u - l)).map (l + · * s))

/-- Values below 10 are scalars, 50 and above strings, the others objects. -/
def exTy (v : Nat) : Ty := if v < 10 then .sca else if v < 50 then .obj else .str

/-- `def f(a, b) { if (c) { r = g(a); } else { r = b; } return r; }` -/
def exFn : List Nat × Ir Nat :=
  ([10, 11], .op [1] 2 [] (.ite [12] 1 (.op [13] 1 [10] (.term [13])) (.term [11]) (.term [12])))

/-- `x = new(); y = new(); s = "…"; while (cond) { x = f(x, y); } use(x, s); return y, y;` -/
def exMain : List Nat × Ir Nat :=
  ([], .op [20] 0 [] (.op [21] 0 [] (.lit 60 7 (.whil [22] [20] [23] (.op [2] 2 [] (.term [2, 23])) [24] (.call [25] 1 [24, 21] (.term [25]))
    (.op [] 3 [22, 60] (.term [21, 21]))))))

def exFns : Nat → Option (List Nat × Ir Nat)
  | 0 => some exMain
  | 1 => some exFn
  | _ => none

theorem exFns_tame : TameProgram exTy exFns := by
  intro g ps body h
  match g, h with
  | 0, h =>
    cases h
    refine ⟨by decide, ?_, ?_⟩
    · simp [Ir.WF]
    · simp [Ir.Tame, exTy, Ty.managed]
  | 1, h =>
    cases h
    refine ⟨by decide, ?_, ?_⟩
    · simp [Ir.WF]
    · simp [Ir.Tame, exTy, Ty.managed]

/-- Run `main` after the pass; the results, and the counters of the objects 100 to 107 and of the literal 7. -/
def exRun (fns : Nat → Option (List Nat × Ir Nat)) : Option (List Nat × List Nat) ⊕ Stop :=
  match runFn exSem.counting exTy (fun g => (fns g).map (passFn exTy)) 10 0 [] (0, fun o => if o = 7 then 1 else 0) with
  | .ok (ys, s) => .inl (some (ys.map fun y => match y with
    | .obj o => o
    | .sca x => x, [7, 100, 101, 102, 103, 104, 105, 106, 107].map s.2))
  | .error e => .inr e

/-- The example ends, returns the object 101 twice, and this object has two references; all others are freed. -/
example : exRun exFns = .inl (some ([101, 101], [1, 0, 2, 0, 0, 0, 0, 0, 0])) := by decide +kernel

/-! ### Programs the pass gets wrong -/

/-- `x = new(); y = new(); while (cond) { x = y; } use(x, y);` After the canonicalisation the loop body hands out `y` itself. -/
def exLoop : List Nat × Ir Nat :=
  ([], .op [20] 0 [] (.op [21] 0 [] (.whil [22] [20] [23] (.op [2] 2 [] (.term [2, 23])) [24] (.term [21]) (.op [] 3 [22, 21] (.term [])))))

/-- `if (cond) { x = new(); y = x; } else { x = new(); y = new(); } use(x); use(y);` -/
def exTwice : List Nat × Ir Nat :=
  ([], .op [1] 2 [] (.ite [12, 13] 1 (.op [14] 0 [] (.term [14, 14])) (.op [15] 0 [] (.op [16] 0 [] (.term [15, 16])))
    (.op [] 3 [12] (.op [] 3 [13] (.term [])))))

/-- `a = new(); b = new(); if (cond) { x = a; } else { x = b; } use(x); use(a, b);` MLIR's canonicalisation turns this scf.if into an
arith.select. -/
def exSelect : List Nat × Ir Nat :=
  ([], .op [20] 0 [] (.op [21] 0 [] (.op [1] 2 [] (.sel 22 1 20 21 (.op [] 3 [22] (.op [] 3 [20, 21] (.term [])))))))

/-- `a = new(); return a, a, a;` -/
def exThrice : List Nat × Ir Nat := ([], .op [20] 0 [] (.term [20, 20, 20]))

def onlyMain (m : List Nat × Ir Nat) : Nat → Option (List Nat × Ir Nat)
  | 0 => some m
  | _ => none

/-- The same run without counters ends. -/
def plainEnds (m : List Nat × Ir Nat) : Bool :=
  match runFn exSem.plain exTy (onlyMain m) 10 0 [] 0 with
  | .ok _ => true
  | .error _ => false

/-- **C63 refuted.** Three well-formed programs that end on a machine with unlimited memory, but use a freed object after the pass: a loop
that assigns an object from outside to one of its variables, a branch that assigns the same new object to two variables, and a
choice between two existing objects. -/
theorem C63_copies_freed_partial :
    ((∀ m ∈ [exLoop, exTwice, exSelect], m.1.Nodup ∧ m.2.WF fun v => v ∈ m.1) ∧ ∀ m ∈ [exLoop, exTwice, exSelect], plainEnds m = true) ∧
    ∀ m ∈ [exLoop, exTwice, exSelect], exRun (onlyMain m) = .inr .freed := by
  refine ⟨⟨?_, by decide +kernel⟩, by decide +kernel⟩
  intro m hm
  simp only [List.mem_cons, List.not_mem_nil, or_false] at hm
  rcases hm with rfl | rfl | rfl
  · exact ⟨by decide, by simp [Ir.WF, exLoop]⟩
  · exact ⟨by decide, by simp [Ir.WF, exTwice]⟩
  · exact ⟨by decide, by simp [Ir.WF, exSelect]⟩

/-- **C64 refuted.** Returning the same object three times: the object is left with four references. -/
theorem C64_three_copies_leak_partial : exRun (onlyMain exThrice) = .inl (some ([100, 100, 100], [1, 4, 0, 0, 0, 0, 0, 0, 0])) := by
  decide +kernel

/-- In general: a value that occurs `m` times gets `m (m - 1) / 2` additional references instead of `m - 1`. -/
theorem C64_number_of_incs (ty : Nat → Ty) (v : Nat) (h : (ty v).managed = true) (vs : List Nat) :
    2 * (dupIncs ty [] vs).count v = vs.count v * (vs.count v - 1) := by
  have := count_dupIncs v h vs []
  rw [Nat.mul_sub, Nat.mul_one]
  simp at this
  omega

end Verif.Ref
