/-
  Model of src/compiler/lowering/DistributePipelinesPass.cpp (the rewrite of a vectorized pipeline into a distributed one:
  constant inputs are copied into the code that is sent to the workers, and their arguments are erased), and property C352.

  Simplification: a body is a list of operations without side effects, each of which has one result; the textual form in which
  the function travels is not modelled here (types: C308-C310).
-/
namespace Verif.DistPipe

/-- An operand in a function: argument, result of an operation of the body, or constant operation put in front of them. -/
inductive Ref where
  | arg (i : Nat)
  | res (j : Nat)
  | con (k : Nat)
  deriving DecidableEq, Repr

/-- A function: constants, operations, returned values. -/
structure Fn (V : Type) where
  consts : List V
  ops : List ((List V → V) × List Ref)
  rets : List Ref

/-- An input of a pipeline: the value, the constant it is defined by (if any), and its split. -/
structure Inp (V : Type) where
  id : Nat
  const : Option V
  split : Nat

variable {V : Type}

/-- The value of an operand. -/
def refVal (args consts acc : List V) : Ref → Option V
  | .arg i => args[i]?
  | .res j => acc[j]?
  | .con k => consts[k]?

/-- Execution of operations one after the other; `acc` are the results so far. -/
def runOps (args consts : List V) : List ((List V → V) × List Ref) → List V → Option (List V)
  | [], acc => some acc
  | (f, rs) :: ops, acc => (rs.mapM (refVal args consts acc)).bind fun vs => runOps args consts ops (acc ++ [f vs])

/-- A call of a function; `none` if an operand does not exist. -/
def Fn.call (fn : Fn V) (args : List V) : Option (List V) :=
  (runOps args fn.consts fn.ops []).bind fun acc => fn.rets.mapM (refVal args fn.consts acc)

/-- `replaceAllUsesWith`, for one operand. -/
def replRef (idx k : Nat) : Ref → Ref
  | .arg i => if i = idx then .con k else .arg i
  | r => r

/-- Applies a renaming of operands to a function. -/
def Fn.rename (fn : Fn V) (g : Ref → Ref) : Fn V :=
  { fn with ops := fn.ops.map fun o => (o.1, o.2.map g), rets := fn.rets.map g }

/-- What the loop of the pass changes. -/
structure St (V : Type) where
  fn : Fn V
  newInputs : List Nat
  newSplits : List Nat
  eraseVector : List Bool

/-- DistributePipelinesPass.cpp:55-72: the loop over the arguments. -/
def loop : List (Inp V) → Nat → St V → St V
  | [], _, s => s
  | x :: xs, idx, s =>
      match x.const with
      | some c =>
          let k := s.fn.consts.length
          let fn := s.fn.rename (replRef idx k)
          loop xs (idx + 1) { s with fn := { fn with consts := fn.consts ++ [c] }, eraseVector := s.eraseVector ++ [true] }
      | none =>
          loop xs (idx + 1) { s with
            newInputs := s.newInputs ++ [x.id], newSplits := s.newSplits ++ [x.split],
            eraseVector := s.eraseVector ++ [false] }

/-- `eraseArguments`: the remaining arguments are renumbered. -/
def eraseRef (erase : List Bool) : Ref → Ref
  | .arg i => .arg (i - (erase.take i).count true)
  | r => r

/-- DistributePipelinesPass.cpp:34-87: function, inputs and splits of the distributed pipeline. -/
def distribute (inputs : List (Inp V)) (body : Fn V) : Fn V × List Nat × List Nat :=
  let s := loop inputs 0 ⟨body, [], [], []⟩
  (s.fn.rename (eraseRef s.eraseVector), s.newInputs, s.newSplits)

/-! ### C352 -/

theorem mapM_congr {α β : Type} {f g : α → Option β} : ∀ {l : List α}, (∀ x ∈ l, f x = g x) → l.mapM f = l.mapM g
  | [], _ => rfl
  | x :: l, h => by
      simp [List.mapM_cons, h x (by simp), mapM_congr (l := l) (fun y hy => h y (by simp [hy]))]

/-- Operands that occur in a function. -/
def Fn.Uses (fn : Fn V) (r : Ref) : Prop := (∃ o ∈ fn.ops, r ∈ o.2) ∨ r ∈ fn.rets

theorem runOps_congr {args args' consts consts' : List V} {g : Ref → Ref} :
    ∀ (ops : List ((List V → V) × List Ref)) (acc : List V),
      (∀ o ∈ ops, ∀ r ∈ o.2, ∀ acc, refVal args' consts' acc (g r) = refVal args consts acc r) →
      runOps args' consts' (ops.map fun o => (o.1, o.2.map g)) acc = runOps args consts ops acc
  | [], _, _ => rfl
  | (f, rs) :: ops, acc, h => by
      have e : (rs.map g).mapM (refVal args' consts' acc) = rs.mapM (refVal args consts acc) := by
        rw [List.mapM_map]
        exact mapM_congr fun r hr => h (f, rs) (by simp) r hr acc
      simp only [List.map_cons, runOps, e]
      congr 1
      funext vs
      exact runOps_congr ops _ fun o ho => h o (by simp [ho])

theorem call_rename {fn : Fn V} {args args' consts' : List V} {g : Ref → Ref}
    (h : ∀ r, fn.Uses r → ∀ acc, refVal args' consts' acc (g r) = refVal args fn.consts acc r) :
    ({ fn.rename g with consts := consts' } : Fn V).call args' = fn.call args := by
  simp only [Fn.call, Fn.rename]
  rw [runOps_congr fn.ops [] (fun o ho r hr acc => h r (.inl ⟨o, ho, hr⟩) acc)]
  congr 1
  funext acc
  rw [List.mapM_map]
  exact mapM_congr fun r hr => h r (.inr hr) acc

theorem uses_rename {fn : Fn V} {g : Ref → Ref} {consts' : List V} {r : Ref}
    (h : ({ fn.rename g with consts := consts' } : Fn V).Uses r) : ∃ r', fn.Uses r' ∧ r = g r' := by
  rcases h with ⟨o, ho, hr⟩ | hr
  · simp only [Fn.rename, List.mem_map] at ho
    obtain ⟨o', ho', rfl⟩ := ho
    simp only [List.mem_map] at hr
    obtain ⟨r', hr', rfl⟩ := hr
    exact ⟨r', .inl ⟨o', ho', hr'⟩, rfl⟩
  · simp only [Fn.rename, List.mem_map] at hr
    obtain ⟨r', hr', rfl⟩ := hr
    exact ⟨r', .inr hr', rfl⟩

/-- What the loop maintains; `don` are the inputs looked at so far. -/
structure Inv (part : Inp V → V) (all don : List (Inp V)) (body : Fn V) (s : St V) : Prop where
  call : s.fn.call (all.map part) = body.call (all.map part)
  noArg : ∀ i, s.fn.Uses (.arg i) → s.eraseVector[i]? ≠ some true
  conIn : ∀ k, s.fn.Uses (.con k) → k < s.fn.consts.length
  erase : s.eraseVector = don.map (·.const.isSome)
  ins : s.newInputs = (don.filter (·.const.isNone)).map (·.id)
  spl : s.newSplits = (don.filter (·.const.isNone)).map (·.split)

theorem loop_inv {part : Inp V → V} {all : List (Inp V)} {body : Fn V}
    (hp : ∀ x ∈ all, ∀ c, x.const = some c → part x = c) :
    ∀ (rest don : List (Inp V)) (s : St V), all = don ++ rest → Inv part all don body s →
      Inv part all all body (loop rest don.length s)
  | [], don, s, ha, hi => by simp at ha; subst ha; exact hi
  | x :: rest, don, s, ha, hi => by
      have ha' : all = (don ++ [x]) ++ rest := by simp [ha]
      have hl : (don ++ [x]).length = don.length + 1 := by simp
      cases hx : x.const with
      | none =>
          simp only [loop, hx]
          rw [← hl]
          refine loop_inv hp rest (don ++ [x]) _ ha' ⟨hi.call, fun i hu h => ?_, hi.conIn, ?_, ?_, ?_⟩
          · rcases Nat.lt_trichotomy i s.eraseVector.length with h1 | h1 | h1
            · rw [List.getElem?_append_left h1] at h; exact hi.noArg i hu h
            · subst h1; simp at h
            · rw [List.getElem?_eq_none (by simp; omega)] at h; simp at h
          · simp [hi.erase, hx]
          · simp [hi.ins, hx]
          · simp [hi.spl, hx]
      | some c =>
          simp only [loop, hx]
          rw [← hl]
          have hel : s.eraseVector.length = don.length := by simp [hi.erase]
          refine loop_inv hp rest (don ++ [x]) _ ha' ⟨?_, fun i hu h => ?_, fun k hu => ?_, ?_, ?_, ?_⟩
          · rw [← hi.call]
            refine call_rename (fn := s.fn) fun r hu acc => ?_
            cases r with
            | arg i =>
                simp only [replRef]
                split
                · next e =>
                    subst e
                    have h1 : part x = c := hp x (by simp [ha]) c hx
                    simp [refVal, Fn.rename, ha, h1]
                · rfl
            | res j => rfl
            | con k =>
                have := hi.conIn k hu
                simp only [replRef, refVal, Fn.rename]
                rw [List.getElem?_append_left this]
          · obtain ⟨r', hu', e⟩ := uses_rename hu
            cases r' with
            | arg j =>
                simp only [replRef] at e
                split at e
                · simp at e
                · next hj =>
                    simp only [Ref.arg.injEq] at e
                    subst e
                    rcases Nat.lt_trichotomy i s.eraseVector.length with h1 | h1 | h1
                    · rw [List.getElem?_append_left h1] at h; exact hi.noArg i hu' h
                    · omega
                    · rw [List.getElem?_eq_none (by simp; omega)] at h; simp at h
            | res j => simp [replRef] at e
            | con k => simp [replRef] at e
          · obtain ⟨r', hu', e⟩ := uses_rename hu
            simp only [Fn.rename, List.length_append, List.length_singleton]
            cases r' with
            | arg j =>
                simp only [replRef] at e
                split at e
                · simp at e; omega
                · simp at e
            | res j => simp [replRef] at e
            | con k' =>
                simp only [replRef, Ref.con.injEq] at e
                have := hi.conIn k' hu'
                omega
          · simp [hi.erase, hx]
          · simp [hi.ins, hx]
          · simp [hi.spl, hx]

/-- Renumbering: the argument at position `i` that is kept is found at its new position. -/
theorem erase_pos {α : Type} (p : α → Bool) : ∀ (l : List α) (i : Nat), (l.map p)[i]? ≠ some true →
    (l.filter fun x => !p x)[i - ((l.map p).take i).count true]? = l[i]?
  | [], i, _ => by simp
  | x :: l, 0, h => by
      have : p x = false := by simpa using h
      simp [this]
  | x :: l, i + 1, h => by
      have ih := erase_pos p l i (by simpa using h)
      have hle : ((l.map p).take i).count true ≤ i :=
        Nat.le_trans (List.count_le_length ..) (by simp; omega)
      cases hx : p x with
      | true =>
          simp only [List.map_cons, hx, List.take_succ_cons, List.count_cons, beq_self_eq_true, if_true, List.filter_cons,
            Bool.not_true, Bool.false_eq_true, if_false, List.getElem?_cons_succ]
          rw [← ih]; congr 1; omega
      | false =>
          simp only [List.map_cons, hx, List.take_succ_cons, List.count_cons, Bool.beq_eq_decide_eq, List.filter_cons,
            Bool.not_false, if_true, List.getElem?_cons_succ]
          have e : i + 1 - (List.count true (List.take i (List.map p l)) + if decide (false = true) = true then 1 else 0)
              = i - List.count true (List.take i (List.map p l)) + 1 := by simp; omega
          rw [e, List.getElem?_cons_succ, ih]

/-- **C352.** The distributed pipeline has exactly the inputs that are not constants, in the same order and each with its own
split, and what the function sent to the workers computes from the parts of these inputs is what the body computes from the
parts of all inputs, for all parts (a constant being what it is at every worker). -/
theorem C352_distribute (inputs : List (Inp V)) (body : Fn V) (part : Inp V → V)
    (hb : ∀ k, ¬ body.Uses (.con k)) (hp : ∀ x ∈ inputs, ∀ c, x.const = some c → part x = c) :
    let d := distribute inputs body
    let kept := inputs.filter (·.const.isNone)
    d.2.1 = kept.map (·.id) ∧ d.2.2 = kept.map (·.split) ∧ d.1.call (kept.map part) = body.call (inputs.map part) := by
  have hi := loop_inv (body := body) hp inputs [] ⟨body, [], [], []⟩ rfl
    ⟨rfl, by simp, fun k hu => (hb k hu).elim, rfl, rfl, rfl⟩
  refine ⟨hi.ins, hi.spl, ?_⟩
  rw [← hi.call]
  refine call_rename (fn := (loop inputs 0 ⟨body, [], [], []⟩).fn)
    (consts' := (loop inputs 0 ⟨body, [], [], []⟩).fn.consts) fun r hu acc => ?_
  cases r with
  | arg i =>
      have h1 := hi.noArg i hu
      simp only [List.length_nil] at h1
      have he := hi.erase
      simp only [List.length_nil] at he
      rw [he] at h1
      simp only [eraseRef, refVal, he, List.getElem?_map]
      have h2 := erase_pos (fun x : Inp V => x.const.isSome) inputs i h1
      have h3 : (inputs.filter fun x => !x.const.isSome) = inputs.filter (·.const.isNone) := by
        congr 1; funext x; cases x.const <;> rfl
      rw [h3] at h2
      rw [h2]
  | res j => rfl
  | con k => rfl

/-- `(x * 2 + y) returned together with 2 and y`, where the second input is the constant 2. -/
def exInputs : List (Inp Nat) := [⟨10, none, 1⟩, ⟨11, some 2, 0⟩, ⟨12, none, 3⟩]
def exBody : Fn Nat :=
  ⟨[], [(fun l => l.getD 0 0 * l.getD 1 0, [.arg 0, .arg 1]), (List.sum, [.res 0, .arg 2])], [.res 1, .arg 1, .arg 2]⟩
example : (distribute exInputs exBody).2 = ([10, 12], [1, 3]) := by decide
example : (distribute exInputs exBody).1.call [5, 7] = some [17, 2, 7] ∧ exBody.call [5, 2, 7] = some [17, 2, 7] := by decide
example : ∀ k, ¬ exBody.Uses (.con k) := by simp [exBody, Fn.Uses]

end Verif.DistPipe
