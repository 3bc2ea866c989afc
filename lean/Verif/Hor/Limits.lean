/-
  An example for the theorems of `Main.lean`, and programs for which the pass goes wrong.
-/
import Verif.Hor.Main

namespace Verif.Hor.Ex

/-- Matrices are lists of rows, rows are lists of numbers. -/
abbrev M := List (List Nat)

/-- An engine with tasks of two rows. -/
def eng : Engine M where
  rows := List.length
  block x lo hi := (x.drop lo).take (hi - lo)
  comb c _ _ ps := match c with
    | .rows => ps.flatten
    | .cols => ps.flatten
    | .add => [[(ps.map fun p => (p.map List.sum).sum).sum]]
    | .min => [[(ps.map fun p => (p.map List.sum).sum).foldl Nat.min 1000]]
    | .max => [[(ps.map fun p => (p.map List.sum).sum).foldl Nat.max 0]]
  plan n := (List.range ((n + 1) / 2)).map fun k => (2 * k, Nat.min (2 * k + 2) n)

/-- Sum of all elements. -/
def fsum : List M → List M := fun xs => xs.map fun x => [[(x.map List.sum).sum]]
/-- The rows of both matrices, one after the other in each row. -/
def fcat : List M → List M
  | [x, y] => [List.zipWith (· ++ ·) x y]
  | _ => []

/-- `sum(v)` as a pipeline; the operation in the body has the identity `o`. -/
def psum (v : Val) (o : Nat) : Pipe M := ⟨[v], [true], [.arg 3], [.arg 3], [.add], ⟨[⟨o, [.arg 0], fsum⟩], [.res o 0]⟩⟩
/-- `cbind(v, w)` as a pipeline. -/
def pcat (v w : Val) (o : Nat) : Pipe M :=
  ⟨[v, w], [true, true], [.arg 3], [.arg 3], [.rows], ⟨[⟨o, [.arg 0, .arg 1], fcat⟩], [.res o 0]⟩⟩

/-- `print(vs)`, without results. -/
def print (i : Nat) (vs : List Val) : Op M := .plain i vs [] fun _ => []
/-- An operation other than a pipeline that returns its operands. -/
def copy (i : Nat) (vs : List Val) : Op M := .plain i vs [] id

/-- `print(sum(X)); print(cbind(X, Y)); print(sum(Z)); print(sum(X)); print(sum(X), sum(Z));` where `X`, `Y`, `Z` are the first three arguments. -/
def good : List (Op M) :=
  [.pipe 0 (psum (.arg 0) 100), print 1 [.res 0 0], .pipe 2 (pcat (.arg 0) (.arg 1) 101), print 3 [.res 2 0], .pipe 4 (psum (.arg 2) 102),
   print 5 [.res 4 0], .pipe 6 (psum (.arg 0) 103), print 7 [.res 6 0], print 8 [.res 6 0, .res 4 0]]

def goodArgs : List M := [[[1], [2], [3]], [[4], [5], [6]], [[7, 8]], []]

theorem good_pipe {i : Nat} {p : Pipe M} (h : .pipe i p ∈ good) :
    (i = 0 ∧ p = psum (.arg 0) 100) ∨ (i = 2 ∧ p = pcat (.arg 0) (.arg 1) 101) ∨ (i = 4 ∧ p = psum (.arg 2) 102) ∨
      (i = 6 ∧ p = psum (.arg 0) 103) := by
  simpa [good, print] using h

theorem good_uses {x y : Nat} (h : Uses good x y) : (x = 1 ∧ y = 0) ∨ (x = 3 ∧ y = 2) ∨ (x = 5 ∧ y = 4) ∨ (x = 7 ∧ y = 6) ∨
    (x = 8 ∧ (y = 6 ∨ y = 4)) := by
  obtain ⟨o, ho, rfl, j, hj⟩ := h
  simp only [good, List.mem_cons, List.not_mem_nil, or_false] at ho
  rcases ho with rfl | rfl | rfl | rfl | rfl | rfl | rfl | rfl | rfl <;> simp [print, Op.needs, psum, pcat, Op.id] at hj ⊢
  · exact hj.1
  · exact hj.1
  · exact hj.1
  · exact hj.1
  · omega

theorem good_depends {x y : Nat} (h : Depends good x y) : Uses good x y := by
  obtain ⟨h, hx⟩ := h
  clear hx
  induction h with
  | single h => exact h
  | tail h1 h2 ih =>
    have := good_uses ih
    have := good_uses h2
    omega

theorem good_next : ∀ X i p Y, good = X ++ .pipe i p :: Y →
    ∃ o Y', Y = o :: Y' ∧ (∃ j, Val.res i j ∈ o.operands) ∧ ∀ y, Depends good o.id y → y = i := by
  have key : ∀ i j : Nat, j = i + 1 → j < 8 → ∀ y, Depends good j y → y = i := fun i j h1 h2 y h => by
    have := good_uses (good_depends h)
    omega
  intro X i p Y h
  rcases X with _ | ⟨x0, X⟩
  · simp only [good, List.nil_append, List.cons.injEq, Op.pipe.injEq] at h
    obtain ⟨⟨rfl, _⟩, rfl⟩ := h
    exact ⟨_, _, rfl, ⟨0, by simp [print, Op.operands]⟩, key 0 1 rfl (by omega)⟩
  rcases X with _ | ⟨x1, X⟩
  · simp [good, print] at h
  rcases X with _ | ⟨x2, X⟩
  · simp only [good, List.nil_append, List.cons_append, List.cons.injEq, Op.pipe.injEq] at h
    obtain ⟨_, _, ⟨rfl, _⟩, rfl⟩ := h
    exact ⟨_, _, rfl, ⟨0, by simp [print, Op.operands]⟩, key 2 3 rfl (by omega)⟩
  rcases X with _ | ⟨x3, X⟩
  · simp [good, print] at h
  rcases X with _ | ⟨x4, X⟩
  · simp only [good, List.nil_append, List.cons_append, List.cons.injEq, Op.pipe.injEq] at h
    obtain ⟨_, _, _, _, ⟨rfl, _⟩, rfl⟩ := h
    exact ⟨_, _, rfl, ⟨0, by simp [print, Op.operands]⟩, key 4 5 rfl (by omega)⟩
  rcases X with _ | ⟨x5, X⟩
  · simp [good, print] at h
  rcases X with _ | ⟨x6, X⟩
  · simp only [good, List.nil_append, List.cons_append, List.cons.injEq, Op.pipe.injEq] at h
    obtain ⟨_, _, _, _, _, _, ⟨rfl, _⟩, rfl⟩ := h
    exact ⟨_, _, rfl, ⟨0, by simp [print, Op.operands]⟩, key 6 7 rfl (by omega)⟩
  rcases X with _ | ⟨x7, X⟩
  · simp [good, print] at h
  rcases X with _ | ⟨x8, X⟩
  · simp [good, print] at h
  · have := congrArg List.length h
    simp [good] at this

theorem psum_wf (v : Val) (o : Nat) : (psum v o).Wf := ⟨rfl, rfl, rfl, rfl, rfl, rfl⟩
theorem pcat_wf (v w : Val) (o : Nat) : (pcat v w o).Wf := ⟨rfl, rfl, rfl, rfl, rfl, rfl⟩

theorem good_splits {i : Nat} {p : Pipe M} (h : .pipe i p ∈ good) {v : Val} :
    Splits p v ↔ (i ≠ 4 ∧ v = .arg 0) ∨ (i = 2 ∧ v = .arg 1) ∨ (i = 4 ∧ v = .arg 2) := by
  rcases good_pipe h with ⟨rfl, rfl⟩ | ⟨rfl, rfl⟩ | ⟨rfl, rfl⟩ | ⟨rfl, rfl⟩ <;> simp [Splits, psum, pcat]

/-- The hypotheses of **C256** and **C257** hold for this program, in which three of four pipelines are to be fused. -/
theorem good_fusible : Fusible eng goodArgs good where
  nodup := by decide +kernel
  bodies := by decide +kernel
  wf i p h := by
    rcases good_pipe h with ⟨rfl, rfl⟩ | ⟨rfl, rfl⟩ | ⟨rfl, rfl⟩ | ⟨rfl, rfl⟩
    · exact psum_wf _ _
    · exact pcat_wf _ _ _
    · exact psum_wf _ _
    · exact psum_wf _ _
  ind i p h y hd := by
    have h1 := good_uses (good_depends hd)
    have h2 := good_pipe h
    omega
  cap i xs cs f h k j hj := by
    have : cs = [] := by simp [good, print] at h; grind
    rw [this] at hj
    simp at hj
  next := good_next
  trans i p hi j q hj k r hk := by
    rintro ⟨v, h1, h2⟩ ⟨w, h3, h4⟩
    rw [good_splits hi] at h1
    rw [good_splits hj] at h2 h3
    rw [good_splits hk] at h4
    by_cases hi4 : i = 4
    · refine ⟨.arg 2, (good_splits hi).2 (by grind), (good_splits hk).2 (by grind)⟩
    · refine ⟨.arg 0, (good_splits hi).2 (by grind), (good_splits hk).2 (by grind)⟩
  rows V tr _ i p hi := by
    refine ⟨if i = 4 then 1 else 3, fun v x hv hx => ?_⟩
    rw [good_splits hi] at hv
    rcases hv with ⟨h, rfl⟩ | ⟨rfl, rfl⟩ | ⟨rfl, rfl⟩ <;> simp [look, goodArgs] at hx <;> subst hx <;> simp [eng, *]

/-- Two pipelines remain; all the effects take place, in a different order. -/
example : ((hfuse good).map fun B => B.map Op.id) = some [4, 5, 10, 1, 3, 7, 8] ∧
    ((hfuse good).bind fun B => (run eng goodArgs B).map (·.2)) =
    some [(5, [[[15]]]), (1, [[[6]]]), (3, [[[1, 4], [2, 5], [3, 6]]]), (7, [[[6]]]), (8, [[[6]], [[15]]])] ∧
    (run eng goodArgs good).map (·.2) =
    some [(1, [[[6]]]), (3, [[[1, 4], [2, 5], [3, 6]]]), (5, [[[15]]]), (7, [[[6]]]), (8, [[[6]], [[15]]])] := by
  decide +kernel

/-! Programs outside of the class -/

/-- What a program prints: operation and operands; none if a value is used before it is defined. -/
def out (as : List M) (B : List (Op M)) : Option (List (Nat × List M)) := (run eng as B).map (·.2)

/-- `a = sum(X); print(a); b = cbind(X, Y); print(b); Z = b; print(sum of X and Z)`: the third pipeline depends on the second. -/
def chain : List (Op M) :=
  [.pipe 0 (psum (.arg 0) 100), print 1 [.res 0 0], .pipe 2 (pcat (.arg 0) (.arg 1) 101), print 3 [.res 2 0],
   .pipe 4 (pcat (.arg 0) (.res 2 0) 102), print 5 [.res 4 0]]

/-- `print(cbind(X, Z)); print(cbind(X, Y)); print(sum(Y)); print(sum(Z))`. -/
def cycle : List (Op M) :=
  [.pipe 0 (pcat (.arg 0) (.arg 2) 100), print 1 [.res 0 0], .pipe 2 (pcat (.arg 0) (.arg 1) 101), print 3 [.res 2 0],
   .pipe 4 (psum (.arg 1) 102), print 5 [.res 4 0], .pipe 6 (psum (.arg 2) 103), print 7 [.res 6 0]]

/-- `a = sum(X); Y2 = Y; print(cbind(X, Y2)); print(a)`: the operation after the first pipeline is needed by the second one. -/
def needed : List (Op M) :=
  [.pipe 0 (psum (.arg 0) 100), copy 1 [.arg 1], .pipe 2 (pcat (.arg 0) (.res 1 0) 101), print 3 [.res 2 0], print 4 [.res 0 0]]

/-- `a = sum(X); print(a); if(…) { print(a); } print(cbind(X, Y))`. -/
def nested : List (Op M) :=
  [.pipe 0 (psum (.arg 0) 100), print 1 [.res 0 0], .plain 2 [] [.res 0 0] fun _ => [], .pipe 3 (pcat (.arg 0) (.arg 1) 101), print 4 [.res 3 0]]

/-- `print(sum(X)); print(Y); print(cbind(X, Y))`. -/
def order : List (Op M) :=
  [.pipe 0 (psum (.arg 0) 100), print 1 [.res 0 0], print 2 [.arg 1], .pipe 3 (pcat (.arg 0) (.arg 1) 101), print 4 [.res 3 0]]

def args : List M := [[[1], [2], [3]], [[4], [5], [6]], [[7], [8], [9]], []]

/-- **C258** (refuted): three pipelines read the same matrix, and the third one depends on the second one, but not on the first one: all three are
    fused, and the fused pipeline uses its own result. -/
theorem C258_chain_partial : (out args chain).isSome ∧ ∃ B', hfuse chain = some B' ∧ out args B' = none ∧
    ∃ i p, .pipe i p ∈ B' ∧ ∃ j, Val.res i j ∈ p.ins := by
  refine ⟨by decide +kernel, ?_⟩
  have h : ((hfuse chain).map fun B => ((out args B).isNone, (pipes B).any fun x => x.2.ins.contains (Val.res x.1 1))) = some (true, true) := by
    decide +kernel
  cases hf : hfuse chain with
  | none => rw [hf] at h; simp at h
  | some B =>
    rw [hf] at h
    simp only [Option.map_some, Option.some.injEq, Prod.mk.injEq, List.any_eq_true] at h
    obtain ⟨h1, x, h2, h3⟩ := h
    exact ⟨B, rfl, by simpa using h1, x.1, x.2, mem_pipes.1 h2, 1, by simpa using h3⟩

/-- **C259** (refuted): independent pipelines where the first one shares a matrix with the last one, and another one with the second one, which
    shares one with the third one: the pass walks past the end of the block. -/
theorem C259_cycle_partial : (out args cycle).isSome ∧ (∀ i p, .pipe i p ∈ cycle → ∀ y, ¬ Depends cycle i y) ∧ hfuse cycle = none := by
  refine ⟨by decide +kernel, ?_, ?_⟩
  · rintro i p h y ⟨hd, hx⟩
    clear hx
    have hu : ∀ z, ¬ Uses cycle i z := by
      rintro z ⟨o, ho, ho', j, hj⟩
      simp only [cycle, List.mem_cons, List.not_mem_nil, or_false] at ho h
      rcases ho with rfl | rfl | rfl | rfl | rfl | rfl | rfl | rfl <;> simp [print, Op.needs, psum, pcat, Op.id] at hj ho' h <;> omega
    induction hd with
    | single h => exact hu _ h
    | tail _ _ ih => exact ih
  · have : (hfuse cycle).isNone = true := by decide +kernel
    simpa using this

/-- **C260** (refuted): an operation right behind the first pipeline that does not depend on it ends up behind the fused pipeline, also if
    the latter needs it. -/
theorem C260_needed_partial : (out args needed).isSome ∧ ((hfuse needed).map fun B => (B.map Op.id, (out args B).isNone)) = some ([5, 1, 3, 4], true) := by
  decide +kernel

/-- **C261** (refuted): an if-statement that uses the first pipeline is moved in front of it. -/
theorem C261_nested_partial : (out args nested).isSome ∧ ((hfuse nested).map fun B => (B.map Op.id, (out args B).isNone)) = some ([2, 5, 1, 4], true) := by
  decide +kernel

/-- **C262** (refuted): outputs of the program change their order. -/
theorem C262_order_partial : out args order = some [(1, [[[6]]]), (2, [[[4], [5], [6]]]), (4, [[[1, 4], [2, 5], [3, 6]]])] ∧
    ((hfuse order).bind fun B => out args B) = some [(2, [[[4], [5], [6]]]), (1, [[[6]]]), (4, [[[1, 4], [2, 5], [3, 6]]])] := by
  decide +kernel

end Verif.Hor.Ex
