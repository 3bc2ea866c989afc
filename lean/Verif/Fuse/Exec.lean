/-
  Execution of the program as written and of the block after the pass; the bodies of the pipelines.
-/
import Verif.Fuse.Single

namespace Verif.Fuse
open Verif Verif.Dense Verif.Vect
variable {α : Type}

/-! ### What the program computes (specification) -/

/-- The value of an operand, given the arguments and the results so far. -/
def Ref.val {β : Type} (d : β) (args rs : List β) : Ref → β
  | .arg k => args.getD k d
  | .op j => rs.getD j d

/-- The result of one operation. -/
def Stmt.value (A : Agg.VT α) (s : Stmt α) (ms : List (Mat α)) : Mat α :=
  match s.kind with
  | .vec op => op.value A ms
  | .other f => f ms

/-- The results of the operations in program order; `rs` are the results so far. -/
def values (A : Agg.VT α) (args : List (Mat α)) : Prog α → List (Mat α) → List (Mat α)
  | [], rs => rs
  | s :: Q, rs => values A args Q (rs ++ [s.value A (s.args.map (Ref.val (noMat A) args rs))])

/-- The result of operation `i` of the program. -/
def val (A : Agg.VT α) (P : Prog α) (args : List (Mat α)) (i : Nat) : Mat α := (values A args P []).getD i (noMat A)

/-- The operands of operation `i` of the program. -/
def operands (A : Agg.VT α) (P : Prog α) (args : List (Mat α)) (i : Nat) : List (Mat α) :=
  (argsOf P i).map (Ref.val (noMat A) args (values A args P []))

/-- The number of rows of the first operand. -/
def firstRows (A : Agg.VT α) (P : Prog α) (args : List (Mat α)) (i : Nat) : Nat := ((operands A P args i).headD (noMat A)).rows

/-! ### Execution of the transformed block -/

/-- The body of a pipeline and its operands from outside. -/
def internal (body : List Nat) : Ref → Bool
  | .op j => body.contains j
  | .arg _ => false

/-- The number of the defining operation. -/
def Ref.num : Ref → Nat
  | .op j => j
  | .arg _ => 0

/-- VectorizeComputationsPass.cpp:221-229: the operands (each occurrence on its own) and splits of the pipeline. -/
def externals (P : Prog α) (body : List Nat) (i : Nat) : List (Ref × Split) := ((argsOf P i).zip (splitsOf P i)).filter fun rs => !(internal body rs.1)

/-- VectorizeComputationsPass.cpp:295-300: operands from outside become block arguments, in order; `n` is `argsIx`. -/
def wire (body : List Nat) : Nat → List Ref → List Src
  | _, [] => []
  | n, r :: l => if internal body r then .res (body.idxOf r.num) :: wire body n l else .inp n :: wire body (n + 1) l

/-- VectorizeComputationsPass.cpp:284-300: the operations of the body. (Operations of a pipeline are vectorizable, so the default is not used.) -/
def nodes (P : Prog α) (body : List Nat) : Nat → List Nat → List (Node α)
  | _, [] => []
  | n, i :: l => ⟨(vopOf P i).getD .transpose, wire body n (argsOf P i)⟩ :: nodes P body (n + ((argsOf P i).filter fun r => !(internal body r)).length) l

/-- MTWrapper.h:61-73: the number of rows that are divided into tasks. -/
def pipeLen (xs : List (InObj α)) : Nat := xs.foldl (fun n x => if x.split = .rows then max n x.obj.numRows else n) 0

/-- The objects that exist. -/
abbrev Env (α : Type) := Nat → Option (DM α)

/-- The object of an operand; using one that is not defined yet is an error. -/
def operand (argObjs : List (DM α)) (env : Env α) : Ref → Res (DM α)
  | .arg k => match argObjs[k]? with
    | some x => .ok x
    | none => .error (.ub "no such argument")
  | .op j => match env j with
    | some x => .ok x
    | none => .error (.ub "use of a value before its definition")

/-- How a pipeline is executed: the division of the rows into tasks, the batch size for each task, the interleaving of the threads. -/
structure Plan where
  tiles : Nat → List (Nat × Nat)
  batch : Nat → Nat
  sched : List Nat

/-- All tasks have ended. -/
def allDone (s : St α) (n : Nat) : Bool := (List.range n).all fun t => match (s.locs t).pc with | .done => true | _ => false

section
variable (A : Agg.VT α) (less : α → α → Bool) (ofIdx : Nat → α) (blas : Bool) (junk : Nat → α) (impl : Nat → List (DM α) → Res (DM α)) (P : Prog α)
  (argObjs : List (DM α))

/-- The kernel of an operation. `impl` are the kernels of the operations that are not vectorizable. -/
def kernel (i : Nat) (s : Stmt α) (xs : List (DM α)) : Res (DM α) :=
  match s.kind with
  | .vec op => op.exec A less ofIdx blas junk xs
  | .other _ => impl i xs

/-- A single operation. -/
def execOne (env : Env α) (i : Nat) : Res (Env α) :=
  match P[i]? with
  | none => .error (.ub "no such operation")
  | some s => do
    let xs ← s.args.mapM (operand argObjs env)
    let z ← kernel A less ofIdx blas junk impl i s xs
    .ok fun k => if k = i then some z else env k

/-- A pipeline: the multi-threaded engine (Vect/Model.lean). `none`: the schedule ends before all tasks have. -/
def execPipe (plan : Plan) (env : Env α) (body : List Nat) : Res (Option (Env α)) := do
  let xs ← (body.flatMap (externals P body)).mapM fun rs => do
    let x ← operand argObjs env rs.1
    .ok (⟨x, rs.2⟩ : InObj α)
  let ts := plan.tiles (pipeLen xs)
  let ns := nodes P body 0 body
  let s ← run (bodyPipe A less ofIdx blas junk xs ns) ts plan.batch (St.init ts (bodyOutputs A junk xs ns)) plan.sched
  .ok (if allDone s ts.length then some fun i => if body.contains i then s.res (body.idxOf i) else env i else none)

/-- The block, item by item. -/
def execBlock (plan : Item → Plan) : List Item → Env α → Res (Option (Env α))
  | [], env => .ok (some env)
  | .one i :: l, env => do
    let e ← execOne A less ofIdx blas junk impl P argObjs env i
    execBlock plan l e
  | .pipe b :: l, env => do
    let o ← execPipe A less ofIdx blas junk P argObjs (plan (.pipe b)) env b
    match o with
    | none => .ok none
    | some e => execBlock plan l e

end

/-! ### Facts on the specification -/

variable {A : Agg.VT α} {P : Prog α} {args : List (Mat α)}

theorem values_length (A : Agg.VT α) (args : List (Mat α)) : ∀ (Q : Prog α) (rs : List (Mat α)), (values A args Q rs).length = rs.length + Q.length
  | [], rs => by simp [values]
  | s :: Q, rs => by rw [values, values_length A args Q]; simp; omega

theorem values_prefix (A : Agg.VT α) (args : List (Mat α)) : ∀ (Q : Prog α) (rs : List (Mat α)) (i : Nat), i < rs.length →
    (values A args Q rs).getD i (noMat A) = rs.getD i (noMat A)
  | [], _, _, _ => rfl
  | s :: Q, rs, i, h => by
    rw [values, values_prefix A args Q _ i (by simp; omega)]
    simp [List.getD, List.getElem?_append_left h]

theorem values_step (A : Agg.VT α) (args : List (Mat α)) : ∀ (Q : Prog α) (rs : List (Mat α)) (k : Nat) (s : Stmt α), Q[k]? = some s →
    (∀ j, Ref.op j ∈ s.args → j < rs.length + k) →
    (values A args Q rs).getD (rs.length + k) (noMat A) = s.value A (s.args.map (Ref.val (noMat A) args (values A args Q rs)))
  | [], _, _, _, h, _ => by simp at h
  | t :: Q, rs, 0, s, h, hj => by
    obtain rfl : t = s := by simpa using h
    have hp : ∀ i, i < rs.length + 1 → (values A args (t :: Q) rs).getD i (noMat A) =
        (rs ++ [t.value A (t.args.map (Ref.val (noMat A) args rs))]).getD i (noMat A) := fun i hi => by
      rw [values, values_prefix A args Q _ i (by simpa using hi)]
    rw [Nat.add_zero, hp _ (by omega)]
    have e : (rs ++ [t.value A (t.args.map (Ref.val (noMat A) args rs))]).getD rs.length (noMat A) = t.value A (t.args.map (Ref.val (noMat A) args rs)) := by
      simp [List.getD]
    rw [e]
    congr 1
    refine List.map_congr_left fun r hr => ?_
    cases r with
    | arg k => rfl
    | op j =>
      have := hj j hr
      show rs.getD j _ = _
      show _ = (values A args (t :: Q) rs).getD j (noMat A)
      rw [hp j (by omega)]
      simp [List.getD, List.getElem?_append_left (show j < rs.length by omega)]
  | t :: Q, rs, k + 1, s, h, hj => by
    have := values_step A args Q (rs ++ [t.value A (t.args.map (Ref.val (noMat A) args rs))]) k s (by simpa using h)
      (fun j hr => by have := hj j hr; simp; omega)
    rw [values]
    rw [show rs.length + (k + 1) = (rs ++ [t.value A (t.args.map (Ref.val (noMat A) args rs))]).length + k by simp; omega]
    exact this

/-- Each result is that of the operation on its operands. -/
theorem val_eq (hS : Ssa P) {i : Nat} {s : Stmt α} (h : P[i]? = some s) : val A P args i = s.value A (operands A P args i) := by
  have ha := args_get h
  have := values_step A args P [] i s h fun j hj => by
    have : Uses P i j := by unfold Uses; rw [ha]; exact hj
    simpa using hS _ _ this
  unfold val operands
  rw [ha]
  simpa using this

theorem val_vop (hS : Ssa P) {i : Nat} {op : VOp α} (h : vopOf P i = some op) : val A P args i = op.value A (operands A P args i) := by
  unfold vopOf at h
  cases hi : P[i]? with
  | none => rw [hi] at h; simp at h
  | some s =>
    rw [hi] at h
    obtain ⟨kind, as, m⟩ := s
    cases kind with
    | other f => simp at h
    | vec o =>
      obtain rfl : o = op := by simpa using h
      exact val_eq hS hi

theorem cand_vop {i : Nat} (h : cand P i = true) : ∃ op, vopOf P i = some op := by
  unfold cand at h
  unfold vopOf
  cases hi : P[i]? with
  | none => rw [hi] at h; simp at h
  | some s =>
    rw [hi] at h
    obtain ⟨kind, as, m⟩ := s
    cases kind with
    | other f => simp at h
    | vec o => exact ⟨o, rfl⟩

/-! ### Facts on the operations -/

theorem fits_rowsOk {op : VOp α} {ws : List (Mat α)} (hf : op.Fits ws) (d : Mat α) : RowsOk op (ws.headD d).rows ws := by
  refine hf.cases (P := fun op ws => RowsOk op (ws.headD d).rows ws) ?_ ?_ ?_ ?_ ?_ ?_ ?_ ?_ ?_ ?_ ?_ ?_ ?_
  case refine_3 =>
    intro f a b hb i s w h1 h2 _
    rcases i with _ | _ | i <;> simp at h2
    · subst h2; exact .inl rfl
    · subst h2
      rcases hb with h | h | h
      · exact .inl h.1
      · exact .inr ⟨rfl, h.1⟩
      · exact .inl h.1
  case refine_11 =>
    intro a b hb i s w h1 h2 _
    rcases i with _ | _ | i <;> simp at h2
    · subst h2; exact .inl rfl
    · subst h2; exact .inl hb.symm
  case refine_13 =>
    intro a b hb i s w h1 h2 _
    rcases i with _ | _ | i <;> simp at h2
    · subst h2; exact .inl rfl
    · subst h2; exact .inl hb.1
  all_goals
    intros
    intro i s w h1 h2 h3
    rcases i with _ | _ | i <;> simp at h2
  all_goals
    first
    | (subst h2; exact .inl rfl)
    | (simp [VOp.splits] at h1; subst h1; cases h3)

theorem rows_value (A : Agg.VT α) {op : VOp α} {ws : List (Mat α)} (hf : op.Fits ws) (hc : op.combine = .rows) (d : Mat α) :
    (op.value A ws).rows = (ws.headD d).rows := by
  revert hc
  refine hf.cases (P := fun op ws => op.combine = .rows → (op.value A ws).rows = (ws.headD d).rows) ?_ ?_ ?_ ?_ ?_ ?_ ?_ ?_ ?_ ?_ ?_ ?_ ?_
  case refine_6 => intro k a _ hc; cases k <;> cases hc
  case refine_7 => intro k a hc; cases k <;> cases hc
  case refine_10 => intro a hc; cases hc
  case refine_12 => intro tl a _ hc; cases hc
  case refine_13 => intro a v _ hc; cases hc
  all_goals intros; rfl

/-! ### The body of a pipeline -/

theorem wire_length (body : List Nat) : ∀ (n : Nat) (l : List Ref), (wire body n l).length = l.length
  | _, [] => rfl
  | n, r :: l => by
    unfold wire
    split
    · simp [wire_length body n l]
    · simp [wire_length body (n + 1) l]

theorem wire_spec (body : List Nat) : ∀ (l : List Ref) (ss : List Split) (E pre post : List (Ref × Split)),
    E = pre ++ (l.zip ss).filter (fun rs => !(internal body rs.1)) ++ post → ∀ (p : Nat) r s src, l[p]? = some r → ss[p]? = some s →
    (wire body pre.length l)[p]? = some src →
    (internal body r = true → src = .res (body.idxOf r.num)) ∧ (internal body r = false → ∃ k : Nat, src = .inp k ∧ E[k]? = some (r, s))
  | [], _, _, _, _, _, _, _, _, _, h, _, _ => by simp at h
  | r0 :: l, [], _, _, _, _, p, _, _, _, _, h, _ => by simp at h
  | r0 :: l, s0 :: ss, E, pre, post, hE, p, r, s, src, h1, h2, h3 => by
    by_cases hi : internal body r0 = true
    · have hw : wire body pre.length (r0 :: l) = .res (body.idxOf r0.num) :: wire body pre.length l := by rw [wire, if_pos hi]
      rw [List.zip_cons_cons, List.filter_cons_of_neg (by simp [hi])] at hE
      rw [hw] at h3
      cases p with
      | zero =>
        simp only [List.getElem?_cons_zero, Option.some.injEq] at h1 h2 h3
        subst h1 h2 h3
        exact ⟨fun _ => rfl, fun h => by rw [hi] at h; cases h⟩
      | succ p =>
        simp only [List.getElem?_cons_succ] at h1 h2 h3
        exact wire_spec body l ss E pre post hE p r s src h1 h2 h3
    · have hi' : internal body r0 = false := by simpa using hi
      have hw : wire body pre.length (r0 :: l) = .inp pre.length :: wire body (pre.length + 1) l := by rw [wire, if_neg hi]
      rw [List.zip_cons_cons, List.filter_cons_of_pos (by simp [hi'])] at hE
      rw [hw] at h3
      cases p with
      | zero =>
        simp only [List.getElem?_cons_zero, Option.some.injEq] at h1 h2 h3
        subst h1 h2 h3
        exact ⟨fun h => absurd h hi, fun _ => ⟨_, rfl, by rw [hE]; simp⟩⟩
      | succ p =>
        simp only [List.getElem?_cons_succ] at h1 h2 h3
        have e : pre.length + 1 = (pre ++ [(r0, s0)]).length := by simp
        rw [e] at h3
        exact wire_spec body l ss E (pre ++ [(r0, s0)]) post (by rw [hE]; simp) p r s src h1 h2 h3

/-- What is required of the program besides its structure: operands exist and have shapes that the operations accept; in the vectorizable
operations, the first operand has at least one row, and an operand that may be fused is not a row vector that is repeated. -/
structure Fine (A : Agg.VT α) (P : Prog α) (args : List (Mat α)) : Prop where
  ssa : Ssa P
  argsExist : ∀ i k, Ref.arg k ∈ argsOf P i → k < args.length
  fits : ∀ i op, vopOf P i = some op → op.Fits (operands A P args i)
  xxt : ∀ i op, cand P i = true → vopOf P i = some op → ¬ op.isXXt
  rows : ∀ i, cand P i = true → 0 < firstRows A P args i
  vec : ∀ v w, cand P v = true → w ∈ merges P v → (val A P args w).rows = firstRows A P args v

/-- All operations of a pipeline work on the same number of rows. -/
theorem Grown.same_rows (hP : Fine A P args) {L : List Nat} (h : Grown P L) : ∀ v ∈ L, firstRows A P args v = firstRows A P args (L.headD 0) := by
  induction h with
  | start v => intro x hx; obtain rfl : x = v := by simpa using hx
               rfl
  | @push L v w hL hv hw hn hd ih =>
    have e : (L ++ [w]).headD 0 = L.headD 0 := by
      cases L with
      | nil => exact absurd rfl hL.ne_nil
      | cons a l => rfl
    rw [e]
    intro x hx
    rcases List.mem_append.1 hx with hx | hx
    · exact ih x hx
    · obtain rfl : x = w := by simpa using hx
      rw [← ih v hv, ← hP.vec v x (hL.cand v hv) hw]
      obtain ⟨_, h1, h2⟩ := merges_uses hw
      obtain ⟨op, ho⟩ := cand_vop h1
      have hc : op.combine = .rows := by simpa [byRows, ho] using h2
      rw [val_vop hP.ssa ho]
      exact (rows_value A (hP.fits x op ho) hc _).symm

/-- The inputs of the pipeline. -/
def inputsOf (A : Agg.VT α) (P : Prog α) (args : List (Mat α)) (body : List Nat) : List (Inp α) :=
  (body.flatMap (externals P body)).map fun rs => ⟨Ref.val (noMat A) args (values A args P []) rs.1, rs.2⟩

theorem externals_length {body : List Nat} {i : Nat} (h : (argsOf P i).length = (splitsOf P i).length) :
    (externals P body i).length = ((argsOf P i).filter fun r => !(internal body r)).length := by
  unfold externals
  generalize argsOf P i = l at h
  generalize splitsOf P i = ss at h
  induction l generalizing ss with
  | nil => simp
  | cons r l ih =>
    cases ss with
    | nil => simp at h
    | cons s ss =>
      rw [List.zip_cons_cons]
      by_cases hi : internal body r = true
      · rw [List.filter_cons_of_neg (by simp [hi]), List.filter_cons_of_neg (by simp [hi])]
        exact ih ss (by simpa using h)
      · rw [List.filter_cons_of_pos (by simp [hi]), List.filter_cons_of_pos (by simp [hi])]
        simp [ih ss (by simpa using h)]

theorem Fine.arity (hP : Fine A P args) {i : Nat} (h : cand P i = true) : (argsOf P i).length = (splitsOf P i).length := by
  obtain ⟨op, ho⟩ := cand_vop h
  have := fits_length (hP.fits i op ho)
  simp only [operands, List.length_map] at this
  simp [splitsOf, ho, this]

/-- The body of the pipeline as the pass builds it: every result is that of the program, and it is one to which C165 applies. -/
theorem nodes_ok (hP : Fine A P args) {L : List Nat} (hg : Grown P L)
    (hr : ∀ v ∈ L, ∀ (p j : Nat), (argsOf P v)[p]? = some (Ref.op j) → j ∈ L → (splitsOf P v)[p]? = some Split.rows) :
    ∀ (rest done : List Nat), L.reverse = done ++ rest →
      runBody A (Inp.mats (inputsOf A P args L.reverse)) (nodes P L.reverse (done.flatMap (externals P L.reverse)).length rest) (done.map (val A P args)) =
        L.reverse.map (val A P args) ∧
      FitsFrom A (Inp.mats (inputsOf A P args L.reverse)) (nodes P L.reverse (done.flatMap (externals P L.reverse)).length rest) (done.map (val A P args)) ∧
      WellSplit (firstRows A P args (L.headD 0)) (inputsOf A P args L.reverse) (nodes P L.reverse (done.flatMap (externals P L.reverse)).length rest)
        (done.map fun i => (vopOf P i).getD .transpose)
  | [], done, hb => by
    refine ⟨?_, trivial, trivial⟩
    show done.map _ = _
    rw [hb]; simp
  | i :: rest, done, hb => by
    have hmem : ∀ x, x ∈ L ↔ x ∈ L.reverse := fun x => List.mem_reverse.symm
    have hiL : i ∈ L := by rw [hmem, hb]; simp
    have hci := hg.cand i hiL
    obtain ⟨op, ho⟩ := cand_vop hci
    have har := hP.arity hci
    have hfit := hP.fits i op ho
    have hnd : (done ++ i :: rest).Nodup := by rw [← hb]; exact List.nodup_reverse.2 hg.nodup
    -- operands from inside are earlier
    have hin : ∀ j, Ref.op j ∈ argsOf P i → j ∈ L → j ∈ done := by
      intro j hu hj
      have hpw := (hg.deps hP.ssa).1
      rw [← List.reverse_reverse (as := L), List.pairwise_reverse, hb] at hpw
      have hj' : j ∈ done ++ i :: rest := by rw [← hb, ← hmem]; exact hj
      rcases List.mem_append.1 hj' with h | h
      · exact h
      · rcases List.mem_cons.1 h with rfl | h
        · exact absurd (hP.ssa _ _ hu) (Nat.lt_irrefl _)
        · have := (List.pairwise_cons.1 (List.pairwise_append.1 hpw).2.1).1 j h
          exact absurd (Relation.TransGen.single hu) this
    have hidx : ∀ j ∈ done, L.reverse.idxOf j < done.length ∧ done[L.reverse.idxOf j]? = some j := by
      intro j hj
      rw [hb, List.idxOf_append_of_mem hj]
      have := List.idxOf_lt_length_of_mem hj
      exact ⟨this, by rw [List.getElem?_eq_getElem this]; simp⟩
    -- the block arguments
    have hE : L.reverse.flatMap (externals P L.reverse) = done.flatMap (externals P L.reverse) ++
        ((argsOf P i).zip (splitsOf P i)).filter (fun rs => !(internal L.reverse rs.1)) ++ rest.flatMap (externals P L.reverse) := by
      have : ∀ l, L.reverse = l → l.flatMap (externals P L.reverse) = L.reverse.flatMap (externals P L.reverse) := fun l h => by rw [h]
      rw [← this _ hb, List.flatMap_append, List.flatMap_cons, ← List.append_assoc]
      rfl
    have hspec : ∀ (p : Nat) r s src, (argsOf P i)[p]? = some r → (splitsOf P i)[p]? = some s →
        (wire L.reverse (done.flatMap (externals P L.reverse)).length (argsOf P i))[p]? = some src →
        (internal L.reverse r = true → src = .res (L.reverse.idxOf r.num)) ∧ (internal L.reverse r = false → ∃ k : Nat, src = .inp k ∧
          (inputsOf A P args L.reverse)[k]? = some ⟨Ref.val (noMat A) args (values A args P []) r, s⟩) := by
      intro p r s src h1 h2 h3
      obtain ⟨h4, h5⟩ := wire_spec L.reverse (argsOf P i) (splitsOf P i) _ (done.flatMap (externals P L.reverse)) (rest.flatMap (externals P L.reverse)) hE
        p r s src h1 h2 h3
      refine ⟨h4, fun h => ?_⟩
      obtain ⟨k, e1, e2⟩ := h5 h
      exact ⟨k, e1, by unfold inputsOf; rw [List.getElem?_map, e2]; rfl⟩
    have hsp : ∀ p, p < (argsOf P i).length → ∃ r s src, (argsOf P i)[p]? = some r ∧ (splitsOf P i)[p]? = some s ∧
        (wire L.reverse (done.flatMap (externals P L.reverse)).length (argsOf P i))[p]? = some src := by
      intro p hp
      exact ⟨_, _, _, List.getElem?_eq_getElem hp, List.getElem?_eq_getElem (by omega), List.getElem?_eq_getElem (by rw [wire_length]; exact hp)⟩
    have hargs : (wire L.reverse (done.flatMap (externals P L.reverse)).length (argsOf P i)).map
        (Src.look (noMat A) (Inp.mats (inputsOf A P args L.reverse)) (done.map (val A P args))) = operands A P args i := by
      unfold operands
      refine List.ext_getElem? fun p => ?_
      by_cases hp : p < (argsOf P i).length
      · obtain ⟨r, s, src, h1, h2, h3⟩ := hsp p hp
        rw [List.getElem?_map, List.getElem?_map, h1, h3]
        obtain ⟨h4, h5⟩ := hspec p r s src h1 h2 h3
        simp only [Option.map_some, Option.some.injEq]
        cases hi : internal L.reverse r with
        | true =>
          rw [h4 hi]
          cases r with
          | arg k => simp [internal] at hi
          | op j =>
            have hjL : j ∈ L := by rw [hmem]; simpa [internal] using hi
            obtain ⟨_, e⟩ := hidx j (hin j (List.mem_of_getElem? h1) hjL)
            show (done.map (val A P args)).getD (L.reverse.idxOf j) (noMat A) = (values A args P []).getD j (noMat A)
            rw [List.getD, List.getElem?_map, e]
            rfl
        | false =>
          obtain ⟨k, e1, e2⟩ := h5 hi
          rw [e1]
          show (Inp.mats (inputsOf A P args L.reverse)).getD k (noMat A) = _
          unfold Inp.mats
          rw [List.getD, List.getElem?_map, e2]
          rfl
      · rw [List.getElem?_eq_none (by simp [wire_length]; omega), List.getElem?_eq_none (by simp; omega)]
    have hval : op.value A (operands A P args i) = val A P args i := (val_vop hP.ssa ho).symm
    have hn : nodes P L.reverse (done.flatMap (externals P L.reverse)).length (i :: rest) =
        ⟨op, wire L.reverse (done.flatMap (externals P L.reverse)).length (argsOf P i)⟩ ::
          nodes P L.reverse ((done ++ [i]).flatMap (externals P L.reverse)).length rest := by
      rw [nodes, ho]
      simp only [Option.getD_some, List.flatMap_append, List.flatMap_cons, List.flatMap_nil, List.append_nil, List.length_append]
      rw [externals_length har]
    obtain ⟨r1, r2, r3⟩ := nodes_ok hP hg hr rest (done ++ [i]) (by rw [hb]; simp)
    rw [hn]
    rw [List.map_append] at r1 r2
    have e1 : [i].map (val A P args) = [val A P args i] := rfl
    rw [e1] at r1 r2
    refine ⟨?_, ⟨?_, ?_⟩, ?_, ?_, hP.xxt i op hci ho, ?_⟩
    · rw [runBody]
      simp only []
      rw [hargs, hval]
      exact r1
    · show op.Fits _
      rw [hargs]; exact hfit
    · show FitsFrom A _ _ (_ ++ [op.value A _])
      rw [hargs, hval]; exact r2
    · rw [List.forall₂_iff_get]
      have hs : splitsOf P i = op.splits := by simp [splitsOf, ho]
      refine ⟨by simp only [wire_length]; rw [har, hs], fun p hp1 hp2 => ?_⟩
      have hp : p < (argsOf P i).length := by simpa [wire_length] using hp1
      obtain ⟨r, s, src, h1, h2, h3⟩ := hsp p hp
      have e2 : (wire L.reverse (done.flatMap (externals P L.reverse)).length (argsOf P i)).get ⟨p, hp1⟩ = src := by
        have := (List.getElem?_eq_some_iff.1 h3).2
        simpa using this
      have e3 : op.splits.get ⟨p, hp2⟩ = s := by
        rw [hs] at h2
        have := (List.getElem?_eq_some_iff.1 h2).2
        simpa using this
      show SrcOk _ _ (List.get _ _) (List.get _ _)
      rw [e2, e3]
      obtain ⟨h4, h5⟩ := hspec p r s src h1 h2 h3
      cases hi : internal L.reverse r with
      | true =>
        rw [h4 hi]
        cases r with
        | arg k => simp [internal] at hi
        | op j =>
          have hjL : j ∈ L := by rw [hmem]; simpa [internal] using hi
          have hjd := hin j (List.mem_of_getElem? h1) hjL
          obtain ⟨_, e⟩ := hidx j hjd
          have hrow := hr i hiL p j h1 hjL
          rw [h2] at hrow
          refine ⟨by simpa using hrow, ?_⟩
          obtain ⟨v, hv, hm⟩ := hg.tail_merge j (hg.used_tail hP.ssa hiL hjL (List.mem_of_getElem? h1))
          obtain ⟨_, hcj, hbj⟩ := merges_uses hm
          obtain ⟨oj, hoj⟩ := cand_vop hcj
          refine ⟨oj, ?_, by simpa [byRows, hoj] using hbj⟩
          show (done.map _)[L.reverse.idxOf j]? = _
          rw [List.getElem?_map, e]
          simp [hoj]
      | false =>
        obtain ⟨k, e4, e5⟩ := h5 hi
        rw [e4]
        show ((inputsOf A P args L.reverse).map (·.split))[k]? = some s
        rw [List.getElem?_map, e5]; rfl
    · intro p k x hp1 hp2 hp3
      have hp : p < (argsOf P i).length := by
        have := (List.getElem?_eq_some_iff.1 hp1).1
        simpa [wire_length] using this
      obtain ⟨r, s, src, h1, h2, h3⟩ := hsp p hp
      have : src = .inp k := by
        rw [h3] at hp1; simpa using hp1
      subst this
      obtain ⟨h4, h5⟩ := hspec p r s _ h1 h2 h3
      cases hi : internal L.reverse r with
      | true => cases h4 hi
      | false =>
        obtain ⟨k', e4, e5⟩ := h5 hi
        cases e4
        rw [e5] at hp2
        obtain rfl : (⟨Ref.val (noMat A) args (values A args P []) r, s⟩ : Inp α) = x := by simpa using hp2
        have hro := fits_rowsOk hfit (noMat A) p s (Ref.val (noMat A) args (values A args P []) r) (by simpa [splitsOf, ho] using h2)
          (by unfold operands; rw [List.getElem?_map, h1]; rfl) hp3
        have := hg.same_rows hP i hiL
        unfold firstRows at this
        rw [this] at hro
        exact hro
    · rw [List.map_append] at r3
      simpa [ho] using r3

end Verif.Fuse
