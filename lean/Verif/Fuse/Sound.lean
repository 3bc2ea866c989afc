/-
  C167: the block after the pass computes what the program computes.
-/
import Verif.Fuse.Exec

namespace Verif.Fuse
open Verif Verif.Dense Verif.Vect
variable {α : Type} {A : Agg.VT α} {P : Prog α} {args : List (Mat α)}

theorem mapM_rel {β γ : Type} {f : β → Res γ} {Q : β → γ → Prop} : ∀ (l : List β), (∀ x ∈ l, Res.Ok (f x) (Q x)) → Res.Ok (l.mapM f) fun ys => List.Forall₂ Q l ys
  | [], _ => ⟨[], rfl, .nil⟩
  | x :: l, h => by
    rw [List.mapM_cons]
    refine (h x (by simp)).bind fun y hy => ?_
    refine (mapM_rel l fun z hz => h z (by simp [hz])).bind fun ys hys => ?_
    exact ⟨_, rfl, .cons hy hys⟩

theorem pipeLen_eq {xs : List (InObj α)} {n : Nat} (h1 : ∀ x ∈ xs, x.split = .rows → x.obj.numRows ≤ n) (h2 : ∃ x ∈ xs, x.split = .rows ∧ x.obj.numRows = n) :
    pipeLen xs = n := by
  have key : ∀ (l : List (InObj α)) (m : Nat), (∀ x ∈ l, x.split = .rows → x.obj.numRows ≤ n) → m ≤ n →
      (m = n ∨ ∃ x ∈ l, x.split = .rows ∧ x.obj.numRows = n) → l.foldl (fun n x => if x.split = .rows then max n x.obj.numRows else n) m = n := by
    intro l
    induction l with
    | nil =>
      intro m _ _ h
      rcases h with h | ⟨x, hx, _⟩
      · exact h
      · simp at hx
    | cons x l ih =>
      intro m hl hm h
      rw [List.foldl_cons]
      have hx := hl x (by simp)
      refine ih _ (fun y hy => hl y (by simp [hy])) ?_ ?_
      · split
        · have := hx ‹_›; omega
        · exact hm
      · rcases h with h | ⟨y, hy, h3, h4⟩
        · left
          split
          · have := hx ‹_›; omega
          · exact h
        · rcases List.mem_cons.1 hy with rfl | hy
          · left
            rw [if_pos h3, h4]; omega
          · exact .inr ⟨y, hy, h3, h4⟩
  exact key xs 0 h1 (Nat.zero_le _) (.inr h2)

theorem allDone_iff {s : St α} {n : Nat} : allDone s n = true ↔ s.finished n := by
  unfold allDone St.finished
  rw [List.all_eq_true]
  constructor
  · intro h t ht
    have := h t (List.mem_range.2 ht)
    split at this <;> simp_all
  · intro h t ht
    have := h t (List.mem_range.1 ht)
    split at this <;> simp_all

/-- The tasks of a plan cover the rows once, and batches are not empty. -/
def Plan.Valid (p : Plan) : Prop := (∀ len, 0 < len → Spec.Tiles 0 len (p.tiles len)) ∧ ∀ t, 1 ≤ p.batch t

/-- The objects of the operations in `D` represent their values. -/
def EnvOk (A : Agg.VT α) (P : Prog α) (args : List (Mat α)) (D : List Nat) (env : Env α) : Prop :=
  ∀ i ∈ D, ∃ x, env i = some x ∧ x.Is (val A P args i)

theorem operand_ok {argObjs : List (DM α)} (hargs : List.Forall₂ DM.Is argObjs args) {D : List Nat} {env : Env α} (he : EnvOk A P args D env) {r : Ref}
    (h1 : ∀ k, r = .arg k → k < args.length) (h2 : ∀ j, r = .op j → j ∈ D) :
    Res.Ok (operand argObjs env r) fun x => x.Is (Ref.val (noMat A) args (values A args P []) r) := by
  cases r with
  | arg k =>
    have hk := h1 k rfl
    have hl := hargs.length_eq
    simp only [operand]
    rw [List.getElem?_eq_getElem (show k < argObjs.length by omega)]
    refine ⟨_, rfl, ?_⟩
    have := (List.forall₂_iff_get.1 hargs).2 k (by omega) hk
    show DM.Is _ (args.getD k (noMat A))
    rw [List.getD_eq_getElem _ _ hk]
    exact this
  | op j =>
    obtain ⟨x, hx, hi⟩ := he j (h2 j rfl)
    simp only [operand]
    rw [hx]
    exact ⟨x, rfl, hi⟩

section
variable (less : α → α → Bool) (ofIdx : Nat → α) (blas : Bool) (junk : Nat → α) {impl : Nat → List (DM α) → Res (DM α)} {argObjs : List (DM α)}

/-- The kernels of the operations that are not vectorizable do what they should on the operands of the program. -/
def ImplOk (A : Agg.VT α) (P : Prog α) (args : List (Mat α)) (impl : Nat → List (DM α) → Res (DM α)) : Prop :=
  ∀ i f as m, P[i]? = some ⟨.other f, as, m⟩ → ∀ xs, List.Forall₂ DM.Is xs (operands A P args i) →
    Res.Ok (impl i xs) fun z => z.Is (f (operands A P args i))

theorem one_ok (hA : Laws A) (hP : Fine A P args) (hargs : List.Forall₂ DM.Is argObjs args) (hI : ImplOk A P args impl) {D : List Nat} {env : Env α}
    (he : EnvOk A P args D env) {i : Nat} (hi : i < P.length) (hu : ∀ j, Uses P i j → j ∈ D) :
    Res.Ok (execOne A less ofIdx blas junk impl P argObjs env i) fun e => EnvOk A P args (D ++ [i]) e := by
  have hs := List.getElem?_eq_getElem hi
  unfold execOne
  rw [hs]
  have ha := args_get hs
  have hops : Res.Ok ((P[i]).args.mapM (operand argObjs env)) fun xs => List.Forall₂ DM.Is xs (operands A P args i) := by
    refine (mapM_rel (Q := fun r x => x.Is (Ref.val (noMat A) args (values A args P []) r)) (P[i]).args fun r hr => ?_).mono fun xs h => ?_
    · refine operand_ok hargs he (fun k hk => ?_) fun j hj => ?_
      · exact hP.argsExist i k (by rw [ha, ← hk]; exact hr)
      · exact hu j (by unfold Uses; rw [ha, ← hj]; exact hr)
    · unfold operands
      rw [ha]
      generalize (P[i]).args = l at h
      clear * - h
      induction h with
      | nil => exact .nil
      | cons h _ ih => exact .cons h ih
  refine hops.bind fun xs hxs => ?_
  have hz : Res.Ok (kernel A less ofIdx blas junk impl i P[i] xs) fun z => z.Is (val A P args i) := by
    rw [val_eq hP.ssa hs]
    rcases hPi : P[i] with ⟨kind, as, m⟩
    simp only [Stmt.value, kernel]
    cases kind with
    | vec op => exact exec_ok hA less ofIdx blas junk op hxs (hP.fits i op (by unfold vopOf; rw [hs, hPi]))
    | other f => exact hI i f as m (by rw [hs, hPi]) xs hxs
  refine hz.bind fun z hz => ⟨_, rfl, fun k hk => ?_⟩
  by_cases hki : k = i
  · subst hki
    exact ⟨z, by simp, hz⟩
  · rcases List.mem_append.1 hk with hk | hk
    · obtain ⟨x, h1, h2⟩ := he k hk
      exact ⟨x, by simp [hki, h1], h2⟩
    · exact absurd (by simpa using hk) hki

theorem pipe_ok (hA : Laws A) (hP : Fine A P args) (hargs : List.Forall₂ DM.Is argObjs args) {D : List Nat} {env : Env α}
    (he : EnvOk A P args D env) {L : List Nat} (hg : Grown P L)
    (hr : ∀ v ∈ L, ∀ (p j : Nat), (argsOf P v)[p]? = some (Ref.op j) → j ∈ L → (splitsOf P v)[p]? = some Split.rows)
    (hu : ∀ j ∈ (Item.pipe L.reverse).uses P, j ∈ D) {plan : Plan} (hplan : plan.Valid) :
    Res.Ok (execPipe A less ofIdx blas junk P argObjs plan env L.reverse) (fun o => ∀ e, o = some e → EnvOk A P args (D ++ L.reverse) e) ∧
    ∃ rest, Res.Ok (execPipe A less ofIdx blas junk P argObjs { plan with sched := plan.sched ++ rest } env L.reverse)
      fun o => ∃ e, o = some e ∧ EnvOk A P args (D ++ L.reverse) e := by
  have hLn : L.headD 0 ∈ L := by
    cases L with
    | nil => exact absurd rfl hg.ne_nil
    | cons a l => simp
  have hlen : 0 < firstRows A P args (L.headD 0) := hP.rows _ (hg.cand _ hLn)
  obtain ⟨b1, b2, b3⟩ := nodes_ok hP hg hr L.reverse [] rfl
  simp only [List.flatMap_nil, List.length_nil, List.map_nil] at b1 b2 b3
  -- rows of the inputs
  have hext : ∀ rs ∈ L.reverse.flatMap (externals P L.reverse), ∃ i ∈ L, ∃ p : Nat, (argsOf P i)[p]? = some rs.1 ∧ (splitsOf P i)[p]? = some rs.2 ∧
      internal L.reverse rs.1 = false := by
    intro rs hrs
    obtain ⟨i, hi, h⟩ := List.mem_flatMap.1 hrs
    obtain ⟨h1, h2⟩ := List.mem_filter.1 h
    obtain ⟨p, hp, e⟩ := List.getElem_of_mem h1
    have hz := List.getElem?_zip_eq_some.1 ((List.getElem?_eq_getElem hp).trans (congrArg some e))
    exact ⟨i, List.mem_reverse.1 hi, p, hz.1, hz.2, by simpa using h2⟩
  have hrows : ∀ rs ∈ L.reverse.flatMap (externals P L.reverse), rs.2 = Split.rows →
      (Ref.val (noMat A) args (values A args P []) rs.1).rows = 1 ∨
      (Ref.val (noMat A) args (values A args P []) rs.1).rows = firstRows A P args (L.headD 0) := by
    intro rs hrs hsp
    obtain ⟨i, hi, p, h1, h2, _⟩ := hext rs hrs
    obtain ⟨op, ho⟩ := cand_vop (hg.cand i hi)
    have hro := fits_rowsOk (hP.fits i op ho) (noMat A) p rs.2 (Ref.val (noMat A) args (values A args P []) rs.1)
      (by simpa [splitsOf, ho] using h2) (by unfold operands; rw [List.getElem?_map, h1]; rfl) hsp
    have := hg.same_rows hP i hi
    unfold firstRows at this
    rw [this] at hro
    rcases hro with h | h
    · exact .inr h
    · exact .inl h.2
  -- the first operand of the first operation
  have hfst : ∃ rs ∈ L.reverse.flatMap (externals P L.reverse), rs.2 = Split.rows ∧
      (Ref.val (noMat A) args (values A args P []) rs.1).rows = firstRows A P args (L.headD 0) := by
    obtain ⟨i, rest, hrev⟩ : ∃ i rest, L.reverse = i :: rest := by
      cases h : L.reverse with
      | nil => exact absurd (by simpa using h) hg.ne_nil
      | cons a l => exact ⟨a, l, rfl⟩
    have hi : i ∈ L := by rw [← List.mem_reverse, hrev]; simp
    obtain ⟨op, ho⟩ := cand_vop (hg.cand i hi)
    have hs : splitsOf P i = op.splits := by simp [splitsOf, ho]
    have hsp : op.splits[0]? = some Split.rows := by cases op <;> rfl
    have har := hP.arity (hg.cand i hi)
    have h0 : 0 < (argsOf P i).length := by
      rw [har, hs]; exact (List.getElem?_eq_some_iff.1 hsp).1
    have hget := List.getElem?_eq_getElem h0
    have hint : internal L.reverse (argsOf P i)[0] = false := by
      by_contra hc
      have hc : internal L.reverse (argsOf P i)[0] = true := by simpa using hc
      cases hr0 : (argsOf P i)[0] with
      | arg k => rw [hr0] at hc; simp [internal] at hc
      | op j =>
        rw [hr0] at hc hget
        have hj : j ∈ L.reverse := by simpa [internal] using hc
        have hpw := (hg.deps hP.ssa).1
        rw [← List.reverse_reverse (as := L), List.pairwise_reverse, hrev] at hpw
        have hu : Uses P i j := List.mem_of_getElem? hget
        rw [hrev] at hj
        rcases List.mem_cons.1 hj with rfl | hj
        · exact absurd (hP.ssa _ _ hu) (Nat.lt_irrefl _)
        · exact (List.pairwise_cons.1 hpw).1 j hj (.single hu)
    refine ⟨((argsOf P i)[0], .rows), List.mem_flatMap.2 ⟨i, by rw [hrev]; simp, List.mem_filter.2 ⟨?_, by simpa using hint⟩⟩, rfl, ?_⟩
    · refine List.mem_of_getElem? (i := 0) (List.getElem?_zip_eq_some.2 ⟨hget, by rw [hs]; exact hsp⟩)
    · rw [← hg.same_rows hP i hi]
      unfold firstRows operands
      rw [List.headD_eq_head?_getD, List.head?_eq_getElem?, List.getElem?_map, hget]
      rfl
  -- the operands as objects
  have hobj : Res.Ok ((L.reverse.flatMap (externals P L.reverse)).mapM fun rs => do
      let x ← operand argObjs env rs.1
      .ok (⟨x, rs.2⟩ : InObj α)) fun xs => List.Forall₂ (fun rs (x : InObj α) => x.obj.Is (Ref.val (noMat A) args (values A args P []) rs.1) ∧ x.split = rs.2)
        (L.reverse.flatMap (externals P L.reverse)) xs := by
    refine mapM_rel _ fun rs hrs => ?_
    obtain ⟨i, hi, p, h1, h2, h3⟩ := hext rs hrs
    refine (operand_ok hargs he (r := rs.1) (fun k hk => ?_) fun j hj => ?_).bind fun x hx => ⟨_, rfl, hx, rfl⟩
    · exact hP.argsExist i k (by rw [← hk]; exact List.mem_of_getElem? h1)
    · refine hu j (mem_uses.2 ⟨i, List.mem_reverse.2 hi, by unfold Uses; rw [← hj]; exact List.mem_of_getElem? h1, ?_⟩)
      rw [hj] at h3
      simpa [internal, Item.ops] using h3
  obtain ⟨xs, hxs, hrel⟩ := hobj
  have hin : List.Forall₂ (fun (i : InObj α) (s : Inp α) => i.obj.Is s.mat ∧ i.split = s.split ∧
      (s.split = .rows → s.mat.rows = 1 ∨ s.mat.rows = firstRows A P args (L.headD 0))) xs (inputsOf A P args L.reverse) := by
    unfold inputsOf
    clear hxs hfst hext
    generalize L.reverse.flatMap (externals P L.reverse) = E at hrel hrows
    induction hrel with
    | nil => exact .nil
    | cons h t ih => exact .cons ⟨h.1, h.2, hrows _ (by simp)⟩ (ih fun rs hrs => hrows rs (by simp [hrs]))
  have hpl : pipeLen xs = firstRows A P args (L.headD 0) := by
    refine pipeLen_eq (fun x hx hsp => ?_) ?_
    · obtain ⟨k, hk, e⟩ := List.getElem_of_mem hx
      have hl := hrel.length_eq
      have h := (List.forall₂_iff_get.1 hrel).2 k (by omega) hk
      simp only [List.get_eq_getElem] at h
      rw [e] at h
      have := hrows _ (List.getElem_mem (show k < (L.reverse.flatMap (externals P L.reverse)).length by omega)) (by rw [← h.2]; exact hsp)
      have e2 := h.1.2.1
      rw [e2]
      rcases this with h | h <;> rw [h]
      exact hlen
    · obtain ⟨rs, hrs, h1, h2⟩ := hfst
      obtain ⟨k, hk, e⟩ := List.getElem_of_mem hrs
      have hl := hrel.length_eq
      have h := (List.forall₂_iff_get.1 hrel).2 k hk (by omega)
      simp only [List.get_eq_getElem] at h
      rw [e] at h
      refine ⟨xs[k], List.getElem_mem (by omega), by rw [h.2, h1], ?_⟩
      exact h.1.2.1.trans h2
  have main := fun sch => C165_fused_pipeline hA less ofIdx blas junk hlen xs (inputsOf A P args L.reverse) (nodes P L.reverse 0 L.reverse)
    (plan.tiles (pipeLen xs)) plan.batch hin b3 b2 (by rw [hpl]; exact hplan.1 _ hlen) hplan.2 sch
  have hnl : ∀ n (l : List Nat), (nodes P L.reverse n l).length = l.length := by
    intro n l
    induction l generalizing n with
    | nil => rfl
    | cons a l ih => rw [nodes, List.length_cons, ih, List.length_cons]
  have post : ∀ s : St α, (∀ o, o < (nodes P L.reverse 0 L.reverse).length → ∃ x, s.res o = some x ∧
      x.Is ((runBody A (Inp.mats (inputsOf A P args L.reverse)) (nodes P L.reverse 0 L.reverse) []).getD o (noMat A))) →
      EnvOk A P args (D ++ L.reverse) fun i => if L.reverse.contains i then s.res (L.reverse.idxOf i) else env i := by
    intro s hs i hi
    by_cases hc : i ∈ L.reverse
    · have hlt := List.idxOf_lt_length_of_mem hc
      obtain ⟨x, h1, h2⟩ := hs (L.reverse.idxOf i) (by rw [hnl]; exact hlt)
      refine ⟨x, by simpa [hc] using h1, ?_⟩
      rw [b1] at h2
      have e : (L.reverse.map (val A P args)).getD (L.reverse.idxOf i) (noMat A) = val A P args i := by
        rw [List.getD, List.getElem?_map, List.getElem?_eq_getElem hlt]
        simp
      rw [e] at h2
      exact h2
    · rcases List.mem_append.1 hi with hi | hi
      · obtain ⟨x, h1, h2⟩ := he i hi
        exact ⟨x, by simpa [hc] using h1, h2⟩
      · exact absurd hi hc
  constructor
  · unfold execPipe
    rw [hxs, Res.ok_bind]
    obtain ⟨_, _, _, hrun⟩ := (main plan.sched).1
    refine hrun.bind fun s hs => ⟨_, rfl, fun e hee => ?_⟩
    by_cases hd : allDone s (plan.tiles (pipeLen xs)).length = true
    · rw [if_pos hd] at hee
      obtain rfl := Option.some.inj hee
      exact post s (hs (allDone_iff.1 hd))
    · rw [if_neg hd] at hee; cases hee
  · obtain ⟨rest, hfin⟩ := (main plan.sched).2
    refine ⟨rest, ?_⟩
    unfold execPipe
    rw [hxs, Res.ok_bind]
    obtain ⟨_, _, _, hrun⟩ := (main (plan.sched ++ rest)).1
    refine (hfin.and hrun).bind fun s hs => ⟨_, rfl, _, ?_, post s (hs.2 hs.1)⟩
    rw [if_pos (allDone_iff.2 hs.1)]

theorem block_ok (hA : Laws A) (hP : Fine A P args) (hargs : List.Forall₂ DM.Is argObjs args) (hI : ImplOk A P args impl) {plan : Item → Plan}
    (hplan : ∀ it, (plan it).Valid) : ∀ (B : List Item) (D : List Nat) (env : Env α), EnvOk A P args D env → OrderedFrom P D B → B.Nodup →
    (∀ it ∈ B, (∃ i, i < P.length ∧ it = .one i) ∨ ∃ L, Grown P L ∧ it = .pipe L.reverse ∧
      ∀ v ∈ L, ∀ (p j : Nat), (argsOf P v)[p]? = some (Ref.op j) → j ∈ L → (splitsOf P v)[p]? = some Split.rows) →
    Res.Ok (execBlock A less ofIdx blas junk impl P argObjs plan B env) (fun o => ∀ e, o = some e → EnvOk A P args (D ++ opsOf B) e) ∧
    ∃ plan' : Item → Plan, (∀ it, (plan' it).tiles = (plan it).tiles ∧ (plan' it).batch = (plan it).batch ∧ (plan it).sched <+: (plan' it).sched) ∧
      Res.Ok (execBlock A less ofIdx blas junk impl P argObjs plan' B env) fun o => ∃ e, o = some e ∧ EnvOk A P args (D ++ opsOf B) e
  | [], D, env, he, _, _, _ => by
    refine ⟨⟨_, rfl, fun e h => ?_⟩, plan, fun it => ⟨rfl, rfl, List.prefix_rfl⟩, ⟨_, rfl, env, rfl, ?_⟩⟩
    · obtain rfl := Option.some.inj h
      simpa [opsOf] using he
    · simpa [opsOf] using he
  | it :: B, D, env, he, ho, hn, hB => by
    have hB' := fun x hx => hB x (List.mem_cons_of_mem it hx)
    rcases hB it (by simp) with ⟨i, hi, rfl⟩ | ⟨L, hg, rfl, hr⟩
    · have hu : ∀ j, Uses P i j → j ∈ D := fun j hj => by
        have hne : j ≠ i := Nat.ne_of_lt (hP.ssa _ _ hj)
        exact ho.1 j (mem_uses.2 ⟨i, by simp [Item.ops], hj, by simp [Item.ops, hne]⟩)
      obtain ⟨e, h1, h2⟩ := one_ok less ofIdx blas junk hA hP hargs hI he hi hu
      have e2 : ∀ pl, execBlock A less ofIdx blas junk impl P argObjs pl (.one i :: B) env = execBlock A less ofIdx blas junk impl P argObjs pl B e :=
        fun pl => by rw [execBlock, h1]; rfl
      obtain ⟨k1, plan', k2, k3⟩ := block_ok hA hP hargs hI hplan B (D ++ [i]) e h2 ho.2 (List.nodup_cons.1 hn).2 hB'
      have e3 : D ++ opsOf (.one i :: B) = D ++ [i] ++ opsOf B := by rw [opsOf_cons]; simp [Item.ops]
      rw [e2, e3]
      exact ⟨k1, plan', k2, by rw [e2]; exact k3⟩
    · have hp := pipe_ok less ofIdx blas junk hA hP hargs he hg hr ho.1 (hplan (.pipe L.reverse))
      have e3 : D ++ opsOf (.pipe L.reverse :: B) = D ++ L.reverse ++ opsOf B := by rw [opsOf_cons]; simp [Item.ops]
      have hO : OrderedFrom P (D ++ L.reverse) B := ho.2
      rw [e3]
      constructor
      · rw [execBlock]
        refine hp.1.bind fun o hoo => ?_
        cases o with
        | none => exact ⟨none, rfl, fun e h => by cases h⟩
        | some e => exact (block_ok hA hP hargs hI hplan B (D ++ L.reverse) e (hoo e rfl) hO (List.nodup_cons.1 hn).2 hB').1
      · obtain ⟨rest, o, h1, e, rfl, h2⟩ := hp.2
        obtain ⟨_, plan', k2, k3⟩ := block_ok hA hP hargs hI hplan B (D ++ L.reverse) e h2 hO (List.nodup_cons.1 hn).2 hB'
        refine ⟨fun it => if it = .pipe L.reverse then { plan it with sched := (plan it).sched ++ rest } else plan' it, fun it => ?_, ?_⟩
        · by_cases hit : it = .pipe L.reverse
          · simp only [hit, if_true]
            exact ⟨trivial, trivial, List.prefix_append _ _⟩
          · simp only [if_neg hit]
            exact k2 it
        · rw [execBlock]
          simp only [if_true]
          rw [h1, Res.ok_bind]
          simp only []
          have hsame : ∀ (C : List Item) (e : Env α), Item.pipe L.reverse ∉ C →
              execBlock A less ofIdx blas junk impl P argObjs (fun it => if it = .pipe L.reverse then { plan it with sched := (plan it).sched ++ rest } else plan' it) C e =
              execBlock A less ofIdx blas junk impl P argObjs plan' C e := by
            intro C
            induction C with
            | nil => intro e _; rfl
            | cons it C ih =>
              intro e hnot
              have hne : it ≠ .pipe L.reverse := fun h => hnot (by simp [h])
              have hC : Item.pipe L.reverse ∉ C := fun h => hnot (by simp [h])
              cases it with
              | one i =>
                rw [execBlock, execBlock]
                cases execOne A less ofIdx blas junk impl P argObjs e i with
                | error er => rfl
                | ok e' => exact ih e' hC
              | pipe b =>
                rw [execBlock, execBlock]
                simp only [if_neg hne]
                cases execPipe A less ofIdx blas junk P argObjs (plan' (.pipe b)) e b with
                | error er => rfl
                | ok o =>
                  cases o with
                  | none => rfl
                  | some e' => exact ih e' hC
          rw [hsame B e (List.nodup_cons.1 hn).1]
          exact k3
end

/-- C167. The vectorization pass does not change what a program computes. For every block (in SSA form) of vectorizable and other operations whose
operands have shapes the operations accept: if no fusible intermediate result is shared and the pipelines can be ordered (`Fusible`), the pass
succeeds, keeps all operations, and puts every vectorizable operation into a pipeline; and, however the pipelines are divided into tasks and
batches and however their threads are interleaved, the execution of the new block never fails, can always be completed, and when it is
complete, the object of every operation represents the matrix that the original program computes. -/
theorem C167_vectorization_preserves_results (hA : Laws A) (less : α → α → Bool) (ofIdx : Nat → α) (blas : Bool) (junk : Nat → α)
    (P : Prog α) (args : List (Mat α)) (argObjs : List (DM α)) (impl : Nat → List (DM α) → Res (DM α)) (ρ : Nat → Nat)
    (hP : Fine A P args) (hF : Fusible P ρ) (hargs : List.Forall₂ DM.Is argObjs args) (hI : ImplOk A P args impl)
    (plan : Item → Plan) (hplan : ∀ it, (plan it).Valid) :
    Res.Ok (vectorize P) fun B => (opsOf B).Perm (List.range P.length) ∧ (∀ i, Item.one i ∈ B → cand P i = false) ∧
      Res.Ok (execBlock A less ofIdx blas junk impl P argObjs plan B fun _ => none) (fun o => ∀ env, o = some env →
        ∀ i, i < P.length → ∃ x, env i = some x ∧ x.Is (val A P args i)) ∧
      ∃ plan' : Item → Plan, (∀ it, (plan' it).tiles = (plan it).tiles ∧ (plan' it).batch = (plan it).batch ∧ (plan it).sched <+: (plan' it).sched) ∧
        Res.Ok (execBlock A less ofIdx blas junk impl P argObjs plan' B fun _ => none) fun o => ∃ env, o = some env ∧
          ∀ i, i < P.length → ∃ x, env i = some x ∧ x.Is (val A P args i) := by
  obtain ⟨hg, _⟩ := pipelines_ok hP.ssa hF.noSharing
  refine (vectorize_ok hP.ssa hF).mono fun B hB => ?_
  obtain ⟨h1, h2, h3⟩ := hB
  have hnd : (opsOf B).Nodup := h2.nodup_iff.2 List.nodup_range
  have hne : ∀ it ∈ B, it.ops ≠ [] := by
    intro it hit
    rcases h3 it hit with ⟨i, _, _, rfl⟩ | ⟨L, hL, rfl⟩
    · simp [Item.ops]
    · simpa [Item.ops] using (hg L hL).ne_nil
  have hBn : B.Nodup := by
    refine (pos_pairwise hnd).imp_of_mem fun {a b} ha _ hlt e => ?_
    subst e
    obtain ⟨i, hi⟩ := List.exists_mem_of_ne_nil _ (hne a ha)
    exact absurd (hlt i hi i hi) (Nat.lt_irrefl _)
  obtain ⟨k1, plan', k2, k3⟩ := block_ok less ofIdx blas junk hA hP hargs hI hplan B [] (fun _ => none) (fun i hi => by simp at hi) h1 hBn
    (fun it hit => by
      rcases h3 it hit with ⟨i, hi, _, rfl⟩ | ⟨L, hL, rfl⟩
      · exact .inl ⟨i, hi, rfl⟩
      · exact .inr ⟨L, hg L hL, rfl, hF.rowUse L hL⟩)
  have hall : ∀ e : Env α, EnvOk A P args ([] ++ opsOf B) e → ∀ i, i < P.length → ∃ x, e i = some x ∧ x.Is (val A P args i) := fun e he i hi =>
    he i (by rw [List.nil_append]; exact h2.mem_iff.2 (List.mem_range.2 hi))
  refine ⟨h2, fun i hi => ?_, k1.mono fun o h e he => hall e (h e he), plan', k2, k3.mono fun o ⟨e, h, he⟩ => ⟨e, h, hall e he⟩⟩
  rcases h3 _ hi with ⟨k, _, h, e⟩ | ⟨L, _, e⟩
  · injection e with e; rw [e]; exact h
  · cases e

/-- C167 for programs in which each fusible result is used once: no further condition on the structure. -/
theorem C167_single_use (hA : Laws A) (less : α → α → Bool) (ofIdx : Nat → α) (blas : Bool) (junk : Nat → α)
    (P : Prog α) (args : List (Mat α)) (argObjs : List (DM α)) (impl : Nat → List (DM α) → Res (DM α))
    (hP : Fine A P args) (hF : SingleUse P) (hargs : List.Forall₂ DM.Is argObjs args) (hI : ImplOk A P args impl)
    (plan : Item → Plan) (hplan : ∀ it, (plan it).Valid) :
    Res.Ok (vectorize P) fun B => (opsOf B).Perm (List.range P.length) ∧ (∀ i, Item.one i ∈ B → cand P i = false) ∧
      Res.Ok (execBlock A less ofIdx blas junk impl P argObjs plan B fun _ => none) (fun o => ∀ env, o = some env →
        ∀ i, i < P.length → ∃ x, env i = some x ∧ x.Is (val A P args i)) ∧
      ∃ plan' : Item → Plan, (∀ it, (plan' it).tiles = (plan it).tiles ∧ (plan' it).batch = (plan it).batch ∧ (plan it).sched <+: (plan' it).sched) ∧
        Res.Ok (execBlock A less ofIdx blas junk impl P argObjs plan' B fun _ => none) fun o => ∃ env, o = some env ∧
          ∀ i, i < P.length → ∃ x, env i = some x ∧ x.Is (val A P args i) :=
  C167_vectorization_preserves_results hA less ofIdx blas junk P args argObjs impl (headOf P) hP (hF.fusible hP.ssa) hargs hI plan hplan

end Verif.Fuse
