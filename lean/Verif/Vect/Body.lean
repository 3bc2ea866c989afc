/-
  Pipelines of several operations: the body of a `VectorizedPipelineOp` as the vectorization pass creates it
  (src/compiler/lowering/VectorizeComputationsPass.cpp:207-349), executed by the multi-threaded engine (Model.lean) with the real kernels.
-/
import Verif.Vect.Split
import Verif.Vect.Term

namespace Verif.Vect
open Verif Verif.Dense
variable {α : Type}

/-- An operand inside the body: a block argument (input of the pipeline) or the result of an earlier operation of the body. -/
inductive Src
  | inp (i : Nat)
  | res (j : Nat)

/-- An operation of the body. -/
structure Node (α : Type) where
  op : VOp α
  args : List Src

/-- The value of an operand. -/
def Src.look {β : Type} (d : β) (ins rs : List β) : Src → β
  | .inp i => ins.getD i d
  | .res j => rs.getD j d

/-- An empty matrix, for operands that do not exist. -/
def noMat (A : Agg.VT α) : Mat α := ⟨0, 0, fun _ _ => A.zero⟩

/-- The results of the operations, one after the other, on whole matrices; `rs` are the results so far. -/
def runBody (A : Agg.VT α) (ins : List (Mat α)) : List (Node α) → List (Mat α) → List (Mat α)
  | [], rs => rs
  | n :: ns, rs => runBody A ins ns (rs ++ [n.op.value A (n.args.map (Src.look (noMat A) ins rs))])

/-- No operation is applied to shapes it does not accept. -/
def FitsFrom (A : Agg.VT α) (ins : List (Mat α)) : List (Node α) → List (Mat α) → Prop
  | [], _ => True
  | n :: ns, rs => n.op.Fits (n.args.map (Src.look (noMat A) ins rs)) ∧
    FitsFrom A ins ns (rs ++ [n.op.value A (n.args.map (Src.look (noMat A) ins rs))])

/-- The same with the kernels on objects: the function the pipeline body is compiled to, and also the execution without vectorization. -/
def execBody (A : Agg.VT α) (less : α → α → Bool) (ofIdx : Nat → α) (blas : Bool) (junk : Nat → α) (ins : List (DM α)) :
    List (Node α) → List (DM α) → Res (List (DM α))
  | [], rs => .ok rs
  | n :: ns, rs => do
    let x ← n.op.exec A less ofIdx blas junk (n.args.map (Src.look (DM.create 0 0 junk) ins rs))
    execBody A less ofIdx blas junk ins ns (rs ++ [x])

/-- The declared output sizes of all operations, VectorizeComputationsPass.cpp:237-240 (sizes of operands inside the pipeline are those
declared for them, 332-349). -/
def sizesBody (ins : List (Nat × Nat)) : List (Node α) → List (Nat × Nat) → List (Nat × Nat)
  | [], rs => rs
  | n :: ns, rs => sizesBody ins ns (rs ++ [n.op.outSize (n.args.map (Src.look (0, 0) ins rs))])

/-- How an operand may be used (VectorizeComputationsPass.cpp:135-182, 221-229): a block argument has the split that the operation
declares for it; a result of an earlier operation is combined by rows and split by rows again. -/
def SrcOk (ss : List Split) (ops : List (VOp α)) : Src → Split → Prop
  | .inp i, s => ss[i]? = some s
  | .res j, s => s = .rows ∧ ∃ op, ops[j]? = some op ∧ op.combine = .rows

/-- Row-split block arguments have `len` rows, or are row vectors used as such. -/
def ArgRows (len : Nat) (ins : List (Inp α)) (n : Node α) : Prop :=
  ∀ p i x, n.args[p]? = some (.inp i) → ins[i]? = some x → x.split = .rows → x.mat.rows = len ∨ (n.op.broadcasts p = true ∧ x.mat.rows = 1)

/-- The body is one that the pass may create. -/
def WellSplit (len : Nat) (ins : List (Inp α)) : List (Node α) → List (VOp α) → Prop
  | [], _ => True
  | n :: ns, ops => List.Forall₂ (SrcOk (ins.map (·.split)) ops) n.args n.op.splits ∧ ArgRows len ins n ∧ ¬ n.op.isXXt ∧
    WellSplit len ins ns (ops ++ [n.op])

/-- The pipeline as the engine executes it. -/
def bodyPipe (A : Agg.VT α) (less : α → α → Bool) (ofIdx : Nat → α) (blas : Bool) (junk : Nat → α) (objs : List (InObj α)) (body : List (Node α)) :
    Pipe α where
  func := fun xs => do
    let rs ← execBody A less ofIdx blas junk xs body []
    .ok fun o => rs.getD o (DM.create 0 0 junk)
  inputs := objs
  numOutputs := body.length
  combine := fun o => ((body.map (·.op.combine))[o]?).getD .rows
  addOp := A.ap .add
  minOp := A.ap .min
  maxOp := A.ap .max

/-- The allocated outputs. -/
def bodyOutputs (A : Agg.VT α) (junk : Nat → α) (objs : List (InObj α)) (body : List (Node α)) : Outs α := fun o =>
  let sz := (sizesBody (objs.map fun x => (x.obj.numRows, x.obj.numCols)) body []).getD o (0, 0)
  allocateOutput A.zero A.bot A.top junk (((body.map (·.op.combine))[o]?).getD .rows) (some sz.1) (some sz.2)

/-! ### Facts on lists -/

theorem forall₂_map {β γ δ ε : Type} {R : β → γ → Prop} {S : δ → ε → Prop} {f : β → δ} {g : γ → ε} {l : List β} {m : List γ}
    (h : List.Forall₂ R l m) (hs : ∀ a b, a ∈ l → R a b → S (f a) (g b)) : List.Forall₂ S (l.map f) (m.map g) := by
  induction h with
  | nil => exact .nil
  | cons h t ih => exact .cons (hs _ _ (by simp) h) (ih fun a b ha => hs a b (by simp [ha]))

theorem forall₂_getD {β γ : Type} {R : β → γ → Prop} {l : List β} {m : List γ} (h : List.Forall₂ R l m) {d : β} {e : γ} (hd : R d e) (i : Nat) :
    R (l.getD i d) (m.getD i e) := by
  induction h generalizing i with
  | nil => simpa using hd
  | cons h t ih =>
    cases i with
    | zero => simpa using h
    | succ i => simpa using ih i

theorem runBody_length (A : Agg.VT α) (ins : List (Mat α)) : ∀ (ns : List (Node α)) (rs : List (Mat α)),
    (runBody A ins ns rs).length = rs.length + ns.length
  | [], rs => by simp [runBody]
  | n :: ns, rs => by rw [runBody, runBody_length A ins ns]; simp; omega

theorem sizesBody_eq (A : Agg.VT α) (ins : List (Mat α)) : ∀ (ns : List (Node α)) (rs : List (Mat α)), FitsFrom A ins ns rs →
    sizesBody (ins.map fun a => (a.rows, a.cols)) ns (rs.map fun a => (a.rows, a.cols)) = (runBody A ins ns rs).map fun a => (a.rows, a.cols)
  | [], _, _ => rfl
  | n :: ns, rs, h => by
    have hl : ∀ s : Src, Src.look (0, 0) (ins.map fun a => (a.rows, a.cols)) (rs.map fun a => (a.rows, a.cols)) s =
        ((Src.look (noMat A) ins rs s).rows, (Src.look (noMat A) ins rs s).cols) := by
      have hg : ∀ (l : List (Mat α)) i, (l.map fun a => (a.rows, a.cols)).getD i (0, 0) = ((l.getD i (noMat A)).rows, (l.getD i (noMat A)).cols) := by
        intro l
        induction l with
        | nil => intro i; simp [noMat]
        | cons a l ih => intro i; cases i with
          | zero => simp
          | succ i => simpa using ih i
      rintro (i | j)
      · exact hg ins i
      · exact hg rs j
    rw [sizesBody, runBody, ← sizesBody_eq A ins ns _ h.2]
    congr 1
    rw [List.map_append]
    congr 1
    simp only [List.map_cons, List.map_nil]
    rw [← outSize_ok A n.op h.1, List.map_map]
    congr 2
    exact List.map_congr_left fun s _ => hl s

/-- The kernels compute the body. -/
theorem execBody_ok {A : Agg.VT α} (hA : Laws A) (less : α → α → Bool) (ofIdx : Nat → α) (blas : Bool) (junk : Nat → α) {xs : List (DM α)}
    {ins : List (Mat α)} (h : List.Forall₂ DM.Is xs ins) : ∀ (ns : List (Node α)) {ds : List (DM α)} {rs : List (Mat α)},
    List.Forall₂ DM.Is ds rs → FitsFrom A ins ns rs → Res.Ok (execBody A less ofIdx blas junk xs ns ds) fun ys =>
      List.Forall₂ DM.Is ys (runBody A ins ns rs)
  | [], ds, rs, hr, _ => ⟨ds, rfl, hr⟩
  | n :: ns, ds, rs, hr, hf => by
    have hd : (DM.create 0 0 junk).Is (noMat A) := is_new (m := (⟨0 * 0, junk⟩ : Buf α)) rfl fun r c hr _ => absurd hr (Nat.not_lt_zero _)
    have hargs : List.Forall₂ DM.Is (n.args.map (Src.look (DM.create 0 0 junk) xs ds)) (n.args.map (Src.look (noMat A) ins rs)) := by
      generalize n.args = l
      induction l with
      | nil => exact .nil
      | cons s l ih =>
        refine .cons ?_ ih
        cases s with
        | inp i => exact forall₂_getD h hd i
        | res j => exact forall₂_getD hr hd j
    rw [execBody, runBody]
    refine (exec_ok hA less ofIdx blas junk n.op hargs hf.1).bind fun x hx => ?_
    refine execBody_ok hA less ofIdx blas junk h ns ?_ hf.2
    exact List.rel_append hr (.cons hx .nil)

/-! ### Blocks of rows through the body -/

/-- Each result so far keeps the promise of its combine. -/
def Kept (A : Agg.VT α) (len : Nat) (ops : List (VOp α)) (rs : List (Mat α)) (ps : Nat → Nat → List (Mat α)) : Prop :=
  rs.length = ops.length ∧ (∀ r r2, (ps r r2).length = ops.length) ∧
  ∀ j op, ops[j]? = some op → Promise A op.combine len (rs.getD j (noMat A)) fun r r2 => (ps r r2).getD j (noMat A)

theorem body_kept {A : Agg.VT α} (hA : Laws A) {len : Nat} (hlen : 0 < len) (ins : List (Inp α)) :
    ∀ (ns : List (Node α)) (ops : List (VOp α)) (rs : List (Mat α)) (ps : Nat → Nat → List (Mat α)), Kept A len ops rs ps →
    WellSplit len ins ns ops → FitsFrom A (ins.map (·.mat)) ns rs →
    (∀ r r2, r < r2 → r2 ≤ len → FitsFrom A (ins.map (·.part r r2)) ns (ps r r2)) ∧
    Kept A len (ops ++ ns.map (·.op)) (runBody A (ins.map (·.mat)) ns rs) fun r r2 => runBody A (ins.map (·.part r r2)) ns (ps r r2)
  | [], ops, rs, ps, hk, _, _ => ⟨fun _ _ _ _ => trivial, by simpa [runBody] using hk⟩
  | n :: ns, ops, rs, ps, hk, hw, hf => by
    obtain ⟨w1, w2, w3, w4⟩ := hw
    obtain ⟨f1, f2⟩ := hf
    obtain ⟨k1, k2, k3⟩ := hk
    have hin : ∀ i s, (ins.map (·.split))[i]? = some s → ∃ x, ins[i]? = some x ∧ x.split = s ∧ (ins.map (·.mat)).getD i (noMat A) = x.mat ∧
        ∀ r r2, (ins.map (·.part r r2)).getD i (noMat A) = x.part r r2 := by
      intro i s h
      rw [List.getElem?_map] at h
      cases hx : ins[i]? with
      | none => rw [hx] at h; cases h
      | some x =>
        rw [hx] at h
        exact ⟨x, rfl, by simpa using h, by simp [List.getD, hx], fun r r2 => by simp [List.getD, hx]⟩
    have hrows : RowsOk n.op len (n.args.map (Src.look (noMat A) (ins.map (·.mat)) rs)) := by
      intro p s w h1 h2 h3
      rw [List.getElem?_map] at h2
      cases ha : n.args[p]? with
      | none => rw [ha] at h2; cases h2
      | some a =>
        rw [ha] at h2
        obtain rfl : Src.look (noMat A) (ins.map (·.mat)) rs a = w := by simpa using h2
        have hok : SrcOk (ins.map (·.split)) ops a s := by
          have hlen := List.Forall₂.length_eq w1
          have hp : p < n.args.length := (List.getElem?_eq_some_iff.1 ha).1
          have := (List.forall₂_iff_get.1 w1).2 p hp (by omega)
          simp only [List.get_eq_getElem] at this
          rw [List.getElem?_eq_some_iff] at ha h1
          obtain ⟨_, ha⟩ := ha
          obtain ⟨_, h1⟩ := h1
          rw [ha, h1] at this
          exact this
        cases a with
        | inp i =>
          obtain ⟨x, x1, x2, x3, _⟩ := hin i s hok
          have := w2 p i x ha x1 (by rw [x2, h3])
          show ((ins.map (·.mat)).getD i (noMat A)).rows = len ∨ _ ∧ ((ins.map (·.mat)).getD i (noMat A)).rows = 1
          rw [x3]; exact this
        | res j =>
          obtain ⟨_, op, o1, o2⟩ := hok
          have := k3 j op o1
          rw [o2] at this
          exact .inl this.1
    obtain ⟨b1, b2⟩ := blocks_promise hA n.op f1 hrows w3
    have hparts : ∀ r r2, r < r2 → r2 ≤ len → List.Forall₂ Mat.Same
        (blocks n.op.splits len (n.args.map (Src.look (noMat A) (ins.map (·.mat)) rs)) r r2)
        (n.args.map (Src.look (noMat A) (ins.map (·.part r r2)) (ps r r2))) := by
      intro r r2 h1 h2
      have aux : ∀ (as : List Src) (ss : List Split), List.Forall₂ (SrcOk (ins.map (·.split)) ops) as ss →
          (∀ (p : Nat) (s : Split) (w : Mat α), ss[p]? = some s → (as.map (Src.look (noMat A) (ins.map (·.mat)) rs))[p]? = some w → s = .rows → w.rows = len ∨ w.rows = 1) →
          List.Forall₂ Mat.Same (blocks ss len (as.map (Src.look (noMat A) (ins.map (·.mat)) rs)) r r2)
            (as.map (Src.look (noMat A) (ins.map (·.part r r2)) (ps r r2))) := by
        intro as ss hh hr
        induction hh with
        | nil => exact .nil
        | cons h t ih =>
          rename_i a s as ss
          refine .cons ?_ (ih fun p s w hp hw => hr (p + 1) s w (by simpa using hp) (by simpa using hw))
          have h0 := hr 0 s _ rfl rfl
          cases a with
          | inp i =>
            obtain ⟨x, _, x2, x3, x4⟩ := hin i s h
            obtain ⟨xm, xs⟩ := x
            subst x2
            simp only [Src.look, x3, x4] at h0 ⊢
            by_cases hs : xs = .rows
            · subst hs
              by_cases hl : xm.rows = len
              · rw [if_pos ⟨rfl, hl⟩]
                exact Same.symm (part_rows hl h1 h2)
              · rw [if_neg (by simp [hl]), part_one (by have := h0 rfl; omega)]
                exact Same.refl _
            · have : xs = .none := by cases xs; rfl; exact absurd rfl hs
              subst this
              rw [if_neg (by simp), part_none]
              exact Same.refl _
          | res j =>
            obtain ⟨rfl, op, o1, o2⟩ := h
            have hp := k3 j op o1
            rw [o2] at hp
            simp only [Src.look]
            rw [if_pos ⟨by trivial, hp.1⟩]
            exact Same.symm (hp.2 r r2 h1 h2)
      refine aux _ _ w1 fun p s w hp hw hs => ?_
      rcases hrows p s w hp hw hs with h | h
      · exact .inl h
      · exact .inr h.2
    have hval : ∀ r r2, r < r2 → r2 ≤ len → n.op.Fits (n.args.map (Src.look (noMat A) (ins.map (·.part r r2)) (ps r r2))) ∧ _ :=
      fun r r2 h1 h2 => value_same A n.op (hparts r r2 h1 h2) (b1 r r2 h1 h2)
    have hk' : Kept A len (ops ++ [n.op]) (rs ++ [n.op.value A (n.args.map (Src.look (noMat A) (ins.map (·.mat)) rs))]) fun r r2 =>
        ps r r2 ++ [n.op.value A (n.args.map (Src.look (noMat A) (ins.map (·.part r r2)) (ps r r2)))] := by
      refine ⟨by simp [k1], fun r r2 => by simp [k2], fun j op hj => ?_⟩
      by_cases hlt : j < ops.length
      · rw [List.getElem?_append_left hlt] at hj
        have := k3 j op hj
        have e1 : ∀ (l : List (Mat α)) x, l.length = ops.length → (l ++ [x]).getD j (noMat A) = l.getD j (noMat A) := by
          intro l x hl
          simp [List.getD, List.getElem?_append_left (by omega : j < l.length)]
        simp only [e1 _ _ k1, e1 _ _ (k2 _ _)]
        exact this
      · have hj2 : j = ops.length := by
          have := (List.getElem?_eq_some_iff.1 hj).1
          simp at this; omega
        subst hj2
        obtain rfl : n.op = op := by simpa using hj
        have e1 : ∀ (l : List (Mat α)) x, l.length = ops.length → (l ++ [x]).getD ops.length (noMat A) = x := by
          intro l x hl
          simp [List.getD, ← hl]
        simp only [e1 _ _ k1, e1 _ _ (k2 _ _)]
        exact promise_congr (b2 hlen) hlen fun r r2 h1 h2 => Same.symm (hval r r2 h1 h2).2
    obtain ⟨i1, i2⟩ := body_kept hA hlen ins ns (ops ++ [n.op]) _ _ hk' w4 f2
    refine ⟨fun r r2 h1 h2 => ⟨(hval r r2 h1 h2).1, i1 r r2 h1 h2⟩, ?_⟩
    rw [List.append_assoc] at i2
    exact i2

/-! ### C165 -/

/-- The inputs as matrices. -/
abbrev Inp.mats (ins : List (Inp α)) : List (Mat α) := ins.map (·.mat)

theorem body_setup {A : Agg.VT α} (hA : Laws A) (less : α → α → Bool) (ofIdx : Nat → α) (blas : Bool) (junk : Nat → α) {len : Nat} (hlen : 0 < len)
    (objs : List (InObj α)) (ins : List (Inp α)) (body : List (Node α)) (ts : List (Nat × Nat)) (bs : Nat → Nat)
    (hin : List.Forall₂ (fun (i : InObj α) (s : Inp α) => i.obj.Is s.mat ∧ i.split = s.split ∧
      (s.split = .rows → s.mat.rows = 1 ∨ s.mat.rows = len)) objs ins)
    (hw : WellSplit len ins body []) (hf : FitsFrom A (Inp.mats ins) body []) (ht : Spec.Tiles 0 len ts) (hb : ∀ t, 1 ≤ bs t) :
    Setup (bodyPipe A less ofIdx blas junk objs body) ins (fun ms o => (runBody A ms body []).getD o (noMat A)) len ts bs ∧
    ∀ o, o < body.length → OutputOk (bodyPipe A less ofIdx blas junk objs body) ins (fun ms o => (runBody A ms body []).getD o (noMat A)) len o
      (bodyOutputs A junk objs body o) := by
  obtain ⟨k1, k2⟩ := body_kept hA hlen ins body [] [] (fun _ _ => []) ⟨rfl, fun _ _ => rfl, fun j op h => by simp at h⟩ hw hf
  refine ⟨⟨hin, fun r r2 h1 h2 xs hx => ?_, ht, hb⟩, fun o ho => ?_⟩
  · refine (execBody_ok hA less ofIdx blas junk hx body (ds := []) (rs := []) .nil (k1 r r2 h1 h2)).bind fun ys hy => ⟨_, rfl, fun o _ => ?_⟩
    exact forall₂_getD hy (is_new (m := (⟨0 * 0, junk⟩ : Buf α)) rfl fun r c hr _ => absurd hr (Nat.not_lt_zero _)) o
  · obtain ⟨n, hn⟩ : ∃ n, body[o]? = some n := ⟨_, List.getElem?_eq_getElem ho⟩
    have hc : (bodyPipe A less ofIdx blas junk objs body).combine o = n.op.combine := by simp [bodyPipe, hn]
    have hp := k2.2.2 o n.op (by simp [hn])
    simp only [] at hp
    have hsz : (sizesBody (objs.map fun x => (x.obj.numRows, x.obj.numCols)) body []).getD o (0, 0) =
        (((runBody A (Inp.mats ins) body []).getD o (noMat A)).rows, ((runBody A (Inp.mats ins) body []).getD o (noMat A)).cols) := by
      have e : (objs.map fun x => (x.obj.numRows, x.obj.numCols)) = (Inp.mats ins).map fun a => (a.rows, a.cols) := by
        clear hw hf k1 k2 hp hc
        induction hin with
        | nil => rfl
        | cons h t ih =>
          simp only [Inp.mats, List.map_cons] at ih ⊢
          rw [ih]
          have e1 := h.1.rows
          have e2 := h.1.cols
          simp only [DM.numRows, DM.numCols, e1, e2]
      have := sizesBody_eq A (Inp.mats ins) body [] hf
      simp only [List.map_nil] at this
      rw [e, this]
      have hl : o < (runBody A (Inp.mats ins) body []).length := by rw [runBody_length]; simpa using ho
      simp [List.getD, hl]
    have hb : bodyOutputs A junk objs body o = allocateOutput A.zero A.bot A.top junk n.op.combine
        (some ((runBody A (Inp.mats ins) body []).getD o (noMat A)).rows) (some ((runBody A (Inp.mats ins) body []).getD o (noMat A)).cols) := by
      unfold bodyOutputs
      rw [hsz]
      simp [hn]
    rw [hb]
    have tile : n.op.combine = .rows ∨ n.op.combine = .cols → ∀ {r c : Nat}, ∃ x, allocateOutput A.zero A.bot A.top junk n.op.combine (some r) (some c) = some x ∧
        x.WF ∧ x.numRows = r ∧ x.numCols = c := by
      intro h r c
      refine ⟨DM.create r c junk, ?_, ?_, rfl, rfl⟩
      · rcases h with h | h <;> rw [h] <;> rfl
      · exact (is_new (m := (⟨r * c, junk⟩ : Buf α)) (f := fun i j => junk (i * c + j)) rfl fun _ _ _ _ => rfl).wf
    have agg : n.op.combine.isAgg → OutputOk (bodyPipe A less ofIdx blas junk objs body) ins
        (fun ms o => (runBody A ms body []).getD o (noMat A)) len o (allocateOutput A.zero A.bot A.top junk n.op.combine
        (some ((runBody A (Inp.mats ins) body []).getD o (noMat A)).rows) (some ((runBody A (Inp.mats ins) body []).getD o (noMat A)).cols)) := by
      intro ha
      have hcm : ∀ {op : α → α → α} {e : α}, Agg.CMon op e → ∀ v, op e v = v := fun h v => by rw [h.comm, h.unit]
      have hop : (bodyPipe A less ofIdx blas junk objs body).op n.op.combine = combOp A n.op.combine := by
        generalize n.op.combine = c at ha
        cases c <;> first | exact ha.elim | rfl
      have hag : Aggregates (fun ms o => (runBody A ms body []).getD o (noMat A)) ins len o (combOp A n.op.combine) ∧ AC (combOp A n.op.combine) := by
        revert hp
        generalize n.op.combine = c at ha
        intro hp
        cases c with
        | rows => exact ha.elim
        | cols => exact ha.elim
        | add => exact ⟨hp, ⟨hA.sum.mon.assoc, hA.sum.mon.comm⟩⟩
        | min => exact ⟨hp, ⟨hA.min.mon.assoc, hA.min.mon.comm⟩⟩
        | max => exact ⟨hp, ⟨hA.max.mon.assoc, hA.max.mon.comm⟩⟩
      rw [← hc]
      refine C09_allocated_output _ _ _ junk o _ _ ?_ ?_ ?_ (by rw [hc]; exact ha) (by rw [hc, hop]; exact hag.1) (by rw [hc, hop]; exact hag.2)
        (.inr rfl) (.inr rfl)
      · exact hcm hA.sum.mon
      · exact hcm hA.min.mon
      · exact hcm hA.max.mon
    by_cases ha : n.op.combine.isAgg
    · exact agg ha
    · unfold OutputOk
      rw [hc]
      cases hcc : n.op.combine with
      | rows =>
        rw [hcc] at hp tile
        exact ⟨⟨hp.1, fun r r2 h1 h2 => Same.trans (hp.2 r r2 h1 h2) (rowsOf_window _ _ _)⟩, tile (.inl rfl)⟩
      | cols =>
        rw [hcc] at hp tile
        exact ⟨⟨hp.1, fun r r2 h1 h2 => hp.2 r r2 h1 h2⟩, tile (.inr rfl)⟩
      | add => rw [hcc] at ha; exact absurd trivial ha
      | min => rw [hcc] at ha; exact absurd trivial ha
      | max => rw [hcc] at ha; exact absurd trivial ha

/-- C165. A fused pipeline: if the operations of the body are connected as the vectorization pass does it (operands from outside with the
split that the operation declares; operands from inside only between row-combined results and row-split operands), and its row-split
inputs have `len` rows or are row vectors used as such, then, however the `len` rows are divided into tasks and batches and however the
tasks are interleaved, the multi-threaded execution goes through without an error, can always be completed, and delivers for each
operation of the body the same matrix that the operation yields when the kernels are called one after the other on whole matrices. -/
theorem C165_fused_pipeline {A : Agg.VT α} (hA : Laws A) (less : α → α → Bool) (ofIdx : Nat → α) (blas : Bool) (junk : Nat → α) {len : Nat}
    (hlen : 0 < len) (objs : List (InObj α)) (ins : List (Inp α)) (body : List (Node α)) (ts : List (Nat × Nat)) (bs : Nat → Nat)
    (hin : List.Forall₂ (fun (i : InObj α) (s : Inp α) => i.obj.Is s.mat ∧ i.split = s.split ∧
      (s.split = .rows → s.mat.rows = 1 ∨ s.mat.rows = len)) objs ins)
    (hw : WellSplit len ins body []) (hf : FitsFrom A (Inp.mats ins) body []) (ht : Spec.Tiles 0 len ts) (hb : ∀ t, 1 ≤ bs t) (sch : List Nat) :
    Res.Ok (execBody A less ofIdx blas junk (objs.map (·.obj)) body []) (fun ys =>
      List.Forall₂ DM.Is ys (runBody A (Inp.mats ins) body []) ∧
      Res.Ok (run (bodyPipe A less ofIdx blas junk objs body) ts bs (St.init ts (bodyOutputs A junk objs body)) sch) (fun s =>
        s.finished ts.length → ∀ o, o < body.length → ∃ x, s.res o = some x ∧ x.Is ((runBody A (Inp.mats ins) body []).getD o (noMat A)))) ∧
    ∃ rest, Res.Ok (run (bodyPipe A less ofIdx blas junk objs body) ts bs (St.init ts (bodyOutputs A junk objs body)) (sch ++ rest)) (fun s =>
      s.finished ts.length) := by
  obtain ⟨h1, h2⟩ := body_setup hA less ofIdx blas junk hlen objs ins body ts bs hin hw hf ht hb
  refine ⟨?_, C08_C09_completable h1 h2 sch⟩
  have hx : List.Forall₂ DM.Is (objs.map (·.obj)) (Inp.mats ins) := by
    refine forall₂_map hin fun _ _ _ h => h.1
  exact (execBody_ok hA less ofIdx blas junk hx body (ds := []) (rs := []) .nil hf).mono fun ys hy => ⟨hy, finished_result h1 hlen h2 sch⟩

end Verif.Vect
