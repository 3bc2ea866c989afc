/-
  The fused pipeline computes the results of both pipelines.
-/
import Verif.Hor.Exec

namespace Verif.Hor
variable {β : Type}

theorem mapO_some {γ δ : Type} {f : γ → Option δ} : ∀ {l : List γ} {r : List δ}, mapO f l = some r ↔ l.map f = r.map some
  | [], r => by cases r <;> simp [mapO]
  | x :: xs, r => by
    cases hx : f x with
    | none => cases r <;> simp [mapO, hx]
    | some y =>
      cases hxs : mapO f xs with
      | none =>
        cases r with
        | nil => simp [mapO, hx, hxs]
        | cons z zs =>
          have : xs.map f ≠ zs.map some := fun h => by simp [mapO_some.2 h] at hxs
          simp [mapO, hx, hxs, this]
      | some ys =>
        have h1 := mapO_some.1 hxs
        cases r with
        | nil => simp [mapO, hx, hxs]
        | cons z zs =>
          simp only [mapO, hx, hxs, List.map_cons, Option.bind_eq_bind, Option.bind_some, Option.some.injEq, List.cons.injEq, h1]
          constructor
          · rintro ⟨rfl, rfl⟩; exact ⟨rfl, rfl⟩
          · rintro ⟨rfl, h⟩
            exact ⟨rfl, List.map_inj_right (by simp) |>.1 h⟩

theorem mapO_length {γ δ : Type} {f : γ → Option δ} {l : List γ} {r : List δ} (h : mapO f l = some r) : r.length = l.length := by
  have := congrArg List.length (mapO_some.1 h)
  simpa using this.symm

theorem mapO_append {γ δ : Type} {f : γ → Option δ} {l l' : List γ} {r r' : List δ} (h : mapO f l = some r) (h' : mapO f l' = some r') :
    mapO f (l ++ l') = some (r ++ r') := by
  rw [mapO_some] at *
  simp [h, h']

theorem mapO_mono {γ δ : Type} {f g : γ → Option δ} {l : List γ} {r : List δ} (h : mapO f l = some r)
    (hg : ∀ x ∈ l, ∀ y, f x = some y → g x = some y) : mapO g l = some r := by
  rw [mapO_some] at *
  rw [← h]
  refine List.map_congr_left fun x hx => ?_
  have : f x ∈ l.map f := List.mem_map_of_mem hx
  rw [h] at this
  obtain ⟨y, _, e⟩ := List.mem_map.1 this
  rw [← e, hg x hx y e.symm]

theorem mapO_map {γ δ ε : Type} {f : γ → Option δ} (g : ε → γ) (l : List ε) : mapO f (l.map g) = mapO (fun x => f (g x)) l := by
  induction l with
  | nil => rfl
  | cons x xs ih => simp [mapO, ih]

theorem mapO_mem {γ δ : Type} {f : γ → Option δ} {l : List γ} {r : List δ} (h : mapO f l = some r) {x : γ} (hx : x ∈ l) : ∃ y, f x = some y := by
  have : f x ∈ l.map f := List.mem_map_of_mem hx
  rw [mapO_some.1 h] at this
  obtain ⟨y, _, e⟩ := List.mem_map.1 this
  exact ⟨y, e.symm⟩

theorem mapO_ext {γ δ : Type} {f g : γ → Option δ} {l : List γ} (h : ∀ x ∈ l, f x = g x) : mapO f l = mapO g l := by
  induction l with
  | nil => rfl
  | cons x xs ih => rw [mapO, mapO, h x (by simp), ih fun y hy => h y (by simp [hy])]

/-! Block arguments -/

def argIx : Val → Option Nat
  | .arg k => some k
  | .res _ _ => none

/-- Each of the `n` block arguments is used exactly once, in order, and none is returned directly. This is how pipelines leave
    `VectorizeComputationsPass.cpp:298-312`, which takes a new block argument for each operand. -/
structure Linear (b : Body β) (n : Nat) : Prop where
  ops : (b.ops.flatMap (·.args)).filterMap argIx = List.range n
  ret : b.ret.filterMap argIx = []

def shift (d : Nat) : Val → Val
  | .arg k => .arg (d + k)
  | .res i j => .res i j

def BOp.shift (d : Nat) (o : BOp β) : BOp β := { o with args := o.args.map (Hor.shift d) }

theorem renum_shift : ∀ (vs : List Val) (c k d : Nat), vs.filterMap argIx = List.range' c k → renum (d + c) vs = (vs.map (shift d), d + c + k)
  | [], c, k, d, h => by
    have : k = 0 := by simpa using congrArg List.length h.symm
    simp [renum, this]
  | .arg i :: vs, c, k, d, h => by
    cases k with
    | zero => simp [argIx] at h
    | succ k =>
      simp only [argIx, List.filterMap_cons, List.range'_succ, List.cons.injEq] at h
      obtain ⟨rfl, h⟩ := h
      have := renum_shift vs (i + 1) k d h
      simp only [renum, ← Nat.add_assoc] at this ⊢
      rw [this]
      simp [shift]; omega
  | .res i j :: vs, c, k, d, h => by
    have := renum_shift vs c k d (by rw [← h]; exact (List.filterMap_cons_none rfl).symm)
    simp [renum, this, shift]

theorem range'_split {c n : Nat} {l l' : List Nat} (h : l ++ l' = List.range' c n) :
    ∃ k, k ≤ n ∧ l = List.range' c k ∧ l' = List.range' (c + k) (n - k) := by
  have hlen : l.length + l'.length = n := by simpa using congrArg List.length h
  have e : List.range' c n = List.range' c l.length ++ List.range' (c + l.length) (n - l.length) := by
    have := List.range'_append (s := c) (m := l.length) (n := n - l.length) (step := 1)
    rw [Nat.one_mul] at this
    rw [this]; congr 1; omega
  rw [e] at h
  obtain ⟨h1, h2⟩ := List.append_inj h (by simp)
  exact ⟨l.length, by omega, h1, h2⟩

theorem renumOps_shift : ∀ (os : List (BOp β)) (c k d : Nat), (os.flatMap (·.args)).filterMap argIx = List.range' c k →
    renumOps (d + c) os = (os.map (·.shift d), d + c + k)
  | [], c, k, d, h => by
    have : k = 0 := by simpa using congrArg List.length h.symm
    simp [renumOps, this]
  | o :: os, c, k, d, h => by
    simp only [List.flatMap_cons, List.filterMap_append] at h
    obtain ⟨m, hm, h1, h2⟩ := range'_split h
    have e1 := renum_shift o.args c m d h1
    have e2 := renumOps_shift os (c + m) (k - m) d h2
    rw [← Nat.add_assoc] at e2
    simp only [renumOps, e1, e2, List.map_cons, BOp.shift]
    congr 1; omega

theorem ret_shift {b : Body β} {n : Nat} (h : Linear b n) (c : Nat) : renum c b.ret = (b.ret, c) := by
  have := renum_shift b.ret 0 0 c (by simpa using h.ret)
  have e : b.ret.map (shift c) = b.ret := by
    refine (List.map_congr_left fun v hv => ?_).trans (List.map_id _)
    cases v with
    | res i j => rfl
    | arg k =>
      have : k ∈ b.ret.filterMap argIx := List.mem_filterMap.2 ⟨_, hv, rfl⟩
      simp [h.ret] at this
  simpa [e] using this

theorem shift_zero : (shift 0 : Val → Val) = id := by funext v; cases v <;> simp [shift]

theorem BOp.shift_zero (o : BOp β) : o.shift 0 = o := by simp [BOp.shift, Hor.shift_zero]

theorem mergeBody_eq {b c : Body β} {n m : Nat} (hb : Linear b n) (hc : Linear c m) :
    mergeBody b c = ⟨b.ops ++ c.ops.map (·.shift n), b.ret ++ c.ret⟩ := by
  have h1 := renumOps_shift b.ops 0 n 0 (by simpa [List.range_eq_range'] using hb.ops)
  have h2 := renumOps_shift c.ops 0 m n (by simpa [List.range_eq_range'] using hc.ops)
  simp only [Nat.add_zero, Nat.zero_add] at h1 h2
  simp only [mergeBody, h1, ret_shift hb, h2, ret_shift hc]
  have : b.ops.map (·.shift 0) = b.ops := by
    rw [show (fun o : BOp β => o.shift 0) = id from funext BOp.shift_zero, List.map_id]
  rw [this]

theorem argIx_shift (d : Nat) (vs : List Val) : (vs.map (shift d)).filterMap argIx = (vs.filterMap argIx).map (d + ·) := by
  induction vs with
  | nil => rfl
  | cons v vs ih =>
    cases v with
    | arg k => simp [shift, argIx, ih]
    | res i j =>
      rw [List.map_cons, List.filterMap_cons_none (show argIx (shift d (Val.res i j)) = none from rfl), List.filterMap_cons_none (show argIx (Val.res i j) = none from rfl), ih]

theorem Linear.merge {b c : Body β} {n m : Nat} (hb : Linear b n) (hc : Linear c m) : Linear (mergeBody b c) (n + m) := by
  rw [mergeBody_eq hb hc]
  constructor
  · simp only [List.flatMap_append, List.filterMap_append, hb.ops]
    have : ((c.ops.map (·.shift n)).flatMap (·.args)).filterMap argIx = (List.range m).map (n + ·) := by
      rw [← hc.ops, ← argIx_shift, List.flatMap_map, List.map_flatMap]
      rfl
    rw [this, List.range_add]
  · simp [hb.ret, hc.ret]

/-! Execution -/

/-- Everything defined in `V` is defined in the same way in `W`. -/
def Ext (V W : Env β) : Prop := ∀ i rs, V i = some rs → W i = some rs

theorem Ext.look {V W : Env β} (h : Ext V W) {as as' : List β} {d : Nat} (ha : ∀ k x, as[k]? = some x → as'[d + k]? = some x) {v : Val} {x : β}
    (hx : look as V v = some x) : look as' W (shift d v) = some x := by
  cases v with
  | arg k => exact ha k x hx
  | res i j =>
    simp only [Hor.look, Option.bind_eq_some_iff, shift] at hx ⊢
    obtain ⟨rs, h1, h2⟩ := hx
    exact ⟨rs, h i rs h1, h2⟩

theorem Ext.put {V W : Env β} (h : Ext V W) (i : Nat) (rs : List β) : Ext (V.put i rs) (W.put i rs) := by
  intro k ss hk
  simp only [Env.put] at hk ⊢
  split
  · rename_i e; simpa [e] using hk
  · rename_i e; exact h k ss (by simpa [e] using hk)

theorem runOps_shift {as as' : List β} {d : Nat} (ha : ∀ k x, as[k]? = some x → as'[d + k]? = some x) :
    ∀ (os : List (BOp β)) (V V' W : Env β), runOps as os V = some W → Ext V V' →
      ∃ W', runOps as' (os.map (·.shift d)) V' = some W' ∧ Ext W W' ∧ ∀ i, (∀ o ∈ os, o.id ≠ i) → W' i = V' i
  | [], V, V', W, h, he => by
    simp only [runOps, Option.some.injEq] at h
    subst h
    exact ⟨V', rfl, he, fun _ _ => rfl⟩
  | o :: os, V, V', W, h, he => by
    simp only [runOps, Option.bind_eq_bind, Option.bind_eq_some_iff] at h
    obtain ⟨xs, h1, h2⟩ := h
    obtain ⟨W', h3, h4, h5⟩ := runOps_shift ha os _ (V'.put o.id (o.fn xs)) W h2 (he.put _ _)
    have h6 : mapO (look as' V') (o.shift d).args = some xs := by
      simp only [BOp.shift, mapO_map]
      exact mapO_mono h1 fun v _ y hy => he.look ha hy
    refine ⟨W', ?_, h4, fun i hi => ?_⟩
    · simp only [List.map_cons, runOps, h6, Option.bind_eq_bind, Option.bind_some]
      exact h3
    · rw [h5 i fun o' ho' => hi o' (by simp [ho'])]
      have := hi o (by simp)
      simp [Env.put, Ne.symm this]

theorem runOps_append (as : List β) : ∀ (os os' : List (BOp β)) (V : Env β),
    runOps as (os ++ os') V = (runOps as os V).bind (runOps as os')
  | [], os', V => by simp [runOps]
  | o :: os, os', V => by
    simp only [List.cons_append, runOps, Option.bind_eq_bind]
    cases mapO (look as V) o.args with
    | none => simp
    | some xs => simp [runOps_append as os os']

theorem shift_ops_id (os : List (BOp β)) : os.map (·.shift 0) = os := by
  rw [show (fun o : BOp β => o.shift 0) = id from funext BOp.shift_zero, List.map_id]

/-- The merged body on the inputs of both returns the results of both. -/
theorem runBody_merge {b c : Body β} {n m : Nat} (hb : Linear b n) (hc : Linear c m) {as as' rs rs' : List β} (hn : as.length = n)
    (hd : ∀ o ∈ b.ops, ∀ o' ∈ c.ops, o'.id ≠ o.id) (h : runBody b as = some rs) (h' : runBody c as' = some rs') :
    runBody (mergeBody b c) (as ++ as') = some (rs ++ rs') := by
  rw [mergeBody_eq hb hc]
  simp only [runBody, Option.bind_eq_bind, Option.bind_eq_some_iff] at h h' ⊢
  obtain ⟨V, h1, h2⟩ := h
  obtain ⟨W, h3, h4⟩ := h'
  have ha : ∀ k x, as[k]? = some x → (as ++ as')[0 + k]? = some x := fun k x hx => by
    rw [Nat.zero_add, List.getElem?_append_left (List.getElem?_eq_some_iff.1 hx).1, hx]
  have ha' : ∀ k x, as'[k]? = some x → (as ++ as')[n + k]? = some x := fun k x hx => by
    rw [List.getElem?_append_right (by omega), ← hx]; congr 1; omega
  obtain ⟨V', e1, e2, _⟩ := runOps_shift ha b.ops _ (fun _ => none) V h1 (fun _ _ h => h)
  obtain ⟨W', e3, e4, e5⟩ := runOps_shift ha' c.ops _ V' W h3 (fun _ _ h => by simp at h)
  rw [shift_ops_id] at e1
  refine ⟨W', by rw [runOps_append, e1]; exact e3, mapO_append ?_ ?_⟩
  · refine mapO_mono h2 fun v hv y hy => ?_
    cases v with
    | arg k => have := ha k y hy; simpa [look] using this
    | res i j =>
      simp only [look, Option.bind_eq_some_iff] at hy ⊢
      obtain ⟨qs, g1, g2⟩ := hy
      refine ⟨qs, ?_, g2⟩
      rw [e5 i fun o' ho' hid => ?_, e2 i qs g1]
      -- `i` is defined by the first body
      have : ∀ (os : List (BOp β)) (U U' : Env β), runOps as os U = some U' → (∀ o ∈ os, o.id ≠ i) → U' i = U i := by
        intro os
        induction os with
        | nil => intro U U' hU _; simp only [runOps, Option.some.injEq] at hU; rw [hU]
        | cons o os ih =>
          intro U U' hU hne
          simp only [runOps, Option.bind_eq_bind, Option.bind_eq_some_iff] at hU
          obtain ⟨xs, _, hU⟩ := hU
          rw [ih _ _ hU fun o ho => hne o (by simp [ho])]
          simp [Env.put, Ne.symm (hne o (by simp))]
      have hex : ∃ o ∈ b.ops, o.id = i := by
        refine Classical.byContradiction fun hcon => ?_
        have := this b.ops _ V h1 fun o ho he => hcon ⟨o, ho, he⟩
        rw [this] at g1
        simp at g1
      obtain ⟨o, ho, ho2⟩ := hex
      exact hd o ho o' ho' (hid.trans ho2.symm)
  · refine mapO_mono h4 fun v hv y hy => ?_
    cases v with
    | arg k =>
      have : k ∈ c.ret.filterMap argIx := List.mem_filterMap.2 ⟨_, hv, rfl⟩
      simp [hc.ret] at this
    | res i j =>
      have := e4.look ha' (v := .res i j) hy
      exact this

/-! Pipelines -/

/-- A well-formed pipeline: as many splits as inputs, as many sizes and returned values as results; block arguments as created by the
    vectorization. -/
structure Pipe.Wf (p : Pipe β) : Prop where
  splits : p.splits.length = p.ins.length
  rows : p.outRows.length = p.combs.length
  cols : p.outCols.length = p.combs.length
  ret : p.body.ret.length = p.combs.length
  lin : Linear p.body p.ins.length

theorem Pipe.Wf.merge {p q : Pipe β} (hp : p.Wf) (hq : q.Wf) : (mergePipe p q).Wf := by
  have := hp.lin.merge hq.lin
  refine ⟨?_, ?_, ?_, ?_, ?_⟩
  · simp [mergePipe, hp.splits, hq.splits]
  · simp [mergePipe, hp.rows, hq.rows]
  · simp [mergePipe, hp.cols, hq.cols]
  · simp [mergePipe, mergeBody_eq hp.lin hq.lin, hp.ret, hq.ret]
  · simpa [mergePipe] using this

theorem zip_app {γ δ : Type} {a a' : List γ} {b b' : List δ} (h : a.length = b.length) : (a ++ a').zip (b ++ b') = a.zip b ++ a'.zip b' :=
  List.zip_append h

theorem foldl_numRows (E : Engine β) (l : List (Bool × β)) (n : Nat) :
    l.foldl (fun n x => if x.1 then Nat.max n (E.rows x.2) else n) n =
      Nat.max n (l.foldl (fun n x => if x.1 then Nat.max n (E.rows x.2) else n) 0) := by
  induction l generalizing n with
  | nil => simp
  | cons x l ih =>
    simp only [List.foldl_cons]
    rw [ih]
    conv => rhs; rw [ih]
    cases x.1 with
    | true => simp
    | false => simp

theorem numRows_append (E : Engine β) {s s' : List Bool} {i i' : List β} (h : s.length = i.length) :
    numRows E (s ++ s') (i ++ i') = Nat.max (numRows E s i) (numRows E s' i') := by
  simp only [numRows, zip_app h, List.foldl_append]
  rw [foldl_numRows]

/-- The results of the fused pipeline are those of the two pipelines, if both split the same number of rows. -/
theorem runPipe_merge {E : Engine β} {p q : Pipe β} (hp : p.Wf) (hq : q.Wf) (hd : ∀ o ∈ p.body.ops, ∀ o' ∈ q.body.ops, o'.id ≠ o.id)
    {ins rows cols ins' rows' cols' vs vs' : List β} (hi : ins.length = p.ins.length) (hr : rows.length = p.outRows.length)
    (hc : cols.length = p.outCols.length) (hn : numRows E p.splits ins = numRows E q.splits ins')
    (h : runPipe E p ins rows cols = some vs) (h' : runPipe E q ins' rows' cols' = some vs') :
    runPipe E (mergePipe p q) (ins ++ ins') (rows ++ rows') (cols ++ cols') = some (vs ++ vs') := by
  simp only [runPipe, Option.bind_eq_bind, Option.bind_eq_some_iff] at h h' ⊢
  obtain ⟨ps, h1, h2⟩ := h
  obtain ⟨qs, h3, h4⟩ := h'
  have hlen : p.splits.length = ins.length := by rw [hp.splits, hi]
  have e1 : numRows E (mergePipe p q).splits (ins ++ ins') = numRows E p.splits ins := by
    simp only [mergePipe]
    rw [numRows_append E hlen, ← hn]; simp
  have e2 : ∀ t, taskInputs E (mergePipe p q).splits (ins ++ ins') t = taskInputs E p.splits ins t ++ taskInputs E q.splits ins' t := fun t => by
    simp only [mergePipe, taskInputs, zip_app hlen, List.map_append]
  have e3 : ∀ t, (taskInputs E p.splits ins t).length = p.ins.length := fun t => by
    simp [taskInputs, hlen, hi]
  rw [e1]
  rw [← hn] at h3
  -- all tasks
  have key : ∀ (l : List (Nat × Nat)) (ps qs : List (List β)),
      mapO (fun t => runBody p.body (taskInputs E p.splits ins t)) l = some ps → mapO (fun t => runBody q.body (taskInputs E q.splits ins' t)) l = some qs →
      ∃ rs, mapO (fun t => runBody (mergePipe p q).body (taskInputs E (mergePipe p q).splits (ins ++ ins') t)) l = some rs ∧
        (∀ j, j < p.combs.length → rs.filterMap (fun (vs : List β) => vs[j]?) = ps.filterMap fun (vs : List β) => vs[j]?) ∧
        ∀ j, rs.filterMap (fun (vs : List β) => vs[p.combs.length + j]?) = qs.filterMap fun (vs : List β) => vs[j]? := by
    intro l
    induction l with
    | nil =>
      intro ps qs h1 h3
      simp only [mapO, Option.some.injEq] at h1 h3
      subst h1; subst h3
      exact ⟨[], rfl, fun _ _ => rfl, fun _ => rfl⟩
    | cons t l ih =>
      intro ps qs h1 h3
      simp only [mapO, Option.bind_eq_bind, Option.bind_eq_some_iff, Option.some.injEq] at h1 h3
      obtain ⟨y, g1, ys, g2, rfl⟩ := h1
      obtain ⟨z, g3, zs, g4, rfl⟩ := h3
      obtain ⟨rs, k1, k2, k3⟩ := ih ys zs g2 g4
      have hm : runBody (mergePipe p q).body (taskInputs E (mergePipe p q).splits (ins ++ ins') t) = some (y ++ z) := by
        rw [e2]
        exact runBody_merge hp.lin hq.lin (e3 t) hd g1 g3
      have hy : y.length = p.combs.length := by
        simp only [runBody, Option.bind_eq_bind, Option.bind_eq_some_iff] at g1
        obtain ⟨V, _, g⟩ := g1
        rw [mapO_length g, hp.ret]
      refine ⟨(y ++ z) :: rs, by simp [mapO, hm, k1], fun j hj => ?_, fun j => ?_⟩
      · simp only [List.filterMap_cons, k2 j hj, List.getElem?_append_left (hy ▸ hj)]
      · simp only [List.filterMap_cons, k3 j]
        rw [List.getElem?_append_right (by omega)]
        congr 1
        rw [hy]; simp
  obtain ⟨rs, k1, k2, k3⟩ := key _ ps qs h1 h3
  refine ⟨rs, k1, ?_⟩
  simp only [Option.some.injEq] at h2 h4 ⊢
  subst h2; subst h4
  have hz : rows.length = cols.length := by rw [hr, hc, hp.rows, hp.cols]
  have hcz : p.combs.length = (rows.zip cols).length := by simp [hr, hc, hp.rows, hp.cols]
  simp only [mergePipe]
  rw [zip_app hz, zip_app hcz, List.zipIdx_append, List.map_append]
  congr 1
  · refine List.map_congr_left fun x hx => ?_
    have hx2 : x.2 < p.combs.length := by
      have := List.mem_zipIdx hx
      have : x.2 < 0 + (p.combs.zip (rows.zip cols)).length := this.2.1
      simp only [List.length_zip] at this
      omega
    rw [k2 x.2 hx2]
  · have hl : (p.combs.zip (rows.zip cols)).length = p.combs.length := by rw [List.length_zip, ← hcz]; simp
    rw [hl, Nat.zero_add, List.zipIdx_eq_map_add, List.map_map]
    refine List.map_congr_left fun x hx => ?_
    obtain ⟨x1, x2⟩ := x
    simp only [Function.comp]
    rw [k3 x2]

end Verif.Hor
