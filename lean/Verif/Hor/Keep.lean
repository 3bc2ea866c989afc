/-
  One round of fusion preserves the invariant.
-/
import Verif.Hor.Inv

namespace Verif.Hor
variable {β : Type}

def Pipe.rename (a na b nb n : Nat) (p : Pipe β) : Pipe β :=
  { p with ins := p.ins.map (Hor.rename a na b nb n), outRows := p.outRows.map (Hor.rename a na b nb n),
           outCols := p.outCols.map (Hor.rename a na b nb n) }

theorem rename_pipe (a na b nb n i : Nat) (p : Pipe β) : (Op.pipe i p).rename a na b nb n = .pipe i (p.rename a na b nb n) := rfl

theorem Op.needs_rename (a na b nb n : Nat) (o : Op β) : (o.rename a na b nb n).needs = o.needs.map (Hor.rename a na b nb n) := by
  cases o <;> simp [Op.rename, Op.needs]

theorem Op.operands_rename (a na b nb n : Nat) (o : Op β) : (o.rename a na b nb n).operands = o.operands.map (Hor.rename a na b nb n) := by
  cases o <;> simp [Op.rename, Op.operands]

theorem pipes_filter {k : Op β → Bool} : ∀ {X : List (Op β)}, (∀ i p, .pipe i p ∈ X → k (.pipe i p) = true) → pipes (X.filter k) = pipes X
  | [], _ => rfl
  | .plain i xs cs f :: X, h => by
    have := pipes_filter (X := X) fun i p hm => h i p (by simp [hm])
    rw [List.filter_cons]
    split
    · rw [pipes, pipes, this]
    · rw [pipes, this]
  | .pipe i p :: X, h => by
    have := pipes_filter (X := X) fun i p hm => h i p (by simp [hm])
    rw [List.filter_cons_of_pos (h i p (by simp)), pipes, pipes, this]

theorem pipes_none {X : List (Op β)} (h : ∀ i p, .pipe i p ∉ X) : pipes X = [] := by
  cases hp : pipes X with
  | nil => rfl
  | cons x l =>
    have : x ∈ pipes X := by simp [hp]
    exact absurd (mem_pipes.1 (show (x.1, x.2) ∈ pipes X from this)) (h x.1 x.2)

theorem pipes_rename (a na b nb n : Nat) : ∀ X : List (Op β), pipes (X.map (·.rename a na b nb n)) = (pipes X).map fun x => (x.1, x.2.rename a na b nb n)
  | [] => rfl
  | .plain i xs cs f :: X => by rw [List.map_cons, Op.rename, pipes, pipes, pipes_rename a na b nb n X]
  | .pipe i p :: X => by rw [List.map_cons, rename_pipe, pipes, pipes, pipes_rename a na b nb n X, List.map_cons]

theorem split_pipes {a b : Nat} : ∀ {B : List (Op β)}, Lt ((pipes B).map (·.1)) a b →
    ∃ pre p mid p' post, B = pre ++ .pipe a p :: (mid ++ .pipe b p' :: post)
  | [], h => by simp [pipes, Lt] at h
  | .plain i xs cs f :: B, h => by
    obtain ⟨pre, p, mid, p', post, rfl⟩ := split_pipes (B := B) h
    exact ⟨.plain i xs cs f :: pre, p, mid, p', post, rfl⟩
  | .pipe i q :: B, h => by
    rw [pipes, List.map_cons, lt_cons] at h
    rcases h with ⟨rfl, h⟩ | h
    · obtain ⟨⟨k, p'⟩, h1, h2⟩ := List.mem_map.1 h
      have hk : k = b := h2
      subst hk
      obtain ⟨mid, post, rfl⟩ := List.append_of_mem (mem_pipes.1 h1)
      exact ⟨[], q, mid, p', post, rfl⟩
    · obtain ⟨pre, p, mid, p', post, rfl⟩ := split_pipes (B := B) h
      exact ⟨.pipe i q :: pre, p, mid, p', post, rfl⟩

theorem runPipe_length {E : Engine β} {p : Pipe β} (hp : p.Wf) {ins rows cols rs : List β} (hr : rows.length = p.outRows.length)
    (hc : cols.length = p.outCols.length) (h : runPipe E p ins rows cols = some rs) : rs.length = p.combs.length := by
  simp only [runPipe, Option.bind_eq_bind, Option.bind_eq_some_iff, Option.some.injEq] at h
  obtain ⟨ps, _, rfl⟩ := h
  simp [hr, hc, hp.rows, hp.cols]

theorem ordered_map {D D' : List Nat} {r : Op β → Op β} {u : Nat → Nat} (hid : ∀ o, (r o).id = o.id) : ∀ {X : List (Op β)}, OrderedFrom D X →
    (∀ i ∈ D, u i ∈ D') → (∀ o ∈ X, u o.id = o.id) → (∀ o ∈ X, ∀ i j, Val.res i j ∈ (r o).needs → ∃ i' j', Val.res i' j' ∈ o.needs ∧ i = u i') →
      OrderedFrom D' (X.map r) := by
  intro X
  induction X generalizing D D' with
  | nil => intro _ _ _ _; trivial
  | cons o X ih =>
    rintro ⟨h1, h2⟩ hD hX hr
    refine ⟨fun i j hi => ?_, ih h2 (fun i hi => ?_) (fun o ho => hX o (by simp [ho])) fun o ho => hr o (by simp [ho])⟩
    · obtain ⟨i', j', hm, rfl⟩ := hr o (by simp) i j hi
      exact hD i' (h1 i' j' hm)
    · rw [hid]
      rcases List.mem_append.1 hi with hi | hi
      · exact List.mem_append_left _ (hD i hi)
      · rw [List.mem_singleton.1 hi, hX o (by simp)]
        simp

theorem Inv.step {E : Engine β} {as : List β} {B : List (Op β)} {V : Env β} {T : Nat → Nat → Prop} {cls L : Nat → Nat} {a b : Nat}
    {ps : List (Nat × Nat)} (h : Inv E as B V T cls L ((a, b) :: ps)) :
    ∃ B' n V' T' cls', fuseStep B a b = some (B', n) ∧ Inv E as B' V' T' cls' L (updatePairs a b n ps) ∧
      (B'.flatMap (·.event as V')).Perm (B.flatMap (·.event as V)) ∧
      (∀ i xs cs f, .plain i xs cs f ∈ B → V' i = V i ∧ ∃ xs' cs', .plain i xs' cs' f ∈ B') ∧
      ∀ i q, .pipe i q ∈ B' → ∀ x ∈ q.ins.zip q.splits, ∃ k q0, .pipe k q0 ∈ B ∧ x ∈ q0.ins.zip q0.splits ∧ cls k = cls' i := by
  obtain ⟨pre, p, mid0, p', post, hB0⟩ := split_pipes (h.pairs.order a b (by simp)).1
  have hcab := (h.pairs.order a b (by simp)).2
  have hA : .pipe a p ∈ B := by rw [hB0]; simp
  have hBm : .pipe b p' ∈ B := by rw [hB0]; simp
  -- the operation after the first pipeline
  have hfA : Fol (Good T) (.pipe a p :: (mid0 ++ .pipe b p' :: post)) := by
    have := h.fol; rw [hB0] at this; exact this.right
  have hnotGood : ∀ i p0, .pipe i p0 ∈ B → ∀ k q, .pipe k q ∈ B → ¬ Good T k (.pipe i p0) := by
    rintro i p0 hi k q hk ⟨⟨j, hj⟩, _⟩
    exact h.ind i p0 hi k ((h.dep _ hi k j (operands_needs hj)).1 ⟨q, hk⟩)
  obtain ⟨Q, mid, hmid, hQg⟩ : ∃ Q mid, mid0 = Q :: mid ∧ Good T a Q := by
    obtain ⟨⟨o, h1, h2⟩, _⟩ := hfA
    cases mid0 with
    | nil =>
      have h1' : .pipe b p' = o := by simpa using h1
      subst h1'
      exact absurd h2 (hnotGood b p' hBm a p hA)
    | cons Q mid => exact ⟨Q, mid, rfl, by have h1' : Q = o := by simpa using h1
                                           rw [h1']; exact h2⟩
  subst hmid
  have hQ : opDep B Q a = true := by
    obtain ⟨⟨j, hj⟩, _⟩ := hQg
    refine List.any_eq_true.2 ⟨_, hj, ?_⟩
    rw [valDep, if_pos rfl]
  have hstep := fuseStep_eq hB0 h.nodup hQ
  obtain ⟨n, hn⟩ : ∃ n, n = fresh B := ⟨_, rfl⟩
  have hfr : n ∉ ids B := hn ▸ fresh_not_mem B
  rw [← hn] at hstep
  obtain ⟨mds, hmds⟩ : ∃ l, l = Q :: mid := ⟨_, rfl⟩
  rw [← hmds] at hB0 hstep hfA
  obtain ⟨bef, hbef⟩ : ∃ l, l = mds.filter fun o => !opDep B o a := ⟨_, rfl⟩
  obtain ⟨aft, haft⟩ : ∃ l, l = mds.filter fun o => opDep B o a := ⟨_, rfl⟩
  rw [← hbef, ← haft] at hstep
  obtain ⟨N, hN⟩ : ∃ o, o = Op.pipe n (mergePipe p p') := ⟨_, rfl⟩
  rw [← hN] at hstep
  obtain ⟨rn, hrn⟩ : ∃ f, f = rename a p.combs.length b p'.combs.length n := ⟨_, rfl⟩
  obtain ⟨r, hr⟩ : ∃ f : Op β → Op β, f = fun o => o.rename a p.combs.length b p'.combs.length n := ⟨_, rfl⟩
  rw [← hr] at hstep
  have hrid : ∀ o, (r o).id = o.id := fun o => by rw [hr]; exact Op.rename_id ..
  have hrneeds : ∀ o, (r o).needs = o.needs.map rn := fun o => by rw [hr, hrn]; exact Op.needs_rename ..
  have hrops : ∀ o, (r o).operands = o.operands.map rn := fun o => by rw [hr, hrn]; exact Op.operands_rename ..
  -- the permuted block
  have hpm : mds.Perm (bef ++ aft) := by
    have := List.filter_append_perm (fun o => !opDep B o a) mds
    simp only [Bool.not_not] at this
    rw [← hbef, ← haft] at this
    exact this.symm
  have hperm : B.Perm (.pipe a p :: .pipe b p' :: (pre ++ (bef ++ (aft ++ post)))) := by
    rw [hB0]
    refine List.perm_middle.trans (List.Perm.cons _ ?_)
    refine (List.Perm.append_left pre List.perm_middle).trans ?_
    refine List.perm_middle.trans (List.Perm.cons _ ?_)
    rw [← List.append_assoc bef]
    exact List.Perm.append_left _ (List.Perm.append_right _ hpm)
  have hnd := (hperm.map (fun o : Op β => o.id)).nodup_iff.1 h.nodup
  simp only [List.map_cons] at hnd
  have hnd1 := List.nodup_cons.1 hnd
  have hnd2 := List.nodup_cons.1 hnd1.2
  have hab : a ≠ b := fun he => hnd1.1 (by simp [Op.id, he])
  -- members
  have hrest : ∀ x, x ∈ pre ++ (bef ++ (aft ++ post)) → x ∈ B ∧ x.id ≠ a ∧ x.id ≠ b := fun x hx => by
    refine ⟨hperm.mem_iff.2 (by simp only [List.mem_cons]; exact .inr (.inr hx)), fun he => hnd1.1 ?_, fun he => hnd2.1 ?_⟩
    · refine List.mem_cons_of_mem _ (List.mem_map.2 ⟨x, hx, he⟩)
    · exact List.mem_map.2 ⟨x, hx, he⟩
  have hrest' : ∀ x, x ∈ B → x.id ≠ a → x.id ≠ b → x ∈ pre ++ (bef ++ (aft ++ post)) := fun x hx h1 h2 => by
    have := hperm.mem_iff.1 hx
    simp only [List.mem_cons] at this
    rcases this with rfl | rfl | h'
    · exact absurd rfl h1
    · exact absurd rfl h2
    · exact h'
  have hne : ∀ x ∈ B, x.id ≠ n := fun x hx he => hfr (mem_ids.2 ⟨x, hx, he⟩)
  have hmem : ∀ x, x ∈ pre ++ (bef ++ N :: (aft ++ post)) ↔ x = N ∨ x ∈ pre ++ (bef ++ (aft ++ post)) := fun x => by
    simp only [List.mem_append, List.mem_cons]; grind
  -- values
  obtain ⟨ra, hra1, hra2⟩ := h.sat _ hA
  obtain ⟨rb, hrb1, hrb2⟩ := h.sat _ hBm
  have hwa := h.wf a p hA
  have hwb := h.wf b p' hBm
  simp only [Op.run, Option.bind_eq_bind, Option.bind_eq_some_iff] at hra1 hrb1
  obtain ⟨ia, hia, qa, hqa, ca, hca, hrunA⟩ := hra1
  obtain ⟨ib, hib, qb, hqb, cb, hcb, hrunB⟩ := hrb1
  have hla : ra.length = p.combs.length := runPipe_length hwa (mapO_length hqa) (mapO_length hca) hrunA
  have hlb : rb.length = p'.combs.length := runPipe_length hwb (mapO_length hqb) (mapO_length hcb) hrunB
  have hra2' : V a = some ra := hra2
  have hrb2' : V b = some rb := hrb2
  have hrange : ∀ o ∈ B, ∀ i j, Val.res i j ∈ o.needs → i ∈ ids B ∧ (i = a → j < p.combs.length) ∧ (i = b → j < p'.combs.length) := by
    intro o ho i j hj
    obtain ⟨rs, hrs, _⟩ := h.sat o ho
    obtain ⟨qs, h1, h2⟩ := Op.run_defined hrs hj
    refine ⟨(pos_uses h.nodup h.ord ho hj).1, ?_, ?_⟩
    · rintro rfl; rw [hra2'] at h1; rw [← hla]; have : ra = qs := by simpa using h1
      rw [this]; exact h2
    · rintro rfl; rw [hrb2'] at h1; rw [← hlb]; have : rb = qs := by simpa using h1
      rw [this]; exact h2
  obtain ⟨V', hV'⟩ : ∃ W : Env β, W = V.put n (ra ++ rb) := ⟨_, rfl⟩
  have hV'n : V' n = some (ra ++ rb) := by rw [hV']; simp [Env.put]
  have hV'o : ∀ i, i ≠ n → V' i = V i := fun i hi => by rw [hV']; simp [Env.put, hi]
  obtain ⟨u, hu⟩ : ∃ f, f = update a b n := ⟨_, rfl⟩
  have ua : u a = n := by simp [hu, update]
  have ub : u b = n := by simp [hu, update]
  have uo : ∀ x, x ≠ a → x ≠ b → u x = x := fun x h1 h2 => by simp [hu, update, h1, h2]
  have hrnres : ∀ o ∈ B, ∀ i j, Val.res i j ∈ o.needs → (∃ j', rn (.res i j) = .res (u i) j') ∧ look as V' (rn (.res i j)) = look as V (.res i j) := by
    intro o ho i j hj
    obtain ⟨h1, h2, h3⟩ := hrange o ho i j hj
    have hin : i ≠ n := fun he => hfr (he ▸ h1)
    by_cases hia' : i = a
    · have hj2 := h2 hia'
      subst hia'
      have e : rn (.res i j) = .res n j := by rw [hrn]; simp [rename, hj2]
      rw [e, ua]
      refine ⟨⟨j, rfl⟩, ?_⟩
      simp only [look, hV'n, hra2', Option.bind_some]
      rw [List.getElem?_append_left (by omega)]
    · by_cases hib' : i = b
      · have hj2 := h3 hib'
        subst hib'
        have e : rn (.res i j) = .res n (p.combs.length + j) := by rw [hrn]; simp [rename, hj2, hia']
        rw [e, ub]
        refine ⟨⟨_, rfl⟩, ?_⟩
        simp only [look, hV'n, hrb2', Option.bind_some]
        rw [List.getElem?_append_right (by omega)]
        congr 1; omega
      · have e : rn (.res i j) = .res i j := by rw [hrn]; simp [rename, hia', hib']
        rw [e, uo i hia' hib']
        exact ⟨⟨j, rfl⟩, by simp only [look, hV'o i hin]⟩
  have hlook : ∀ o ∈ B, ∀ v ∈ o.needs, look as V' (rn v) = look as V v := by
    intro o ho v hv
    cases v with
    | arg k => rw [hrn]; rfl
    | res i j => exact (hrnres o ho i j hv).2
  have hinv : ∀ o ∈ B, ∀ i' j', Val.res i' j' ∈ o.needs.map rn → ∃ i j, Val.res i j ∈ o.needs ∧ i' = u i := by
    intro o ho i' j' hm
    obtain ⟨v, hv, e⟩ := List.mem_map.1 hm
    cases v with
    | arg k => rw [hrn] at e; simp [rename] at e
    | res i j =>
      obtain ⟨⟨j2, h1⟩, _⟩ := hrnres o ho i j hv
      rw [e] at h1
      simp only [Val.res.injEq] at h1
      exact ⟨i, j, hv, h1.1⟩
  have hmapO : ∀ o ∈ B, ∀ l : List Val, (∀ v ∈ l, v ∈ o.needs) → mapO (look as V') (l.map rn) = mapO (look as V) l := by
    intro o ho l hl
    rw [mapO_map]
    exact mapO_ext fun v hv => hlook o ho v (hl v hv)
  have hNneeds : ∀ v ∈ N.needs, v ∈ (Op.pipe a p).needs ∨ v ∈ (Op.pipe b p').needs := fun v hv => by
    rw [hN] at hv
    simp only [Op.needs, mergePipe, List.mem_append] at hv ⊢
    grind
  have hinvN : ∀ i' j', Val.res i' j' ∈ (r N).needs → ∃ (o : Op β) (i j : Nat), (o = .pipe a p ∨ o = .pipe b p') ∧ Val.res i j ∈ o.needs ∧ i' = u i := by
    intro i' j' hm
    rw [hrneeds] at hm
    obtain ⟨v, hv, e⟩ := List.mem_map.1 hm
    rcases hNneeds v hv with hv | hv
    · obtain ⟨i, j, h1, h2⟩ := hinv _ hA i' j' (List.mem_map.2 ⟨v, hv, e⟩)
      exact ⟨_, i, j, .inl rfl, h1, h2⟩
    · obtain ⟨i, j, h1, h2⟩ := hinv _ hBm i' j' (List.mem_map.2 ⟨v, hv, e⟩)
      exact ⟨_, i, j, .inr rfl, h1, h2⟩
  -- what pipelines need is neither a pipeline nor dependent on one
  have hclean : ∀ i0 p0, .pipe i0 p0 ∈ B → ∀ i j, Val.res i j ∈ (Op.pipe i0 p0).needs → (∀ q, .pipe i q ∉ B) ∧ ∀ y, ¬ T i y := by
    intro i0 p0 h0 i j hj
    have := h.dep _ h0 i j hj
    exact ⟨fun q hq => h.ind i0 p0 h0 i (this.1 ⟨q, hq⟩), fun y hy => h.ind i0 p0 h0 y (this.2 y hy)⟩
  -- pipelines in between
  have hmidB : ∀ x ∈ mds, x ∈ B := fun x hx => by rw [hB0]; simp [hx]
  have hpipeBef : ∀ i q, .pipe i q ∈ mds → opDep B (.pipe i q) a = false := fun i q hm => by
    cases hd : opDep B (.pipe i q) a with
    | false => rfl
    | true => exact absurd (opDep_sound hA h.dep (hmidB _ hm) hd) (h.ind i q (hmidB _ hm) a)
  have hpb : pipes bef = pipes mds := by
    rw [hbef]; exact pipes_filter fun i q hm => by simp [hpipeBef i q hm]
  have hpa : pipes aft = [] := pipes_none fun i q hm => by
    rw [haft] at hm
    have := List.mem_filter.1 hm
    rw [hpipeBef i q this.1] at this
    simp at this
  have hpipesB : pipes B = pipes pre ++ (a, p) :: (pipes mds ++ (b, p') :: pipes post) := by
    rw [hB0, pipes_append, pipes, pipes_append, pipes]
  have hpipesB' : pipes ((pre ++ (bef ++ N :: (aft ++ post))).map r) =
      (pipes pre ++ (pipes mds ++ (n, mergePipe p p') :: pipes post)).map fun x => (x.1, x.2.rename a p.combs.length b p'.combs.length n) := by
    rw [hr, pipes_rename, pipes_append, pipes_append, hN, pipes, pipes_append, hpb, hpa]; rfl
  -- order
  have hord1 : OrderedFrom [] (pre ++ (bef ++ (.pipe a p :: .pipe b p' :: (aft ++ post)))) := by
    have h0 := h.ord
    rw [hB0, ordered_append] at h0
    obtain ⟨o1, o2⟩ := h0
    obtain ⟨o2, o3⟩ := o2
    rw [ordered_append] at o3
    obtain ⟨o3, o4, o5⟩ := o3
    simp only [List.nil_append] at o2 o3 o4 o5
    -- operations in between that do not depend on `a` do not need those that do
    have hposm : ∀ z ∈ mds, ¬ pos B z.id < pos B a := fun z hz => by
      obtain ⟨X, Y, hXY⟩ := List.append_of_mem hz
      have hnB := h.nodup
      rw [hB0, hXY] at hnB
      have e1 : pos B a = pre.length := by
        rw [hB0]
        refine pos_eq (o := .pipe a p) fun hm => ?_
        rw [ids_append] at hnB
        exact (List.nodup_append.1 hnB).2.2 _ hm _ (by simp [ids_cons]) rfl
      have e2 : pos B z.id = (pre ++ .pipe a p :: X).length := by
        have : B = (pre ++ .pipe a p :: X) ++ z :: (Y ++ .pipe b p' :: post) := by rw [hB0, hXY]; simp
        rw [this]
        refine pos_eq fun hm => ?_
        have hnB' := h.nodup
        rw [this, ids_append] at hnB'
        exact (List.nodup_append.1 hnB').2.2 _ hm _ (by simp [ids_cons]) rfl
      rw [e1, e2]; simp
    have hclosed : ∀ o ∈ mds, opDep B o a = false → ∀ i j, Val.res i j ∈ o.needs → ¬ (i = a ∨ ∃ z ∈ mds, z.id = i ∧ opDep B z a = true) := by
      rintro o ho hd i j hj hbad
      have hoB := hmidB o ho
      cases o with
      | plain k xs cs f =>
        rcases List.mem_append.1 hj with hj | hj
        · rcases hbad with rfl | ⟨z, hz, rfl, hzd⟩
          · have : opDep B (.plain k xs cs f) i = true := List.any_eq_true.2 ⟨_, hj, by rw [valDep, if_pos rfl]⟩
            rw [this] at hd; simp at hd
          · have := opDep_operand h.nodup h.ord hoB (hmidB z hz) (hposm z hz) (a := a) (j := j) hj hzd
            rw [this] at hd; simp at hd
        · obtain ⟨c1, c2⟩ := h.cap k xs cs f hoB i j hj
          rcases hbad with rfl | ⟨z, hz, rfl, hzd⟩
          · exact c1 p hA
          · exact c2 a (opDep_sound hA h.dep (hmidB z hz) hzd)
      | pipe k q =>
        obtain ⟨c1, c2⟩ := hclean k q hoB i j hj
        rcases hbad with rfl | ⟨z, hz, rfl, hzd⟩
        · exact c1 p hA
        · exact c2 a (opDep_sound hA h.dep (hmidB z hz) hzd)
    rw [ordered_append, ordered_append]
    simp only [List.nil_append]
    have hbefO : OrderedFrom (ids pre) bef := by
      rw [hbef]
      refine OrderedFrom.filter (Bad := fun i => i = a ∨ ∃ z ∈ mds, z.id = i ∧ opDep B z a = true) o3 (fun i hi => ?_) (fun o ho hk => ?_)
        fun o ho hk i j hj => hclosed o ho (by simpa using hk) i j hj
      · rcases List.mem_append.1 hi with hi | hi
        · exact .inl hi
        · exact .inr (.inl (List.mem_singleton.1 hi))
      · exact .inl (.inr ⟨o, ho, rfl, by simpa using hk⟩)
    have hbefmem : ∀ i, i ∈ ids mds → (∀ z ∈ mds, z.id = i → opDep B z a = false) → i ∈ ids bef := by
      intro i hi hz
      obtain ⟨z, h1, h2⟩ := mem_ids.1 hi
      exact mem_ids.2 ⟨z, by rw [hbef]; exact List.mem_filter.2 ⟨h1, by simp [hz z h1 h2]⟩, h2⟩
    have haftO : OrderedFrom (ids pre ++ ids bef ++ [a] ++ [b]) aft := by
      rw [haft]
      refine OrderedFrom.filter (Bad := fun _ => False) o3 (fun i hi => .inl ?_) (fun o ho hk => .inr ?_) fun _ _ _ _ _ _ h => h
      · rcases List.mem_append.1 hi with hi | hi
        · simp [hi]
        · have : i = a := List.mem_singleton.1 hi
          simp [this]
      · have : o.id ∈ ids bef := mem_ids.2 ⟨o, by rw [hbef]; exact List.mem_filter.2 ⟨ho, by simpa using hk⟩, rfl⟩
        simp [this]
    refine ⟨o1, hbefO, ?_, ?_, ?_⟩
    · intro i j hj
      have := o2 i j hj
      simp [this]
    · intro i j hj
      have h1 := o4 i j hj
      obtain ⟨c1, c2⟩ := hclean b p' hBm i j hj
      simp only [List.mem_append] at h1 ⊢
      rcases h1 with (h1 | h1) | h1
      · exact .inl (.inl h1)
      · have : i = a := List.mem_singleton.1 h1
        exact absurd hA (this ▸ c1 p)
      · refine .inl (.inr (hbefmem i h1 fun z hz he => ?_))
        cases hd : opDep B z a with
        | false => rfl
        | true => exact absurd (he ▸ opDep_sound hA h.dep (hmidB z hz) hd) (c2 a)
    · rw [ordered_append]
      refine ⟨haftO, o5.mono fun i hi => ?_⟩
      simp only [List.mem_append, Op.id] at hi ⊢
      rcases hi with ((hi | hi) | hi) | hi
      · simp [hi]
      · simp [hi]
      · have : i ∈ ids bef ++ ids aft := by
          rw [← ids_append]
          exact (hpm.map (·.id)).mem_iff.1 hi
        rcases List.mem_append.1 this with h' | h' <;> simp [h']
      · simp [hi]
  have hord : OrderedFrom [] ((pre ++ (bef ++ N :: (aft ++ post))).map r) := by
    rw [ordered_append, ordered_append] at hord1
    obtain ⟨o1, o2, o3, o4, o5⟩ := hord1
    rw [List.map_append, List.map_append, List.map_cons, ordered_append, ordered_append]
    have hsub : ∀ X : List (Op β), (∀ x ∈ X, x ∈ pre ++ (bef ++ (aft ++ post))) →
        (∀ o ∈ X, u o.id = o.id) ∧ (∀ o ∈ X, ∀ i j, Val.res i j ∈ (r o).needs → ∃ i' j', Val.res i' j' ∈ o.needs ∧ i = u i') := by
      intro X hX
      refine ⟨fun o ho => uo _ (hrest o (hX o ho)).2.1 (hrest o (hX o ho)).2.2, fun o ho i j hj => ?_⟩
      rw [hrneeds] at hj
      exact hinv o (hrest o (hX o ho)).1 i j hj
    have hidr : ∀ X : List (Op β), ids (X.map r) = ids X := fun X => by simp [ids, hrid]
    obtain ⟨s1, s2⟩ := hsub pre fun x hx => by simp [hx]
    obtain ⟨s3, s4⟩ := hsub bef fun x hx => by simp [hx]
    obtain ⟨s5, s6⟩ := hsub (aft ++ post) fun x hx => by simp only [List.mem_append] at hx ⊢; exact .inr (.inr hx)
    have uids : ∀ X : List (Op β), (∀ o ∈ X, u o.id = o.id) → ∀ i ∈ ids X, u i = i := fun X hX i hi => by
      obtain ⟨o, ho, rfl⟩ := mem_ids.1 hi
      exact hX o ho
    refine ⟨ordered_map hrid o1 (fun i hi => by simp at hi) s1 s2, ordered_map hrid o2 (fun i hi => ?_) s3 s4, ?_, ordered_map hrid o5 (fun i hi => ?_) s5 s6⟩
    · simp only [List.nil_append] at hi ⊢
      rw [hidr, uids pre s1 i hi]; exact hi
    · intro i' j' hm
      obtain ⟨o, i, j, ho, hj, rfl⟩ := hinvN i' j' hm
      simp only [List.nil_append, hidr, List.mem_append] at o3 o4 ⊢
      have hi : i ∈ ids pre ∨ i ∈ ids bef := by
        rcases ho with rfl | rfl
        · exact o3 i j hj
        · have := o4 i j hj
          rcases this with h' | h'
          · exact h'
          · have : i = a := List.mem_singleton.1 h'
            exact absurd hA (this ▸ (hclean b p' hBm i j hj).1 p)
      rcases hi with hi | hi
      · rw [uids pre s1 i hi]; exact .inl hi
      · rw [uids bef s3 i hi]; exact .inr hi
    · simp only [List.nil_append, hidr, List.mem_append] at hi ⊢
      rw [hrid, hN]
      rcases hi with ((hi | hi) | hi) | hi
      · rw [uids pre s1 i hi]; exact .inl (.inl hi)
      · rw [uids bef s3 i hi]; exact .inl (.inr hi)
      · have : i = a := List.mem_singleton.1 hi
        rw [this, ua]; exact .inr (by simp [Op.id])
      · have : i = b := List.mem_singleton.1 hi
        rw [this, ub]; exact .inr (by simp [Op.id])
  -- operations of the new block
  have hmemB' : ∀ x, x ∈ (pre ++ (bef ++ N :: (aft ++ post))).map r → x = r N ∨ ∃ o, o ∈ B ∧ o.id ≠ a ∧ o.id ≠ b ∧ x = r o := fun x hx => by
    obtain ⟨o, ho, rfl⟩ := List.mem_map.1 hx
    rcases (hmem o).1 ho with rfl | ho
    · exact .inl rfl
    · exact .inr ⟨o, (hrest o ho).1, (hrest o ho).2.1, (hrest o ho).2.2, rfl⟩
  have hmemB'' : ∀ o, o ∈ B → o.id ≠ a → o.id ≠ b → r o ∈ (pre ++ (bef ++ N :: (aft ++ post))).map r := fun o h1 h2 h3 =>
    List.mem_map_of_mem ((hmem o).2 (.inr (hrest' o h1 h2 h3)))
  have hrN : r N = .pipe n ((mergePipe p p').rename a p.combs.length b p'.combs.length n) := by rw [hr, hN]; rfl
  have hrpipe : ∀ i q, r (.pipe i q) = .pipe i (q.rename a p.combs.length b p'.combs.length n) := fun i q => by rw [hr]; rfl
  have hrplain : ∀ i xs cs f, r (.plain i xs cs f) = .plain i (xs.map rn) (cs.map rn) f := fun i xs cs f => by rw [hr, hrn]; rfl
  have hpipeB' : ∀ i q, .pipe i q ∈ (pre ++ (bef ++ N :: (aft ++ post))).map r →
      (i = n ∧ q = (mergePipe p p').rename a p.combs.length b p'.combs.length n) ∨
        ∃ q0, .pipe i q0 ∈ B ∧ i ≠ a ∧ i ≠ b ∧ i ≠ n ∧ q = q0.rename a p.combs.length b p'.combs.length n := by
    intro i q hx
    rcases hmemB' _ hx with he | ⟨o, h1, h2, h3, he⟩
    · rw [hrN] at he
      simp only [Op.pipe.injEq] at he
      exact .inl he
    · cases o with
      | plain k xs cs f => rw [hrplain] at he; simp at he
      | pipe k q0 =>
        rw [hrpipe] at he
        simp only [Op.pipe.injEq] at he
        obtain ⟨rfl, rfl⟩ := he
        exact .inr ⟨q0, h1, h2, h3, hne _ h1, rfl⟩
  have hplainB' : ∀ i xs cs f, .plain i xs cs f ∈ (pre ++ (bef ++ N :: (aft ++ post))).map r →
      ∃ xs0 cs0, .plain i xs0 cs0 f ∈ B ∧ i ≠ a ∧ i ≠ b ∧ xs = xs0.map rn ∧ cs = cs0.map rn := by
    intro i xs cs f hx
    rcases hmemB' _ hx with he | ⟨o, h1, h2, h3, he⟩
    · rw [hrN] at he; simp at he
    · cases o with
      | plain k xs0 cs0 f0 =>
        rw [hrplain] at he
        simp only [Op.plain.injEq] at he
        obtain ⟨rfl, rfl, rfl, rfl⟩ := he
        exact ⟨xs0, cs0, h1, h2, h3, rfl, rfl⟩
      | pipe k q0 => rw [hrpipe] at he; simp at he
  -- results of the renamed operations
  have hrun : ∀ o ∈ B, (r o).run E as V' = o.run E as V := by
    intro o ho
    cases o with
    | plain i xs cs f =>
      rw [hrplain]
      simp only [Op.run]
      rw [← List.map_append, hmapO _ ho (xs ++ cs) fun v hv => hv]
    | pipe i q =>
      rw [hrpipe]
      simp only [Op.run, Pipe.rename]
      rw [← hrn, hmapO _ ho q.ins fun v hv => by simp [Op.needs, hv], hmapO _ ho q.outRows fun v hv => by simp [Op.needs, hv],
        hmapO _ ho q.outCols fun v hv => by simp [Op.needs, hv]]
      rfl
  have hevent : ∀ o ∈ B, (r o).event as V' = o.event as V := by
    intro o ho
    cases o with
    | plain i xs cs f =>
      rw [hrplain]
      simp only [Op.event]
      rw [← List.map_append, hmapO _ ho (xs ++ cs) fun v hv => hv]
    | pipe i q => rw [hrpipe]; rfl
  have hnumab : numRows E p.splits ia = numRows E p'.splits ib := by rw [h.rows a p hA ia hia, h.rows b p' hBm ib hib, hcab]
  have hinsN : mapO (look as V') ((mergePipe p p').ins.map rn) = some (ia ++ ib) := by
    simp only [mergePipe, List.map_append]
    refine mapO_append ?_ ?_
    · rw [hmapO _ hA p.ins fun v hv => by simp [Op.needs, hv]]; exact hia
    · rw [hmapO _ hBm p'.ins fun v hv => by simp [Op.needs, hv]]; exact hib
  have hbodyd : ∀ o ∈ p.body.ops, ∀ o' ∈ p'.body.ops, o'.id ≠ o.id := by
    intro o ho o' ho' he
    have := h.bodies
    rw [hpipesB] at this
    simp only [List.flatMap_append, List.flatMap_cons] at this
    have h1 := (List.nodup_append.1 this).2.1
    exact (List.nodup_append.1 h1).2.2 o.id (List.mem_map_of_mem ho) o.id (by
      rw [← he]
      refine List.mem_append_right _ (List.mem_append_left _ (List.mem_map_of_mem ho'))) rfl
  have hrunN : (r N).run E as V' = some (ra ++ rb) := by
    rw [hrN]
    simp only [Op.run, Pipe.rename, ← hrn, hinsN, Option.bind_eq_bind, Option.bind_some]
    have hrows : mapO (look as V') ((mergePipe p p').outRows.map rn) = some (qa ++ qb) := by
      simp only [mergePipe, List.map_append]
      refine mapO_append ?_ ?_
      · rw [hmapO _ hA p.outRows fun v hv => by simp [Op.needs, hv]]; exact hqa
      · rw [hmapO _ hBm p'.outRows fun v hv => by simp [Op.needs, hv]]; exact hqb
    have hcols : mapO (look as V') ((mergePipe p p').outCols.map rn) = some (ca ++ cb) := by
      simp only [mergePipe, List.map_append]
      refine mapO_append ?_ ?_
      · rw [hmapO _ hA p.outCols fun v hv => by simp [Op.needs, hv]]; exact hca
      · rw [hmapO _ hBm p'.outCols fun v hv => by simp [Op.needs, hv]]; exact hcb
    rw [hrows, hcols]
    simp only [Option.bind_some]
    have := runPipe_merge hwa hwb hbodyd (mapO_length hia) (mapO_length hqa) (mapO_length hca) hnumab hrunA hrunB
    exact this
  have hwfr : ∀ q : Pipe β, q.Wf → (q.rename a p.combs.length b p'.combs.length n).Wf := fun q hq =>
    ⟨by simpa [Pipe.rename] using hq.splits, by simpa [Pipe.rename] using hq.rows, by simpa [Pipe.rename] using hq.cols,
      by simpa [Pipe.rename] using hq.ret, by simpa [Pipe.rename] using hq.lin⟩
  have hbodyids : (mergePipe p p').body.ops.map (·.id) = p.body.ops.map (·.id) ++ p'.body.ops.map (·.id) := by
    simp only [mergePipe, mergeBody_eq hwa.lin hwb.lin, List.map_append, List.map_map]
    rfl
  refine ⟨_, n, V', fun x y => x ≠ n ∧ ∃ y0, T x y0 ∧ u y0 = y, fun x => if x = n then cls a else cls x, hstep, ?_, ?_, ?_, ?_⟩
  · refine ⟨?_, hord, ?_, ?_, ?_, ?_, ?_, ?_, ?_, ?_, ?_⟩
    · -- identities
      have e : ids ((pre ++ (bef ++ N :: (aft ++ post))).map r) = ids (pre ++ (bef ++ N :: (aft ++ post))) := by
        unfold ids
        rw [List.map_map]
        exact List.map_congr_left fun o _ => hrid o
      rw [e]
      have hp : (ids (pre ++ (bef ++ N :: (aft ++ post)))).Perm (n :: ids (pre ++ (bef ++ (aft ++ post)))) := by
        have : (pre ++ (bef ++ N :: (aft ++ post))).Perm (N :: (pre ++ (bef ++ (aft ++ post)))) := by
          rw [← List.append_assoc, ← List.append_assoc pre bef]
          exact List.perm_middle
        have h2 := this.map (fun o : Op β => o.id)
        rw [List.map_cons, hN] at h2
        rw [hN]
        exact h2
      refine hp.nodup_iff.2 (List.nodup_cons.2 ⟨fun hm => ?_, hnd2.2⟩)
      obtain ⟨o, ho, he⟩ := mem_ids.1 hm
      exact hne o (hrest o ho).1 he
    · -- values
      intro x hx
      rcases hmemB' x hx with rfl | ⟨o, h1, h2, h3, rfl⟩
      · exact ⟨ra ++ rb, hrunN, by rw [hrid, hN]; exact hV'n⟩
      · obtain ⟨rs, g1, g2⟩ := h.sat o h1
        exact ⟨rs, by rw [hrun o h1]; exact g1, by rw [hrid, hV'o _ (hne o h1)]; exact g2⟩
    · -- well-formedness
      intro i q hx
      rcases hpipeB' i q hx with ⟨_, rfl⟩ | ⟨q0, h1, _, _, _, rfl⟩
      · exact hwfr _ (hwa.merge hwb)
      · exact hwfr _ (h.wf i q0 h1)
    · -- bodies
      rw [hpipesB', List.flatMap_map]
      have e : ∀ l : List (Nat × Pipe β), (l.flatMap fun x => ((x.1, x.2.rename a p.combs.length b p'.combs.length n) : Nat × Pipe β).2.body.ops.map (·.id)) =
          l.flatMap fun x => x.2.body.ops.map (·.id) := fun l => rfl
      rw [e]
      have hb := h.bodies
      rw [hpipesB] at hb
      simp only [List.flatMap_append, List.flatMap_cons, hbodyids] at hb ⊢
      refine (List.Perm.nodup_iff ?_).1 hb
      refine List.Perm.append_left _ ?_
      rw [List.append_assoc, ← List.append_assoc]
      refine (List.Perm.append_right _ List.perm_append_comm).trans ?_
      rw [List.append_assoc]
    · -- dependencies
      intro x hx i' j' hj
      rcases hmemB' x hx with rfl | ⟨o, h1, h2, h3, rfl⟩
      · obtain ⟨o, i, j, ho, hj', rfl⟩ := hinvN i' j' hj
        have hcl : (∀ q, .pipe i q ∉ B) ∧ ∀ y, ¬ T i y := by
          rcases ho with rfl | rfl
          · exact hclean a p hA i j hj'
          · exact hclean b p' hBm i j hj'
        have hia' : i ≠ a := fun he => hcl.1 p (he ▸ hA)
        have hib' : i ≠ b := fun he => hcl.1 p' (he ▸ hBm)
        rw [uo i hia' hib']
        have hiB : i ∈ ids B := by
          rcases ho with rfl | rfl
          · exact (hrange _ hA i j hj').1
          · exact (hrange _ hBm i j hj').1
        refine ⟨?_, ?_⟩
        · rintro ⟨q, hq⟩
          rcases hpipeB' i q hq with ⟨he, _⟩ | ⟨q0, h1, _⟩
          · exact absurd hiB (he ▸ hfr)
          · exact absurd h1 (hcl.1 q0)
        · rintro y ⟨_, y0, hy, _⟩
          exact absurd hy (hcl.2 y0)
      · rw [hrneeds] at hj
        obtain ⟨i, j, hj', rfl⟩ := hinv o h1 i' j' hj
        have hd := h.dep o h1 i j hj'
        have hiB := (hrange o h1 i j hj').1
        rw [hrid]
        refine ⟨?_, ?_⟩
        · rintro ⟨q, hq⟩
          have : ∃ q, .pipe i q ∈ B := by
            rcases hpipeB' _ q hq with ⟨he, _⟩ | ⟨q0, h1', h2', h3', h4', _⟩
            · by_cases hia' : i = a
              · exact ⟨p, hia' ▸ hA⟩
              · by_cases hib' : i = b
                · exact ⟨p', hib' ▸ hBm⟩
                · rw [uo i hia' hib'] at he
                  exact absurd hiB (he ▸ hfr)
            · by_cases hia' : i = a
              · exact ⟨p, hia' ▸ hA⟩
              · by_cases hib' : i = b
                · exact ⟨p', hib' ▸ hBm⟩
                · rw [uo i hia' hib'] at h1'
                  exact ⟨q0, h1'⟩
          exact ⟨hne o h1, i, hd.1 this, rfl⟩
        · rintro y ⟨hun, y0, hy, hy'⟩
          have hia' : i ≠ a := fun he => hun (by rw [he, ua])
          have hib' : i ≠ b := fun he => hun (by rw [he, ub])
          rw [uo i hia' hib'] at hy
          exact ⟨hne o h1, y0, hd.2 y0 hy, hy'⟩
    · -- independence
      rintro i q hx y ⟨hin, y0, hy, _⟩
      rcases hpipeB' i q hx with ⟨rfl, _⟩ | ⟨q0, h1, _⟩
      · exact hin rfl
      · exact h.ind i q0 h1 y0 hy
    · -- nested regions
      intro i xs cs f hx k' j' hj
      obtain ⟨xs0, cs0, h1, _, _, rfl, rfl⟩ := hplainB' i xs cs f hx
      obtain ⟨v, hv, e⟩ := List.mem_map.1 hj
      cases v with
      | arg k => rw [hrn] at e; simp [rename] at e
      | res k j =>
        have hvn : Val.res k j ∈ (Op.plain i xs0 cs0 f).needs := List.mem_append_right _ hv
        obtain ⟨⟨j2, e2⟩, _⟩ := hrnres _ h1 k j hvn
        rw [e] at e2
        simp only [Val.res.injEq] at e2
        obtain ⟨c1, c2⟩ := h.cap i xs0 cs0 f h1 k j hv
        have hka : k ≠ a := fun he => c1 p (he ▸ hA)
        have hkb : k ≠ b := fun he => c1 p' (he ▸ hBm)
        rw [e2.1, uo k hka hkb]
        have hkB := (hrange _ h1 k j hvn).1
        refine ⟨fun q hq => ?_, ?_⟩
        · rcases hpipeB' k q hq with ⟨he, _⟩ | ⟨q0, h1', _⟩
          · exact absurd hkB (he ▸ hfr)
          · exact c1 q0 h1'
        · rintro y ⟨_, y0, hy, _⟩
          exact c2 y0 hy
    · -- followers
      have hgoodr : ∀ (i : Nat) (q : Pipe β) (o : Op β), .pipe i q ∈ B → i ≠ a → i ≠ b → o ∈ B → Good T i o →
          Good (fun x y => x ≠ n ∧ ∃ y0, T x y0 ∧ u y0 = y) i (r o) := by
        rintro i q o hi hia' hib' ho ⟨⟨j, hj⟩, hg⟩
        refine ⟨⟨j, ?_⟩, ?_⟩
        · rw [hrops]
          refine List.mem_map.2 ⟨_, hj, ?_⟩
          rw [hrn]; simp [rename, hia', hib']
        · rintro y ⟨_, y0, hy, rfl⟩
          rw [hrid] at hy
          rw [hg y0 hy, uo i hia' hib']
      have hgoodQ : Good (fun x y => x ≠ n ∧ ∃ y0, T x y0 ∧ u y0 = y) n (r Q) := by
        obtain ⟨⟨j, hj⟩, hg⟩ := hQg
        have hQB : Q ∈ B := hmidB Q (by rw [hmds]; simp)
        refine ⟨⟨j, ?_⟩, ?_⟩
        · rw [hrops]
          refine List.mem_map.2 ⟨_, hj, ?_⟩
          have := (hrange Q hQB a j (operands_needs hj)).2.1 rfl
          rw [hrn]; simp [rename, this]
        · rintro y ⟨_, y0, hy, rfl⟩
          rw [hrid] at hy
          rw [hg y0 hy, ua]
      have hfB := h.fol
      have hxA : ∀ i, (∃ q, .pipe i q ∈ B) → ¬ Good T i (.pipe a p) := fun i ⟨q, hq⟩ => hnotGood a p hA i q hq
      -- `Good T i` for something that is not a pipeline does not matter: restrict to pipelines
      have hfB2 : Fol (fun i o => (∃ q, .pipe i q ∈ B) ∧ o ∈ B ∧ Good T i o) B := by
        have : ∀ X : List (Op β), (∀ x ∈ X, x ∈ B) → Fol (Good T) X → Fol (fun i o => (∃ q, .pipe i q ∈ B) ∧ o ∈ B ∧ Good T i o) X := by
          intro X
          induction X with
          | nil => intro _ _; trivial
          | cons x X ih =>
            intro hX hf
            cases x with
            | plain i xs cs f => exact ih (fun x hx => hX x (by simp [hx])) hf
            | pipe i q =>
              obtain ⟨⟨o, g1, g2⟩, g3⟩ := hf
              exact ⟨⟨o, g1, ⟨q, hX _ (by simp)⟩, hX o (by simp [List.mem_of_mem_head? g1]), g2⟩, ih (fun x hx => hX x (by simp [hx])) g3⟩
        exact this B (fun _ h => h) hfB
      rw [hB0] at hfB2
      have hng : ∀ k0 q0, .pipe k0 q0 ∈ B → ∀ i, ¬ ((∃ q, .pipe i q ∈ pre ++ .pipe a p :: (mds ++ .pipe b p' :: post)) ∧
          .pipe k0 q0 ∈ pre ++ .pipe a p :: (mds ++ .pipe b p' :: post) ∧ Good T i (.pipe k0 q0)) := by
        rintro k0 q0 hk i ⟨⟨q, hq⟩, _, hg⟩
        rw [← hB0] at hq
        exact hnotGood k0 q0 hk i q hq hg
      have f1 := hfB2.left (x := .pipe a p) (hng a p hA)
      have f2 : Fol _ mds := (hfB2.right.2).left (x := .pipe b p') (hng b p' hBm)
      have f3 : Fol _ post := (hfB2.right.2).right.2
      rw [← hB0] at f1 f2 f3
      have fbef : Fol (fun i o => (∃ q, .pipe i q ∈ B) ∧ o ∈ B ∧ Good T i o) bef := by
        rw [hbef]
        refine f2.filter (fun i q hm => by simp [hpipeBef i q hm]) ?_
        rintro i q o hm ⟨_, hoB, hg⟩ ho
        have hia' : i ≠ a := fun he => by
          have := op_unique h.nodup (hmidB _ hm) hA he
          simp only [Op.pipe.injEq] at this
          have hnB := h.nodup
          rw [hB0] at hnB
          rw [ids_append, ids_cons] at hnB
          refine (List.nodup_cons.1 (List.nodup_append.1 hnB).2.1).1 ?_
          rw [ids_append]
          exact List.mem_append_left _ (mem_ids.2 ⟨_, hm, he⟩)
        cases hd : opDep B o a with
        | false => rfl
        | true => exact absurd (hg.2 a (opDep_sound hA h.dep hoB hd)).symm hia'
      have faft : Fol (fun i o => (∃ q, .pipe i q ∈ B) ∧ o ∈ B ∧ Good T i o) aft := by
        have : ∀ X : List (Op β), (∀ i q, .pipe i q ∉ X) → Fol (fun i o => (∃ q, .pipe i q ∈ B) ∧ o ∈ B ∧ Good T i o) X := by
          intro X
          induction X with
          | nil => intro _; trivial
          | cons x X ih =>
            intro hX
            cases x with
            | plain i xs cs f => exact ih fun i q hm => hX i q (by simp [hm])
            | pipe i q => exact absurd (by simp) (hX i q)
        refine this aft fun i q hm => ?_
        have : (i, q) ∈ pipes aft := mem_pipes.2 hm
        rw [hpa] at this
        simp at this
      have hr1 : ∀ i xs cs f, ∃ xs' cs', r (.plain i xs cs f) = .plain i xs' cs' f := fun i xs cs f => ⟨_, _, hrplain i xs cs f⟩
      have hr2 : ∀ i p0, ∃ p0', r (.pipe i p0) = .pipe i p0' := fun i p0 => ⟨_, hrpipe i p0⟩
      have hmapF : ∀ X : List (Op β), (∀ x ∈ X, x ∈ pre ++ (bef ++ (aft ++ post))) → Fol (fun i o => (∃ q, .pipe i q ∈ B) ∧ o ∈ B ∧ Good T i o) X →
          Fol (Good fun x y => x ≠ n ∧ ∃ y0, T x y0 ∧ u y0 = y) (X.map r) := by
        intro X hX hf
        refine Fol.map hr1 hr2 hf ?_
        rintro i q o hm ho ⟨_, hoB, hg⟩
        have := hrest _ (hX _ hm)
        exact hgoodr i q o this.1 this.2.1 this.2.2 hoB hg
      rw [List.map_append, List.map_append, List.map_cons]
      refine (hmapF pre (fun x hx => by simp [hx]) f1).append ((hmapF bef (fun x hx => by simp [hx]) fbef).append ?_)
      rw [hrN]
      refine ⟨⟨r Q, ?_, hgoodQ⟩, ?_⟩
      · rw [haft, hmds, List.filter_cons_of_pos (p := fun o => opDep B o a) hQ]
        rfl
      · rw [List.map_append]
        exact (hmapF aft (fun x hx => by simp [hx]) faft).append (hmapF post (fun x hx => by simp [hx]) f3)
    · -- number of rows
      intro i q hx ins hins
      rcases hpipeB' i q hx with ⟨rfl, rfl⟩ | ⟨q0, h1, _, _, h4, rfl⟩
      · simp only [Pipe.rename, ← hrn, hinsN, Option.some.injEq] at hins
        subst hins
        rw [if_pos rfl]
        simp only [Pipe.rename, mergePipe]
        rw [numRows_append E (by rw [hwa.splits, mapO_length hia]), ← hnumab, h.rows a p hA ia hia]
        simp
      · simp only [Pipe.rename, ← hrn] at hins ⊢
        rw [hmapO _ h1 q0.ins fun v hv => by simp [Op.needs, hv]] at hins
        rw [if_neg h4]
        exact h.rows i q0 h1 ins hins
    · -- pairs
      rw [hpipesB', List.map_map]
      have e : ((fun x : Nat × Pipe β => x.1) ∘ fun x : Nat × Pipe β => ((x.1, x.2.rename a p.combs.length b p'.combs.length n) : Nat × Pipe β)) = fun x => x.1 := rfl
      rw [e]
      have hpi := h.pairs
      rw [hpipesB] at hpi
      simp only [List.map_append, List.map_cons] at hpi ⊢
      have hsubl : ((pipes B).map (·.1)).Sublist (ids B) := by
        have : ∀ X : List (Op β), ((pipes X).map (·.1)).Sublist (ids X) := by
          intro X
          induction X with
          | nil => exact List.Sublist.refl _
          | cons x X ih =>
            cases x with
            | plain i xs cs f => exact ih.cons _
            | pipe i q => exact ih.cons₂ _
        exact this B
      rw [hpipesB] at hsubl
      simp only [List.map_append, List.map_cons] at hsubl
      refine PInv.step (h.nodup.sublist hsubl) (fun hm => hfr (hsubl.subset hm)) hpi
  · -- effects
    have e1 : ((pre ++ (bef ++ N :: (aft ++ post))).map r).flatMap (·.event as V') = (pre ++ (bef ++ (aft ++ post))).flatMap (·.event as V) := by
      rw [List.flatMap_map]
      have hNe : (r N).event as V' = [] := by rw [hrN]; rfl
      simp only [List.flatMap_append, List.flatMap_cons, hNe, List.nil_append]
      have : ∀ X : List (Op β), (∀ x ∈ X, x ∈ pre ++ (bef ++ (aft ++ post))) → X.flatMap (fun o => (r o).event as V') = X.flatMap (·.event as V) := by
        intro X hX
        induction X with
        | nil => rfl
        | cons x X ih =>
          rw [List.flatMap_cons, List.flatMap_cons, ih fun x hx => hX x (by simp [hx]), hevent x (hrest x (hX x (by simp))).1]
      rw [this pre fun x hx => by simp [hx], this bef fun x hx => by simp [hx], this aft fun x hx => by simp [hx], this post fun x hx => by simp [hx]]
    rw [e1]
    refine List.Perm.symm ?_
    have := List.Perm.flatMap_right (fun o : Op β => o.event as V) hperm
    simpa [Op.event] using this
  · intro i xs cs f hm
    have hia' : i ≠ a := fun he => by have := op_unique h.nodup hm hA he; simp at this
    have hib' : i ≠ b := fun he => by have := op_unique h.nodup hm hBm he; simp at this
    refine ⟨hV'o i (hne _ hm), xs.map rn, cs.map rn, ?_⟩
    rw [← hrplain]
    exact hmemB'' _ hm hia' hib'
  · have hid : ∀ i0 p0, .pipe i0 p0 ∈ B → p0.ins.map rn = p0.ins := fun i0 p0 h0 => by
      have : ∀ v ∈ p0.ins, rn v = v := fun v hv => by
        cases v with
        | arg k => rw [hrn]; rfl
        | res k j =>
          have hc := (hclean i0 p0 h0 k j (by simp [Op.needs, hv])).1
          have hka : k ≠ a := fun he => hc p (he ▸ hA)
          have hkb : k ≠ b := fun he => hc p' (he ▸ hBm)
          rw [hrn]; simp [rename, hka, hkb]
      conv => rhs; rw [← List.map_id p0.ins]
      exact List.map_congr_left this
    intro i q hx x hxm
    rcases hpipeB' i q hx with ⟨rfl, rfl⟩ | ⟨q0, h1, _, _, h4, rfl⟩
    · simp only [Pipe.rename, ← hrn, mergePipe, List.map_append, hid a p hA, hid b p' hBm] at hxm
      rw [zip_app hwa.splits.symm] at hxm
      rcases List.mem_append.1 hxm with hm | hm
      · exact ⟨a, p, hA, hm, by simp⟩
      · exact ⟨b, p', hBm, hm, by simp [hcab]⟩
    · simp only [Pipe.rename, ← hrn, hid i q0 h1] at hxm
      exact ⟨i, q0, h1, hxm, by simp [h4]⟩

end Verif.Hor
