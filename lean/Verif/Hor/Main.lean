/-
  The whole pass: a block with independent pipelines computes the same after the fusion, and no two pipelines read the same matrix any more.
-/
import Verif.Hor.Keep

namespace Verif.Hor
variable {β : Type}

/-! Specification -/

/-- The pipeline splits the value `v` into blocks of rows. -/
def Splits (p : Pipe β) (v : Val) : Prop := (v, true) ∈ p.ins.zip p.splits

/-- Both pipelines split the same matrix. -/
def Share (p q : Pipe β) : Prop := ∃ v, Splits p v ∧ Splits q v

/-- The operation `x` uses a result of `y` (itself or in a nested region). -/
def Uses (B : List (Op β)) (x y : Nat) : Prop := ∃ o ∈ B, o.id = x ∧ ∃ j, Val.res y j ∈ o.needs

/-- The operation `x` depends, directly or through other operations, on the pipeline `y`. -/
def Depends (B : List (Op β)) (x y : Nat) : Prop := Relation.TransGen (Uses B) x y ∧ ∃ p, .pipe y p ∈ B

/-- The blocks for which the fusion works. -/
structure Fusible (E : Engine β) (as : List β) (B : List (Op β)) : Prop where
  /-- operations are told apart by their identities, also inside the pipelines -/
  nodup : (ids B).Nodup
  bodies : ((pipes B).flatMap fun x => x.2.body.ops.map (·.id)).Nodup
  /-- pipelines as the vectorization creates them -/
  wf : ∀ i p, .pipe i p ∈ B → p.Wf
  /-- no pipeline depends on another one -/
  ind : ∀ i p, .pipe i p ∈ B → ∀ y, ¬ Depends B i y
  /-- nested regions use no value that depends on a pipeline -/
  cap : ∀ i xs cs f, .plain i xs cs f ∈ B → ∀ k j, Val.res k j ∈ cs → (∀ p, .pipe k p ∉ B) ∧ ∀ y, ¬ Depends B k y
  /-- the operation after a pipeline uses it, and depends on no other pipeline -/
  next : ∀ X i p Y, B = X ++ .pipe i p :: Y → ∃ o Y', Y = o :: Y' ∧ (∃ j, Val.res i j ∈ o.operands) ∧ ∀ y, Depends B o.id y → y = i
  /-- pipelines that share a matrix with the same pipeline share one with each other -/
  trans : ∀ i p, .pipe i p ∈ B → ∀ j q, .pipe j q ∈ B → ∀ k r, .pipe k r ∈ B → Share p q → Share q r → Share p r
  /-- all matrices split by a pipeline have the same number of rows -/
  rows : ∀ V tr, run E as B = some (V, tr) → ∀ i p, .pipe i p ∈ B → ∃ n, ∀ v x, Splits p v → look as V v = some x → E.rows x = n

/-! Pairs of pipelines -/

theorem common_iff {p q : Pipe β} : common p q ≠ [] ↔ Share p q := by
  constructor
  · intro h
    obtain ⟨x, hx⟩ := List.exists_mem_of_ne_nil _ h
    obtain ⟨v, b⟩ := x
    simp only [common, List.mem_filter, Bool.and_eq_true, List.contains_iff_mem] at hx
    obtain ⟨h1, h2, h3⟩ := hx
    have : b = true := h3
    subst this
    exact ⟨v, h1, h2⟩
  · rintro ⟨v, h1, h2⟩ h
    have : (v, true) ∈ common p q := by
      simp only [common, List.mem_filter, Bool.and_eq_true, List.contains_iff_mem]
      exact ⟨h1, h2, trivial⟩
    rw [h] at this
    simp at this

theorem Share.symm {p q : Pipe β} : Share p q → Share q p := fun ⟨v, h1, h2⟩ => ⟨v, h2, h1⟩

/-- Where in the list of pairs a pair comes from. -/
theorem flatMap_split {γ δ : Type} {F : γ → List δ} {x : δ} : ∀ {ps : List γ} {l1 l2 : List δ}, ps.flatMap F = l1 ++ x :: l2 →
    ∃ ps1 y ps2, ps = ps1 ++ y :: ps2 ∧ x ∈ F y ∧ ∀ z ∈ ps1.flatMap F, z ∈ l1
  | [], l1, l2, h => by simp at h
  | y :: ps, l1, l2, h => by
    rw [List.flatMap_cons] at h
    rcases List.append_eq_append_iff.1 h with ⟨r, h1, h2⟩ | ⟨r, h1, h2⟩
    · obtain ⟨ps1, y', ps2, e1, e2, e3⟩ := flatMap_split h2
      refine ⟨y :: ps1, y', ps2, by rw [e1]; rfl, e2, fun z hz => ?_⟩
      rw [List.flatMap_cons, List.mem_append] at hz
      rw [h1, List.mem_append]
      rcases hz with hz | hz
      · exact .inl hz
      · exact .inr (e3 z hz)
    · cases r with
      | nil =>
        obtain ⟨ps1, y', ps2, e1, e2, e3⟩ := flatMap_split (ps := ps) (l1 := []) (l2 := l2) (by simpa using h2.symm)
        refine ⟨y :: ps1, y', ps2, by rw [e1]; rfl, e2, fun z hz => ?_⟩
        rw [List.flatMap_cons, List.mem_append] at hz
        rcases hz with hz | hz
        · rw [h1] at hz; simpa using hz
        · simpa using e3 z hz
      | cons w r =>
        simp only [List.cons_append, List.cons.injEq] at h2
        refine ⟨[], y, ps, rfl, ?_, fun z hz => by simp at hz⟩
        rw [h1, h2.1]
        simp

theorem pairsOf_inv {B : List (Op β)} {cls : Nat → Nat} : ∀ {ps : List (Nat × Pipe β)}, (ps.map (·.1)).Nodup →
    (∀ x ∈ ps, ∀ y ∈ ps, opDep B (.pipe y.1 y.2) x.1 = false) →
    (∀ x ∈ ps, ∀ y ∈ ps, x.1 ≠ y.1 → (cls x.1 = cls y.1 ↔ Share x.2 y.2)) → PInv (ps.map (·.1)) cls (pairsOf B ps)
  | [], _, _, _ => ⟨fun _ _ h => by simp [pairsOf] at h, fun l1 x y l2 h => by simp [pairsOf] at h, fun x y h => by simp [Lt] at h⟩
  | (i, p) :: ps, hn, hd, hc => by
    have ih := pairsOf_inv (B := B) (cls := cls) (ps := ps) (List.nodup_cons.1 hn).2 (fun x hx y hy => hd x (by simp [hx]) y (by simp [hy]))
      (fun x hx y hy => hc x (by simp [hx]) y (by simp [hy]))
    have hi : i ∉ ps.map (·.1) := (List.nodup_cons.1 hn).1
    have hnm : ∀ x ∈ ps, i ≠ x.1 := fun x hx he => hi (List.mem_map.2 ⟨x, hx, he.symm⟩)
    obtain ⟨F, hF⟩ : ∃ F : Nat × Pipe β → List (Nat × Nat), F = fun (jq : Nat × Pipe β) =>
      if opDep B (.pipe jq.1 jq.2) i then [] else (common p jq.2).map fun _ => (i, jq.1) := ⟨_, rfl⟩
    have hFm : ∀ jq ∈ ps, ∀ x y, (x, y) ∈ F jq ↔ x = i ∧ y = jq.1 ∧ cls i = cls jq.1 := by
      intro jq hj x y
      have h1 := hd (i, p) (by simp) jq (by simp [hj])
      have h2 := hc (i, p) (by simp) jq (by simp [hj]) (hnm jq hj)
      rw [hF]
      simp only [h1, Bool.false_eq_true, if_false, List.mem_map, Prod.mk.injEq]
      rw [h2, ← common_iff]
      constructor
      · rintro ⟨w, hw, rfl, rfl⟩
        exact ⟨rfl, rfl, List.ne_nil_of_mem hw⟩
      · rintro ⟨rfl, rfl, h⟩
        obtain ⟨w, hw⟩ := List.exists_mem_of_ne_nil _ h
        exact ⟨w, hw, rfl, rfl⟩
    have e : pairsOf B ((i, p) :: ps) = ps.flatMap F ++ pairsOf B ps := by rw [hF]; rfl
    rw [e, List.map_cons]
    refine ⟨?_, ?_, ?_⟩
    · intro x y h
      rw [lt_cons]
      rcases List.mem_append.1 h with h | h
      · obtain ⟨jq, hj, h'⟩ := List.mem_flatMap.1 h
        obtain ⟨rfl, rfl, h3⟩ := (hFm jq hj x y).1 h'
        exact ⟨.inl ⟨rfl, List.mem_map_of_mem hj⟩, h3⟩
      · have := ih.order x y h
        exact ⟨.inr this.1, this.2⟩
    · intro l1 x y l2 h z h1 h2 h3
      rw [lt_cons] at h1 h2
      rcases List.append_eq_append_iff.1 h with ⟨r, g1, g2⟩ | ⟨r, g1, g2⟩
      · -- the pair belongs to a later pipeline
        have hxy := (ih.order x y (by rw [g2]; simp)).1.mem
        have hx : x ≠ i := fun he => hi (he ▸ hxy.1)
        have h1' : Lt (ps.map (·.1)) x z := h1.resolve_left fun h => hx h.1
        have hz : z ≠ i := fun he => hi (he ▸ h1'.mem.2)
        have h2' : Lt (ps.map (·.1)) z y := h2.resolve_left fun h => hz h.1
        rw [g1]
        exact List.mem_append_right _ (ih.closed r x y l2 g2 z h1' h2' h3)
      · cases r with
        | nil =>
          have g2' : pairsOf B ps = [] ++ (x, y) :: l2 := by simpa using g2.symm
          have hxy := (ih.order x y (by rw [g2']; simp)).1.mem
          have hx : x ≠ i := fun he => hi (he ▸ hxy.1)
          have h1' : Lt (ps.map (·.1)) x z := h1.resolve_left fun h => hx h.1
          have hz : z ≠ i := fun he => hi (he ▸ h1'.mem.2)
          have h2' : Lt (ps.map (·.1)) z y := h2.resolve_left fun h => hz h.1
          have := ih.closed [] x y l2 g2' z h1' h2' h3
          simp at this
        | cons w r =>
          simp only [List.cons_append, List.cons.injEq] at g2
          rw [← g2.1] at g1
          obtain ⟨ps1, jq, ps2, e1, e2, e3⟩ := flatMap_split g1
          have hjq : jq ∈ ps := by rw [e1]; simp
          obtain ⟨rfl, rfl, h4⟩ := (hFm jq hjq x y).1 e2
          have hz : z ∈ ps.map (·.1) := by
            rcases h1 with h | h
            · exact h.2
            · exact h.mem.2
          have hzi : z ≠ x := fun he => hi (he ▸ hz)
          have h2' : Lt (ps.map (·.1)) z jq.1 := h2.resolve_left fun h => hzi h.1
          have hnd := (List.nodup_cons.1 hn).2
          have hz1 : z ∈ ps1.map (·.1) := by
            rw [e1, List.map_append, List.map_cons] at h2' hnd
            have hd1 := List.nodup_append.1 hnd
            have hd2 := List.nodup_cons.1 hd1.2.1
            rcases lt_append.1 h2' with h | h | h
            · exact absurd rfl (hd1.2.2 _ h.mem.2 _ (by simp))
            · exact h.1
            · rcases lt_cons.1 h with h | h
              · exact absurd h.2 hd2.1
              · exact absurd h.mem.2 hd2.1
          obtain ⟨kq, hk, rfl⟩ := List.mem_map.1 hz1
          refine e3 _ (List.mem_flatMap.2 ⟨kq, hk, ?_⟩)
          exact (hFm kq (by rw [e1]; simp [hk]) x kq.1).2 ⟨rfl, rfl, h3.symm⟩
    · intro x y h1 h2
      rcases lt_cons.1 h1 with ⟨rfl, h⟩ | h
      · obtain ⟨jq, hj, rfl⟩ := List.mem_map.1 h
        exact List.mem_append_left _ (List.mem_flatMap.2 ⟨jq, hj, (hFm jq hj x jq.1).2 ⟨rfl, rfl, h2⟩⟩)
      · exact List.mem_append_right _ (ih.complete x y h h2)

/-! The loop -/

theorem Inv.loop {E : Engine β} {as : List β} {L : Nat → Nat} : ∀ {k : Nat} {B : List (Op β)} {V : Env β} {T : Nat → Nat → Prop} {cls : Nat → Nat}
    {ps : List (Nat × Nat)}, Inv E as B V T cls L ps → ps.length ≤ k →
    ∃ B' V' T' cls', loop k ps B = some B' ∧ Inv E as B' V' T' cls' L [] ∧
      (B'.flatMap (·.event as V')).Perm (B.flatMap (·.event as V)) ∧
      (∀ i xs cs f, .plain i xs cs f ∈ B → V' i = V i ∧ ∃ xs' cs', .plain i xs' cs' f ∈ B') ∧
      ∀ i q, .pipe i q ∈ B' → ∀ x ∈ q.ins.zip q.splits, ∃ k q0, .pipe k q0 ∈ B ∧ x ∈ q0.ins.zip q0.splits ∧ cls k = cls' i
  | k, B, V, T, cls, [], h, _ => by
    refine ⟨B, V, T, cls, by cases k <;> rfl, h, List.Perm.refl _, fun i xs cs f hm => ⟨rfl, xs, cs, hm⟩, fun i q hm x hx => ⟨i, q, hm, hx, rfl⟩⟩
  | 0, B, V, T, cls, _ :: _, h, hk => by simp at hk
  | k + 1, B, V, T, cls, (a, b) :: ps, h, hk => by
    obtain ⟨B1, n, V1, T1, cls1, h1, h2, h3, h4, h5⟩ := h.step
    obtain ⟨B', V', T', cls', g1, g2, g3, g4, g5⟩ := Inv.loop (k := k) h2 (by
      have := updatePairs_length a b n ps
      simp only [List.length_cons] at hk
      omega)
    refine ⟨B', V', T', cls', ?_, g2, g3.trans h3, ?_, ?_⟩
    · simp only [Hor.loop, h1, Option.bind_eq_bind, Option.bind_some]
      exact g1
    · intro i xs cs f hm
      obtain ⟨e1, xs1, cs1, hm1⟩ := h4 i xs cs f hm
      obtain ⟨e2, hm2⟩ := g4 i xs1 cs1 f hm1
      exact ⟨e2.trans e1, hm2⟩
    · intro i q hm x hx
      obtain ⟨k1, q1, m1, x1, c1⟩ := g5 i q hm x hx
      obtain ⟨k0, q0, m0, x0, c0⟩ := h5 k1 q1 m1 x x1
      exact ⟨k0, q0, m0, x0, c0.trans c1⟩

/-! The start -/

theorem numRows_const {E : Engine β} {n : Nat} : ∀ {l : List (Bool × β)} {m : Nat}, (∀ x, (true, x) ∈ l → E.rows x = n) → m ≤ n →
    (m = n ∨ ∃ x, (true, x) ∈ l) → l.foldl (fun n x => if x.1 then Nat.max n (E.rows x.2) else n) m = n
  | [], m, _, _, h => by simpa using h
  | (b, x) :: l, m, hl, hm, h => by
    rw [List.foldl_cons]
    cases b with
    | false =>
      refine numRows_const (fun y hy => hl y (by simp [hy])) hm ?_
      rcases h with h | ⟨y, hy⟩
      · exact .inl h
      · exact .inr ⟨y, by simpa using hy⟩
    | true =>
      have hx := hl x (by simp)
      refine numRows_const (fun y hy => hl y (by simp [hy])) ?_ (.inl ?_)
      · simp [hx, hm]
      · simp [hx, hm]

theorem zip_look {as : List β} {V : Env β} {f : Val → Option β} : ∀ {l : List Val} {s : List Bool} {r : List β}, mapO f l = some r →
    (∀ x, (true, x) ∈ s.zip r → ∃ v, (v, true) ∈ l.zip s ∧ f v = some x) ∧ ∀ v, (v, true) ∈ l.zip s → ∃ x, (true, x) ∈ s.zip r ∧ f v = some x
  | [], s, r, h => by
    simp only [mapO, Option.some.injEq] at h
    subst h
    simp
  | v :: l, [], r, h => by simp
  | v :: l, b :: s, r, h => by
    simp only [mapO, Option.bind_eq_bind, Option.bind_eq_some_iff] at h
    obtain ⟨y, hy, ys, hys, h3⟩ := h
    simp only [Option.some.injEq] at h3
    subst h3
    obtain ⟨i1, i2⟩ := zip_look (as := as) (V := V) (s := s) hys
    simp only [List.zip_cons_cons, List.mem_cons, Prod.mk.injEq]
    constructor
    · rintro x (⟨rfl, rfl⟩ | h)
      · exact ⟨v, .inl ⟨rfl, rfl⟩, hy⟩
      · obtain ⟨w, h1, h2⟩ := i1 x h
        exact ⟨w, .inr h1, h2⟩
    · rintro w (⟨rfl, rfl⟩ | h)
      · exact ⟨y, .inl ⟨rfl, rfl⟩, hy⟩
      · obtain ⟨x, h1, h2⟩ := i2 w h
        exact ⟨x, .inr h1, h2⟩

/-- The class of a pipeline: the first one that splits a common matrix. -/
def classOf (B : List (Op β)) (x : Nat) : Nat :=
  match pipeOf B x with
  | none => x
  | some p => match (pipes B).find? fun k => !(common k.2 p).isEmpty with
    | none => x
    | some k => k.1

theorem classOf_pipe {B : List (Op β)} (hn : (ids B).Nodup) {i : Nat} {p : Pipe β} (h : .pipe i p ∈ B) :
    (∃ k q, .pipe k q ∈ B ∧ Share q p ∧ classOf B i = k) ∨ (classOf B i = i ∧ ∀ k q, .pipe k q ∈ B → ¬ Share q p) := by
  simp only [classOf, pipeOf_eq hn h]
  cases hf : (pipes B).find? fun k => !(common k.2 p).isEmpty with
  | none =>
    refine .inr ⟨rfl, fun k q hk hs => ?_⟩
    have := List.find?_eq_none.1 hf (k, q) (mem_pipes.2 hk)
    have h2 := common_iff.2 hs
    simp at this
    exact h2 this
  | some k =>
    have h1 := List.find?_some hf
    have h2 := List.mem_of_find?_eq_some hf
    refine .inl ⟨k.1, k.2, mem_pipes.1 h2, common_iff.1 fun he => ?_, rfl⟩
    simp [he] at h1

theorem classOf_iff {B : List (Op β)} (hn : (ids B).Nodup)
    (ht : ∀ i p, .pipe i p ∈ B → ∀ j q, .pipe j q ∈ B → ∀ k r, .pipe k r ∈ B → Share p q → Share q r → Share p r) {i j : Nat} {p q : Pipe β}
    (hi : .pipe i p ∈ B) (hj : .pipe j q ∈ B) (hne : i ≠ j) : classOf B i = classOf B j ↔ Share p q := by
  have huniq : ∀ {k : Nat} {p q : Pipe β}, .pipe k p ∈ B → .pipe k q ∈ B → p = q := fun h h' => by
    have := op_unique hn h h' rfl
    simpa using this
  constructor
  · intro h
    rcases classOf_pipe hn hi with ⟨k, r, h1, h2, h3⟩ | ⟨h1, h2⟩
    · rcases classOf_pipe hn hj with ⟨k', r', h1', h2', h3'⟩ | ⟨h1', h2'⟩
      · have : k = k' := by rw [← h3, ← h3', h]
        subst this
        have := huniq h1 h1'
        subst this
        exact ht i p hi k r h1 j q hj h2.symm h2'
      · have : k = j := by rw [← h3, h, h1']
        subst this
        have := huniq h1 hj
        subst this
        exact h2.symm
    · rcases classOf_pipe hn hj with ⟨k', r', h1', h2', h3'⟩ | ⟨h1', h2'⟩
      · have : k' = i := by rw [← h3', ← h, h1]
        subst this
        have := huniq h1' hi
        subst this
        exact h2'
      · exact absurd (by rw [← h1, h, h1']) hne
  · intro h
    simp only [classOf, pipeOf_eq hn hi, pipeOf_eq hn hj]
    have : (pipes B).find? (fun k => !(common k.2 p).isEmpty) = (pipes B).find? fun k => !(common k.2 q).isEmpty := by
      have key : ∀ x ∈ pipes B, (!(common x.2 p).isEmpty) = !(common x.2 q).isEmpty := by
        intro x hx
        have hx' : .pipe x.1 x.2 ∈ B := mem_pipes.1 hx
        have e1 : (!(common x.2 p).isEmpty) = true ↔ Share x.2 p := by rw [← common_iff]; simp
        have e2 : (!(common x.2 q).isEmpty) = true ↔ Share x.2 q := by rw [← common_iff]; simp
        rw [Bool.eq_iff_iff, e1, e2]
        exact ⟨fun g => ht _ _ hx' _ _ hi _ _ hj g h, fun g => ht _ _ hx' _ _ hj _ _ hi g h.symm⟩
      revert key
      generalize pipes B = l
      intro key
      induction l with
      | nil => rfl
      | cons x l ih =>
        rw [List.find?_cons, List.find?_cons, key x (by simp), ih fun y hy => key y (by simp [hy])]
    rw [this]
    obtain ⟨v, hv⟩ := h
    cases hf : (pipes B).find? fun k => !(common k.2 q).isEmpty with
    | some k => rfl
    | none =>
      have := List.find?_eq_none.1 hf (j, q) (mem_pipes.2 hj)
      have h2 : common q q ≠ [] := common_iff.2 ⟨v, hv.2, hv.2⟩
      simp at this
      exact absurd this h2

theorem Fusible.inv {E : Engine β} {as : List β} {B : List (Op β)} (h : Fusible E as B) {V : Env β} {tr : List (Nat × List β)}
    (hr : run E as B = some (V, tr)) :
    ∃ L, Inv E as B V (Depends B) (classOf B) L (pairsOf B (pipes B)) ∧ tr = B.flatMap (·.event as V) ∧ ∀ i, V i ≠ none → i ∈ ids B := by
  obtain ⟨o1, o2, o3, o4, o5⟩ := exec_sat (D := []) hr (by simpa using h.nodup) (fun i hi => absurd rfl hi)
  have hdep : ∀ o ∈ B, ∀ i j, Val.res i j ∈ o.needs → ((∃ p, .pipe i p ∈ B) → Depends B o.id i) ∧ ∀ y, Depends B i y → Depends B o.id y := by
    intro o ho i j hj
    have hu : Uses B o.id i := ⟨o, ho, rfl, j, hj⟩
    exact ⟨fun hp => ⟨.single hu, hp⟩, fun y hy => ⟨Relation.TransGen.trans (.single hu) hy.1, hy.2⟩⟩
  obtain ⟨L, hL⟩ : ∃ L : Nat → Nat, L = fun c => match pipeOf B c with
    | none => 0
    | some p => match mapO (look as V) p.ins with
      | none => 0
      | some ins => numRows E p.splits ins := ⟨_, rfl⟩
  have hLp : ∀ i p, .pipe i p ∈ B → ∀ ins, mapO (look as V) p.ins = some ins → L i = numRows E p.splits ins := by
    intro i p hi ins hins
    rw [hL]
    simp only [pipeOf_eq h.nodup hi, hins]
  have hsat : ∀ i p, .pipe i p ∈ B → ∃ ins, mapO (look as V) p.ins = some ins := by
    intro i p hi
    obtain ⟨rs, h1, _⟩ := o3 _ hi
    simp only [Op.run, Option.bind_eq_bind, Option.bind_eq_some_iff] at h1
    obtain ⟨ins, h2, _⟩ := h1
    exact ⟨ins, h2⟩
  have hnum : ∀ i p, .pipe i p ∈ B → ∀ ins, mapO (look as V) p.ins = some ins → ∀ v x, Splits p v → look as V v = some x →
      numRows E p.splits ins = E.rows x := by
    intro i p hi ins hins v x hv hx
    obtain ⟨n, hn⟩ := h.rows V tr hr i p hi
    obtain ⟨z1, z2⟩ := zip_look (as := as) (V := V) (s := p.splits) hins
    rw [hn v x hv hx]
    refine numRows_const (fun y hy => ?_) (Nat.zero_le _) (.inr ?_)
    · obtain ⟨w, hw1, hw2⟩ := z1 y hy
      exact hn w y hw1 hw2
    · obtain ⟨y, hy, _⟩ := z2 v hv
      exact ⟨y, hy⟩
  refine ⟨L, ⟨h.nodup, o1, o3, h.wf, h.bodies, hdep, h.ind, h.cap, ?_, ?_, ?_⟩, o4, by simpa using o5⟩
  · -- followers
    have : ∀ Y X, B = X ++ Y → Fol (Good (Depends B)) Y := by
      intro Y
      induction Y with
      | nil => intro _ _; trivial
      | cons o Y ih =>
        intro X hX
        have ihY := ih (X ++ [o]) (by simpa using hX)
        cases o with
        | plain i xs cs f => exact ihY
        | pipe i p =>
          obtain ⟨q, Y', e, g1, g2⟩ := h.next X i p Y hX
          exact ⟨⟨q, by rw [e]; rfl, g1, g2⟩, ihY⟩
    exact this B [] rfl
  · -- numbers of rows
    intro i p hi ins hins
    rcases classOf_pipe h.nodup hi with ⟨k, q, h1, ⟨v, h2, h2'⟩, h3⟩ | ⟨h1, _⟩
    · rw [h3]
      obtain ⟨ins', hins'⟩ := hsat k q h1
      rw [hLp k q h1 ins' hins']
      obtain ⟨_, z2⟩ := zip_look (as := as) (V := V) (s := p.splits) hins
      obtain ⟨x, _, hx⟩ := z2 v h2'
      rw [hnum i p hi ins hins v x h2' hx, hnum k q h1 ins' hins' v x h2 hx]
    · rw [h1, hLp i p hi ins hins]
  · -- pairs
    refine pairsOf_inv ?_ ?_ ?_
    · have hsubl : ∀ X : List (Op β), ((pipes X).map (·.1)).Sublist (ids X) := by
        intro X
        induction X with
        | nil => exact List.Sublist.refl _
        | cons x X ih =>
          cases x with
          | plain i xs cs f => exact ih.cons _
          | pipe i q => exact ih.cons_cons _
      exact h.nodup.sublist (hsubl B)
    · rintro ⟨i, p⟩ hi ⟨j, q⟩ hj
      rw [mem_pipes] at hi hj
      cases hd : opDep B (.pipe j q) i with
      | false => rfl
      | true => exact absurd (opDep_sound hi hdep hj hd) (h.ind j q hj i)
    · rintro ⟨i, p⟩ hi ⟨j, q⟩ hj hne
      rw [mem_pipes] at hi hj
      exact classOf_iff h.nodup h.trans hi hj hne

/-! Theorems -/

/-- **C256**: on a block with independent pipelines, the horizontal fusion does not fail, and the resulting block can be executed, has the same
    effects with the same operand values (up to their order), and all operations other than the pipelines compute the same results. -/
theorem C256_same_effects {E : Engine β} {as : List β} {B : List (Op β)} (h : Fusible E as B) {V : Env β} {tr : List (Nat × List β)}
    (hr : run E as B = some (V, tr)) :
    ∃ B' V' tr', hfuse B = some B' ∧ run E as B' = some (V', tr') ∧ tr'.Perm tr ∧ ∀ i xs cs f, .plain i xs cs f ∈ B → V' i = V i := by
  obtain ⟨L, hi, rfl, _⟩ := h.inv hr
  obtain ⟨B', V', T', cls', g1, g2, g3, g4, _⟩ := hi.loop (Nat.le_refl _)
  obtain ⟨W', e1, e2⟩ := sat_exec (D := []) (V := fun _ => none) g2.ord (by simpa using g2.nodup) (fun i hi => by simp at hi) g2.sat
  refine ⟨B', W', _, g1, e1, g3, fun i xs cs f hm => ?_⟩
  obtain ⟨k1, xs', cs', k2⟩ := g4 i xs cs f hm
  have hm' : i ∈ ids B' := mem_ids.2 ⟨_, k2, rfl⟩
  rw [e2 i (by simpa using hm'), k1]

/-- **C257**: after the pass, no two pipelines of the block split the same matrix. -/
theorem C257_fused {E : Engine β} {as : List β} {B : List (Op β)} (h : Fusible E as B) {V : Env β} {tr : List (Nat × List β)}
    (hr : run E as B = some (V, tr)) {B' : List (Op β)} (hf : hfuse B = some B') {i j : Nat} {p q : Pipe β} (hi : .pipe i p ∈ B')
    (hj : .pipe j q ∈ B') (hne : i ≠ j) : ¬ Share p q := by
  obtain ⟨L, hinv, rfl, _⟩ := h.inv hr
  obtain ⟨B1, V', T', cls', g1, g2, g3, g4, g5⟩ := hinv.loop (Nat.le_refl _)
  have : hfuse B = some B1 := g1
  rw [hf] at this
  cases this
  rintro ⟨v, h1, h2⟩
  obtain ⟨k, p0, m0, x0, c0⟩ := g5 i p hi _ h1
  obtain ⟨k', q0, m0', x0', c0'⟩ := g5 j q hj _ h2
  have hc : classOf B k = classOf B k' := by
    by_cases he : k = k'
    · rw [he]
    · exact (classOf_iff h.nodup h.trans m0 m0' he).2 ⟨v, x0, x0'⟩
  have hcc : cls' i = cls' j := by rw [← c0, ← c0', hc]
  have hmi : i ∈ (pipes B').map (·.1) := List.mem_map.2 ⟨(i, p), mem_pipes.2 hi, rfl⟩
  have hmj : j ∈ (pipes B').map (·.1) := List.mem_map.2 ⟨(j, q), mem_pipes.2 hj, rfl⟩
  have hnd : ((pipes B').map (·.1)).Nodup := by
    have hsubl : ∀ X : List (Op β), ((pipes X).map (·.1)).Sublist (ids X) := by
      intro X
      induction X with
      | nil => exact List.Sublist.refl _
      | cons x X ih =>
        cases x with
        | plain i xs cs f => exact ih.cons _
        | pipe i q => exact ih.cons_cons _
    exact g2.nodup.sublist (hsubl B')
  rcases Nat.lt_trichotomy (((pipes B').map (·.1)).idxOf i) (((pipes B').map (·.1)).idxOf j) with hlt | heq | hlt
  · have := g2.pairs.complete i j ((lt_iff hnd).2 ⟨hmi, hmj, hlt⟩) hcc
    simp at this
  · exact hne (idxOf_inj hmi hmj heq)
  · have := g2.pairs.complete j i ((lt_iff hnd).2 ⟨hmj, hmi, hlt⟩) hcc.symm
    simp at this

end Verif.Hor
