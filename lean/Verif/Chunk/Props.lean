/-
  C361: elements of chunked tensors.
-/
import Verif.Chunk.Model

namespace Verif.Chunk
open Verif Verif.Dense Verif.Tens

variable {α : Type}

/-- Tensors as the constructors make them. -/
structure CK.WF (t : CK α) : Prop where
  len : t.chunk.length = t.shape.length
  posC : 0 ∉ t.chunk
  memSize : t.mem.size = t.per.prod * t.chunk.prod
  flagSize : t.flags.size = t.per.prod
  pos0 : 0 < t.per.prod * t.chunk.prod

/-! ### Positions -/

theorem valid_div {idx shape chunk : List Nat} (hl : chunk.length = shape.length) (h0 : 0 ∉ chunk) (h : Valid idx shape) :
    Valid (List.zipWith (· / ·) idx chunk) (List.zipWith perDim shape chunk) ∧
    Valid (List.zipWith (· % ·) idx chunk) chunk := by
  induction chunk generalizing idx shape with
  | nil =>
      have hs : shape = [] := List.eq_nil_of_length_eq_zero hl.symm
      subst hs
      cases h
      exact ⟨.nil, .nil⟩
  | cons c cs ih =>
      cases shape with
      | nil => simp at hl
      | cons d ds =>
          cases h with
          | @cons i _ is _ h hs =>
              have hc : 0 < c := by
                rcases Nat.eq_zero_or_pos c with h | h
                · simp [h] at h0
                · exact h
              obtain ⟨a, b⟩ := ih (by simpa using hl) (fun h => h0 (by simp [h])) hs
              refine ⟨.cons ?_ a, .cons (Nat.mod_lt _ hc) b⟩
              unfold perDim
              split
              · next hm =>
                  rw [Nat.div_lt_iff_lt_mul hc, Nat.div_mul_cancel (Nat.dvd_of_mod_eq_zero hm)]; exact h
              · have := Nat.div_le_div_right (c := c) (Nat.le_of_lt h)
                exact Nat.lt_succ_of_le this

theorem divmod_inj : ∀ {idx idx' chunk : List Nat}, idx.length = chunk.length → idx'.length = chunk.length →
    List.zipWith (· / ·) idx chunk = List.zipWith (· / ·) idx' chunk →
    List.zipWith (· % ·) idx chunk = List.zipWith (· % ·) idx' chunk → idx = idx'
  | [], [], [], _, _, _, _ => rfl
  | i :: is, j :: js, c :: cs, h1, h2, h3, h4 => by
      simp only [List.zipWith_cons_cons, List.cons.injEq] at h3 h4
      have e : i = j := by rw [← Nat.div_add_mod i c, ← Nat.div_add_mod j c, h3.1, h4.1]
      rw [e, divmod_inj (by simpa using h1) (by simpa using h2) h3.2 h4.2]
  | [], _ :: _, [], _, h, _, _ => by simp at h
  | [], _ :: _, _ :: _, h, _, _, _ => by simp at h
  | _ :: _, [], [], h, _, _, _ => by simp at h
  | _ :: _, [], _ :: _, _, h, _, _ => by simp at h

theorem linRest2_eq : ∀ (is cs ss ts : List Nat), is.length = cs.length → ss.length = cs.length → ts.length = cs.length →
    linRest2 is cs ss ts = linRest (List.zipWith (· % ·) is cs) ss + linRest (List.zipWith (· / ·) is cs) ts
  | [], [], [], [], _, _, _ => rfl
  | i :: is, c :: cs, s :: ss, t :: ts, h1, h2, h3 => by
      have := linRest2_eq is cs ss ts (by simpa using h1) (by simpa using h2) (by simpa using h3)
      simp only [linRest2, linRest, List.zipWith_cons_cons, this]; omega

/-- The position of an element: inside its chunk, and the number of its chunk. -/
theorem lin2_eq {t : CK α} (w : t.WF) {idx : List Nat} (h : Valid idx t.shape) (hr : t.rank ≠ 0) :
    t.linearId idx = .ok (place (List.zipWith (· % ·) idx t.chunk) t.chunk +
      t.chunk.prod * place (t.chunkIds idx) t.per) := by
  have hl := h.length
  have hlen := w.len
  obtain ⟨v1, v2⟩ := valid_div w.len w.posC h
  have hpl : t.per.length = t.chunk.length := by simp [CK.per, hlen]
  unfold CK.linearId
  rw [if_neg]
  · congr 1
    rw [show t.rank = idx.length from hl.symm, List.take_length]
    have key : lin2 idx t.chunk t.intra t.cstrides = linRest2 idx t.chunk t.intra t.cstrides := by
      cases hi : idx with
      | nil => rw [hi] at hl; exact absurd hl.symm hr
      | cons i is =>
          cases hc : t.chunk with
          | nil => simp [hi, hc] at hl hlen; omega
          | cons c cs =>
              have : t.intra = 1 :: stridesFrom (1 * c) cs := by simp [CK.intra, hc, stridesFrom]
              rw [this]
              cases hs : t.cstrides with
              | nil =>
                  have := stridesFrom_length t.per t.elems
                  simp [CK.cstrides] at hs; rw [hs] at this; simp [hpl, hc] at this
              | cons q qs => simp only [lin2, linRest2, Nat.mul_one]; rw [Nat.mul_comm q]
    rw [key]
    unfold CK.intra CK.cstrides
    rw [linRest2_eq _ _ _ _ (by omega) (stridesFrom_length ..) (by rw [stridesFrom_length, hpl])]
    rw [linRest_strides _ _ _ v2, Nat.one_mul]
    have : linRest (List.zipWith (· / ·) idx t.chunk) (stridesFrom t.elems t.per) = t.elems * place (t.chunkIds idx) t.per :=
      linRest_strides _ _ _ v1
    rw [this, CK.elems, count_eq]
  · simp only [CK.rank] at *
    rintro (h' | h' | h')
    · omega
    · rw [h'] at hl; simp at hl; omega
    · rw [h'] at hlen; simp at hlen; omega

theorem pos_lt {p q N Q : Nat} (hp : p < N) (hq : q < Q) : p + N * q < Q * N := by
  calc p + N * q < N + N * q := by omega
    _ = N * (q + 1) := by rw [Nat.mul_add]; omega
    _ ≤ N * Q := Nat.mul_le_mul_left N hq
    _ = Q * N := Nat.mul_comm ..

theorem pos_inj {p p' q q' N : Nat} (hp : p < N) (hp' : p' < N) (h : p + N * q = p' + N * q') : p = p' ∧ q = q' := by
  have h1 : p = p' := by
    have := congrArg (· % N) h
    simpa [Nat.add_mul_mod_self_left, Nat.mod_eq_of_lt hp, Nat.mod_eq_of_lt hp'] using this
  exact ⟨h1, Nat.eq_of_mul_eq_mul_left (by omega : 0 < N) (by omega)⟩

/-- Where an element lies. -/
def CK.at' (t : CK α) (idx : List Nat) : Nat :=
  place (List.zipWith (· % ·) idx t.chunk) t.chunk + t.chunk.prod * place (t.chunkIds idx) t.per

theorem at_lt {t : CK α} (w : t.WF) {idx : List Nat} (h : Valid idx t.shape) : t.at' idx < t.mem.size := by
  obtain ⟨v1, v2⟩ := valid_div w.len w.posC h
  rw [w.memSize]
  exact pos_lt (place_lt v2) (place_lt v1)

theorem at_inj {t : CK α} (w : t.WF) {idx idx' : List Nat} (h : Valid idx t.shape) (h' : Valid idx' t.shape)
    (e : t.at' idx = t.at' idx') : idx = idx' := by
  obtain ⟨v1, v2⟩ := valid_div w.len w.posC h
  obtain ⟨u1, u2⟩ := valid_div w.len w.posC h'
  obtain ⟨e1, e2⟩ := pos_inj (place_lt v2) (place_lt u2) e
  exact divmod_inj (by rw [h.length, w.len]) (by rw [h'.length, w.len]) (place_inj v1 u1 e2) (place_inj v2 u2 e1)

theorem chunkLin_eq {t : CK α} (w : t.WF) {idx : List Nat} (h : Valid idx t.shape) :
    t.chunkLin (t.chunkIds idx) = place (t.chunkIds idx) t.per ∧ place (t.chunkIds idx) t.per < t.flags.size := by
  obtain ⟨v1, _⟩ := valid_div w.len w.posC h
  refine ⟨?_, by rw [w.flagSize]; exact place_lt v1⟩
  unfold CK.chunkLin
  have := linRest_strides _ _ 1 v1
  rw [Nat.one_mul] at this
  exact this

theorem valid_nil {t : CK α} (hr : t.rank = 0) {idx : List Nat} (h : Valid idx t.shape) : idx = [] ∧ t.shape = [] := by
  have hs : t.shape = [] := List.eq_nil_of_length_eq_zero hr
  rw [hs] at h
  cases h
  exact ⟨rfl, hs⟩

theorem at_nil {t : CK α} (w : t.WF) (hr : t.rank = 0) : t.at' [] = 0 := by
  have hs : t.shape = [] := List.eq_nil_of_length_eq_zero hr
  have hc : t.chunk = [] := List.eq_nil_of_length_eq_zero (by rw [w.len, hs]; rfl)
  simp [CK.at', CK.chunkIds, hc, place]

theorem get_valid {t : CK α} (w : t.WF) {idx : List Nat} (h : Valid idx t.shape) :
    t.get idx = .ok (t.mem.data (t.at' idx)) := by
  unfold CK.get
  by_cases hr : t.rank = 0
  · obtain ⟨rfl, _⟩ := valid_nil hr h
    rw [if_pos hr, at_nil w hr, Buf.read_eq]
    rw [w.memSize]; exact w.pos0
  · rw [if_neg hr, lin2_eq w h hr]
    simp only [Res.ok_bind]
    exact Buf.read_eq (at_lt w h)

/-- The chunk of an element has been loaded (the single element of a tensor of rank zero always counts as loaded). -/
def CK.Loaded (t : CK α) (idx : List Nat) : Prop := t.rank = 0 ∨ t.flags.data (place (t.chunkIds idx) t.per) = true

theorem tryGet_valid {t : CK α} (w : t.WF) {idx : List Nat} (h : Valid idx t.shape) :
    (t.Loaded idx → t.tryGet idx = .ok (some (t.mem.data (t.at' idx)))) ∧ (¬ t.Loaded idx → t.tryGet idx = .ok none) := by
  have hg := get_valid w h
  unfold CK.get at hg
  unfold CK.tryGet CK.Loaded
  by_cases hr : t.rank = 0
  · rw [if_pos hr] at hg
    rw [if_neg (by simpa [CK.rank] using h.length), if_pos hr, hg]
    exact ⟨fun _ => rfl, fun h' => absurd (.inl hr) h'⟩
  · rw [if_neg hr] at hg
    obtain ⟨c1, c2⟩ := chunkLin_eq w h
    rw [if_neg (by simpa [CK.rank] using h.length), if_neg hr, c1, Buf.read_eq c2]
    simp only [Res.ok_bind]
    rw [(any_ge h.length).2 h]
    rw [lin2_eq w h hr] at hg ⊢
    simp only [Res.ok_bind] at hg ⊢
    constructor
    · rintro (h' | h')
      · exact absurd h' hr
      · simp [h', hg]; rfl
    · intro h'
      have : t.flags.data (place (t.chunkIds idx) t.per) = false := by
        simpa [hr] using h'
      simp [this]

/-- **C361.** New tensors with initial value show it everywhere; new tensors without one (of rank at least one) show nothing. -/
theorem C361_create (junk : Nat → α) (shape chunk : List Nat) (init : Option α) (hl : chunk.length = shape.length) :
    (0 ∈ shape ∨ 0 ∈ chunk → Res.Throws (create junk shape chunk init)) ∧
    (0 ∉ shape → 0 ∉ chunk → ∃ t, create junk shape chunk init = .ok t ∧ t.WF ∧ t.shape = shape ∧
      ∀ idx, Valid idx shape → match init with
        | some v => t.tryGet idx = .ok (some v) ∧ t.get idx = .ok v
        | none => shape ≠ [] → t.tryGet idx = .ok none) := by
  have ht : chunk.take shape.length = chunk := by rw [← hl, List.take_length]
  constructor
  · intro h
    unfold create
    rw [if_neg (by omega), ht, if_pos h]
    exact ⟨_, rfl⟩
  · intro h1 h2
    have hn : ¬ (0 ∈ shape ∨ 0 ∈ chunk.take shape.length) := by rw [ht]; simp [h1, h2]
    have hper : ∀ (s c : List Nat), c.length = s.length → 0 ∉ s → 0 ∉ c → 0 < (List.zipWith perDim s c).prod * c.prod := by
      intro s
      induction s with
      | nil => intro c h _ _; have : c = [] := List.eq_nil_of_length_eq_zero h; simp [this]
      | cons d ds ih =>
          intro c h hs hc
          cases c with
          | nil => simp at h
          | cons c cs =>
              have := ih cs (by simpa using h) (fun h => hs (by simp [h])) (fun h => hc (by simp [h]))
              have hd : 0 < d := by
                rcases Nat.eq_zero_or_pos d with h | h
                · simp [h] at hs
                · exact h
              have hc' : 0 < c := by
                rcases Nat.eq_zero_or_pos c with h | h
                · simp [h] at hc
                · exact h
              have hp : 0 < perDim d c := by
                unfold perDim; split
                · next hm => exact Nat.div_pos (Nat.le_of_dvd hd (Nat.dvd_of_mod_eq_zero hm)) hc'
                · exact Nat.succ_pos _
              simp only [List.zipWith_cons_cons, List.prod_cons]
              exact Nat.mul_pos (Nat.mul_pos hp (Nat.pos_of_mul_pos_right this)) (Nat.mul_pos hc' (Nat.pos_of_mul_pos_left this))
    have hp := hper shape chunk hl h1 h2
    have w : ∀ data flag, CK.WF (⟨shape, chunk, ⟨count (List.zipWith perDim shape chunk) * count chunk, data⟩,
        ⟨count (List.zipWith perDim shape chunk), flag⟩⟩ : CK α) := fun data flag =>
      ⟨hl, h2, by simp [CK.per, count_eq], by simp [CK.per, count_eq], hp⟩
    cases init with
    | none =>
        refine ⟨_, by unfold create; rw [if_neg (by omega), if_neg hn], w _ _, rfl, ?_⟩
        intro idx hv hs
        refine (tryGet_valid (w _ _) hv).2 ?_
        simp only [CK.Loaded, CK.rank]
        simp [hs]
    | some v =>
        refine ⟨_, by unfold create; rw [if_neg (by omega), if_neg hn], w _ _, rfl, ?_⟩
        intro idx hv
        exact ⟨(tryGet_valid (w _ _) hv).1 (.inr rfl), get_valid (w _ _) hv⟩

/-- **C361.** Writing an element makes it visible and changes no other element, whatever the extents of the tensor and of the
chunks (which need not divide them); a checked write with wrong indexes changes nothing; a checked read of an existing element
returns what an unchecked one does, or nothing if its chunk has not been loaded. -/
theorem C361_element_access (t : CK α) (w : t.WF) (idx : List Nat) (v : α) :
    (Valid idx t.shape → ∃ t', t.trySet idx v = .ok (t', true) ∧ t'.WF ∧ t'.shape = t.shape ∧ t'.get idx = .ok v ∧
      t'.tryGet idx = .ok (some v) ∧
      ∀ idx', Valid idx' t.shape → idx' ≠ idx → t'.get idx' = t.get idx' ∧
        ∀ u, t.tryGet idx' = .ok (some u) → t'.tryGet idx' = .ok (some u)) ∧
    (¬ Valid idx t.shape → t.trySet idx v = .ok (t, false)) ∧
    (Valid idx t.shape → ∃ u, t.get idx = .ok u ∧ (t.tryGet idx = .ok (some u) ∨ t.tryGet idx = .ok none)) := by
  refine ⟨fun h => ?_, fun h => ?_, fun h => ?_⟩
  · by_cases hr : t.rank = 0
    · obtain ⟨rfl, hs⟩ := valid_nil hr h
      have h0 : 0 < t.mem.size := by rw [w.memSize]; exact w.pos0
      let t' : CK α := { t with mem := t.mem.put 0 v }
      have w' : t'.WF := ⟨w.len, w.posC, w.memSize, w.flagSize, w.pos0⟩
      have hg : t'.get [] = .ok v := by
        rw [get_valid w' h, show t'.at' [] = 0 from at_nil w' hr]; simp [t', Buf.put]
      refine ⟨t', ?_, w', rfl, hg, ?_, fun idx' h' hne => ?_⟩
      · unfold CK.trySet
        rw [if_neg (by simp [hr]), if_pos hr, Buf.write_eq h0]; rfl
      · have := (tryGet_valid w' h).1 (.inl hr)
        rw [this]; rw [get_valid w' h] at hg; simpa using hg
      · exact absurd (valid_nil hr h').1 hne
    · obtain ⟨c1, c2⟩ := chunkLin_eq w h
      let t' : CK α := { t with mem := t.mem.put (t.at' idx) v, flags := t.flags.put (place (t.chunkIds idx) t.per) true }
      have w' : t'.WF := ⟨w.len, w.posC, w.memSize, w.flagSize, w.pos0⟩
      have hat : ∀ i, t'.at' i = t.at' i := fun _ => rfl
      have hci : ∀ i, t'.chunkIds i = t.chunkIds i := fun _ => rfl
      have hper : t'.per = t.per := rfl
      have hg : t'.get idx = .ok v := by
        rw [get_valid w' h, hat]; simp [t', Buf.put]
      refine ⟨t', ?_, w', rfl, hg, ?_, fun idx' h' hne => ?_⟩
      · unfold CK.trySet
        rw [if_neg (by simpa [CK.rank] using h.length), if_neg hr, (any_ge h.length).2 h, lin2_eq w h hr]
        simp only [Res.ok_bind, Bool.false_eq_true, if_false]
        have hw := Buf.write_eq (v := v) (at_lt w h)
        unfold CK.at' at hw
        rw [hw, c1]
        simp only [Res.ok_bind]
        rw [Buf.write_eq c2]; rfl
      · have hl : t'.Loaded idx := .inr (by rw [hci, hper]; simp [t', Buf.put])
        rw [(tryGet_valid w' h).1 hl]; rw [get_valid w' h] at hg; simpa using hg
      · have hd : t'.mem.data (t'.at' idx') = t.mem.data (t.at' idx') := by
          have : t.at' idx' ≠ t.at' idx := fun e => hne (at_inj w h' h e)
          rw [hat]; simp [t', Buf.put, this]
        refine ⟨by rw [get_valid w' h', get_valid w h', hd], fun u hu => ?_⟩
        by_cases hL : t.Loaded idx'
        · have hL' : t'.Loaded idx' := by
            rcases hL with hL | hL
            · exact .inl hL
            · refine .inr ?_
              rw [hci, hper]
              simp only [t', Buf.put]
              split
              · rfl
              · exact hL
          rw [(tryGet_valid w' h').1 hL', hd, ← hu, (tryGet_valid w h').1 hL]
        · rw [(tryGet_valid w h').2 hL] at hu; simp at hu
  · unfold CK.trySet
    by_cases hl : idx.length = t.rank
    · rw [if_neg (by simpa using hl)]
      by_cases hr : t.rank = 0
      · exfalso
        have hs : t.shape = [] := List.eq_nil_of_length_eq_zero hr
        have hi : idx = [] := List.eq_nil_of_length_eq_zero (by omega)
        rw [hs, hi] at h; exact h .nil
      · rw [if_neg hr, if_pos]
        by_contra hc
        exact h ((any_ge hl).1 (by simpa using hc))
    · rw [if_pos hl]
  · refine ⟨_, get_valid w h, ?_⟩
    by_cases hL : t.Loaded idx
    · exact .inl ((tryGet_valid w h).1 hL)
    · exact .inr ((tryGet_valid w h).2 hL)

/-- **C361.** Writing an element loads its own chunk only: what checked reads say about elements of other chunks (those that
differ from it in the quotient of some index by the extent of the chunks) stays the same. -/
theorem C361_other_chunks (t : CK α) (w : t.WF) (idx idx' : List Nat) (v : α) (h : Valid idx t.shape)
    (h' : Valid idx' t.shape) (hne : List.zipWith (· / ·) idx' t.chunk ≠ List.zipWith (· / ·) idx t.chunk) :
    ∃ t', t.trySet idx v = .ok (t', true) ∧ t'.tryGet idx' = t.tryGet idx' := by
  have hr : t.rank ≠ 0 := by
    intro hr
    rw [(valid_nil hr h).1, (valid_nil hr h').1] at hne
    exact hne rfl
  obtain ⟨c1, c2⟩ := chunkLin_eq w h
  let t' : CK α := { t with mem := t.mem.put (t.at' idx) v, flags := t.flags.put (place (t.chunkIds idx) t.per) true }
  have w' : t'.WF := ⟨w.len, w.posC, w.memSize, w.flagSize, w.pos0⟩
  refine ⟨t', ?_, ?_⟩
  · unfold CK.trySet
    rw [if_neg (by simpa [CK.rank] using h.length), if_neg hr, (any_ge h.length).2 h, lin2_eq w h hr]
    simp only [Res.ok_bind, Bool.false_eq_true, if_false]
    have hw := Buf.write_eq (v := v) (at_lt w h)
    unfold CK.at' at hw
    rw [hw, c1]
    simp only [Res.ok_bind]
    rw [Buf.write_eq c2]; rfl
  · obtain ⟨v1, _⟩ := valid_div w.len w.posC h
    obtain ⟨u1, _⟩ := valid_div w.len w.posC h'
    have hp : place (t.chunkIds idx') t.per ≠ place (t.chunkIds idx) t.per := fun e => hne (place_inj u1 v1 e)
    have hL : t'.Loaded idx' ↔ t.Loaded idx' := by
      unfold CK.Loaded
      rw [show t'.flags.data (place (t'.chunkIds idx') t'.per) = t.flags.data (place (t.chunkIds idx') t.per) from if_neg hp]
      exact Iff.rfl
    have hd : t'.mem.data (t'.at' idx') = t.mem.data (t.at' idx') := by
      refine if_neg ?_
      intro e
      have := at_inj w h' h e
      exact hne (by rw [this])
    by_cases hl : t.Loaded idx'
    · rw [(tryGet_valid w' h').1 (hL.2 hl), (tryGet_valid w h').1 hl, hd]
    · rw [(tryGet_valid w' h').2 (fun x => hl (hL.1 x)), (tryGet_valid w h').2 hl]

/-- **C361.** Unchecked writes of existing elements do what checked ones do. -/
theorem C361_set (t : CK α) (w : t.WF) (idx : List Nat) (v : α) (h : Valid idx t.shape) (hr : t.shape ≠ []) :
    ∃ t', t.set idx v = .ok t' ∧ t.trySet idx v = .ok (t', true) := by
  have hr' : t.rank ≠ 0 := fun e => hr (List.eq_nil_of_length_eq_zero e)
  obtain ⟨c1, c2⟩ := chunkLin_eq w h
  have hw := Buf.write_eq (v := v) (at_lt w h)
  unfold CK.at' at hw
  unfold CK.set CK.trySet
  rw [if_neg hr', if_neg (by simpa [CK.rank] using h.length), if_neg hr', (any_ge h.length).2 h, lin2_eq w h hr']
  simp only [Res.ok_bind, Bool.false_eq_true, if_false]
  rw [hw, c1]
  simp only [Res.ok_bind]
  rw [Buf.write_eq c2]
  exact ⟨_, rfl, rfl⟩

/-- A 5x3 tensor in chunks of 2x2 elements. -/
def exT : CK Nat := ⟨[5, 3], [2, 2], ⟨24, fun i => i⟩, ⟨6, fun i => i != 1⟩⟩
example : exT.WF := ⟨rfl, by decide, rfl, rfl, by decide⟩
example : Valid [4, 2] exT.shape ∧ exT.get [4, 2] = .ok 20 ∧ exT.tryGet [3, 1] = .ok none := by
  refine ⟨.cons (by decide) (.cons (by decide) .nil), rfl, rfl⟩

end Verif.Chunk
