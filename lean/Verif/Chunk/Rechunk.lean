/-
  C370, C371: changing the chunks of a tensor.
-/
import Verif.Chunk.Equal

namespace Verif.Chunk
open Verif Verif.Dense Verif.Tens

variable {α : Type}

/-- The copy of one chunk — ChunkedTensor.h:857-887 (`cids`: `current_old_chunk_ids`). -/
def copyChunk (t : CK α) (newChunk cids : List Nat) (m : Buf α) : Res (Buf α) :=
  let off := linRest cids t.cstrides
  forLoop 0 t.elems m fun j m =>
    let ids := (CT.unrank (List.zip t.intra (List.zipWith (· * ·) cids t.chunk)) j).1
    if (List.zip ids t.shape).any (fun q => decide (q.1 ≥ q.2)) then .ok m
    else do
      let l := linRest (List.zipWith (· / ·) ids newChunk)
          (stridesFrom (count newChunk) (List.zipWith perDim t.shape newChunk)) +
        linRest (List.zipWith (· % ·) ids newChunk) (stridesFrom 1 newChunk)
      let v ← t.mem.read (off + j)
      m.write l v

/-- `tryRechunk` — ChunkedTensor.h:784-899. The flags are neither reallocated nor written. `junk`: the contents of the new memory
before anything is written. -/
def rechunk (junk : Nat → α) (t : CK α) (newChunk : List Nat) : Res (CK α × Bool) :=
  if newChunk.length ≠ t.rank then .ok (t, false)
  else do
    let all ← forLoop 0 (count t.per) true fun i ok => do
      let f ← t.flags.read i
      .ok (ok && f)
    if !all then .ok (t, false)
    else if t.rank = 0 then .ok (t, true)
    else if 0 ∈ newChunk then .error (.ub "division by zero")
    else do
      let m ← forLoop 0 (count t.per)
        (⟨count (List.zipWith perDim t.shape newChunk) * count newChunk, junk⟩ : Buf α) fun i m =>
          copyChunk t newChunk (CT.unrank ((stridesFrom 1 t.per).map fun s => (s, 0)) i).1 m
      .ok ({ t with chunk := newChunk, mem := m }, true)

/-! ### Positions -/

theorem join_div : ∀ {a b c : List Nat}, a.length = c.length → Valid b c →
    List.zipWith (· / ·) (List.zipWith (· + ·) b (List.zipWith (· * ·) a c)) c = a ∧
    List.zipWith (· % ·) (List.zipWith (· + ·) b (List.zipWith (· * ·) a c)) c = b := by
  intro a b c
  induction c generalizing a b with
  | nil =>
      intro hl hb
      cases hb
      have : a = [] := List.eq_nil_of_length_eq_zero hl
      subst this
      exact ⟨rfl, rfl⟩
  | cons c cs ih =>
      intro hl hb
      cases hb with
      | @cons j _ js _ hj hjs =>
          cases a with
          | nil => simp at hl
          | cons i is =>
              obtain ⟨h1, h2⟩ := ih (a := is) (by simpa using hl) hjs
              have hc : 0 < c := by omega
              simp only [List.zipWith_cons_cons, h1, h2]
              refine ⟨?_, ?_⟩
              · rw [Nat.add_mul_div_right _ _ hc, Nat.div_eq_of_lt hj, Nat.zero_add]
              · rw [Nat.add_mul_mod_self_right, Nat.mod_eq_of_lt hj]

/-- The element at position `elems * i + j`, if there is one. -/
def ids (t : CK α) (i j : Nat) : List Nat :=
  List.zipWith (· + ·) (digits 1 t.chunk j) (List.zipWith (· * ·) (digits 1 t.per i) t.chunk)

theorem ids_spec {t : CK α} (w : t.WF) {i j : Nat} (hi : i < t.per.prod) (hj : j < t.chunk.prod) :
    (ids t i j).length = t.shape.length ∧ t.at' (ids t i j) = t.chunk.prod * i + j ∧
    ∀ idx, Valid idx t.shape → t.at' idx = t.chunk.prod * i + j → idx = ids t i j := by
  obtain ⟨h0, _⟩ := per_pos w
  obtain ⟨v1, e1⟩ := place_digits t.per 1 i (by omega) h0 (by omega)
  obtain ⟨v2, e2⟩ := place_digits t.chunk 1 j (by omega) w.posC (by omega)
  rw [Nat.mod_one, Nat.one_mul, Nat.add_zero] at e1 e2
  have hpl : t.per.length = t.chunk.length := by simp [CK.per, w.len]
  obtain ⟨d1, d2⟩ := join_div (a := digits 1 t.per i) (by rw [digits_length, hpl]) v2
  have hlen : (ids t i j).length = t.chunk.length := by
    simp [ids, digits_length, hpl]
  have hat : t.at' (ids t i j) = t.chunk.prod * i + j := by
    unfold CK.at' CK.chunkIds ids
    rw [d1, d2, e1, e2, Nat.add_comm]
  refine ⟨by rw [hlen, w.len], hat, fun idx hv he => ?_⟩
  obtain ⟨u1, u2⟩ := valid_div w.len w.posC hv
  have he' : place (List.zipWith (· % ·) idx t.chunk) t.chunk + t.chunk.prod * place (t.chunkIds idx) t.per =
      j + t.chunk.prod * i := by rw [Nat.add_comm j]; exact he
  obtain ⟨p1, p2⟩ := pos_inj (place_lt u2) hj he'
  refine divmod_inj (chunk := t.chunk) (by rw [hv.length, w.len]) hlen ?_ ?_
  · unfold ids
    rw [d1]
    exact place_inj u1 v1 (p2.trans e1.symm)
  · unfold ids
    rw [d2]
    exact place_inj u2 v2 (p1.trans e2.symm)

/-- The tensor with new chunks and the given memory; its flags are irrelevant. -/
def re (t : CK α) (newChunk : List Nat) (m : Buf α) (f : Nat → Bool) : CK α :=
  ⟨t.shape, newChunk, m, ⟨(List.zipWith perDim t.shape newChunk).prod, f⟩⟩

theorem pos_prod : ∀ (s c : List Nat), c.length = s.length → 0 ∉ s → 0 ∉ c → 0 < (List.zipWith perDim s c).prod * c.prod := by
  intro s
  induction s with
  | nil => intro c h _ _; have : c = [] := List.eq_nil_of_length_eq_zero h; simp [this]
  | cons d ds ih =>
      intro c h hs hc
      cases c with
      | nil => simp at h
      | cons c cs =>
          have := ih cs (by simpa using h) (fun h => hs (by simp [h])) (fun h => hc (by simp [h]))
          have hd : 0 < d := by
            rcases Nat.eq_zero_or_pos d with h | h
            · simp [h] at hs
            · exact h
          have hc' : 0 < c := by
            rcases Nat.eq_zero_or_pos c with h | h
            · simp [h] at hc
            · exact h
          have hp : 0 < perDim d c := by
            unfold perDim; split
            · next hm => exact Nat.div_pos (Nat.le_of_dvd hd (Nat.dvd_of_mod_eq_zero hm)) hc'
            · exact Nat.succ_pos _
          simp only [List.zipWith_cons_cons, List.prod_cons]
          exact Nat.mul_pos (Nat.mul_pos hp (Nat.pos_of_mul_pos_right this)) (Nat.mul_pos hc' (Nat.pos_of_mul_pos_left this))

/-- What has been copied when all positions below `n` have been visited. -/
def Copied (t : CK α) (newChunk : List Nat) (n : Nat) (m : Buf α) : Prop :=
  m.size = (List.zipWith perDim t.shape newChunk).prod * newChunk.prod ∧
  ∀ idx, Valid idx t.shape → t.at' idx < n → m.data ((re t newChunk m fun _ => true).at' idx) = t.mem.data (t.at' idx)

theorem shape_pos {t : CK α} (w : t.WF) : 0 ∉ t.shape := by
  obtain ⟨h0, _⟩ := per_pos w
  intro h
  apply h0
  have hl := w.len
  unfold CK.per
  generalize t.shape = s at h hl
  generalize t.chunk = c at hl
  induction s generalizing c with
  | nil => simp at h
  | cons d ds ih =>
      cases c with
      | nil => simp at hl
      | cons c cs =>
          rcases List.mem_cons.1 h with h | h
          · simp [← h, perDim]
          · simp only [List.zipWith_cons_cons, List.mem_cons]
            exact .inr (ih h cs (by simpa using hl))

theorem copyChunk_ok {t : CK α} (w : t.WF) {newChunk : List Nat} (hl : newChunk.length = t.shape.length) (h0 : 0 ∉ newChunk)
    {i : Nat} (hi : i < t.per.prod) {m : Buf α} (hm : Copied t newChunk (t.chunk.prod * i) m) :
    Res.Ok (copyChunk t newChunk (digits 1 t.per i) m) (Copied t newChunk (t.chunk.prod * (i + 1))) := by
  obtain ⟨hp0, _⟩ := per_pos w
  obtain ⟨v1, e1⟩ := place_digits t.per 1 i (by omega) hp0 (by omega)
  rw [Nat.mod_one, Nat.one_mul, Nat.add_zero] at e1
  have hpl : t.per.length = t.chunk.length := by simp [CK.per, w.len]
  have he : t.elems = t.chunk.prod := by rw [CK.elems, count_eq]
  have hoff : linRest (digits 1 t.per i) t.cstrides = t.chunk.prod * i := by
    unfold CK.cstrides
    rw [linRest_strides _ _ _ v1, he, e1]
  have hbound : t.chunk.prod * i + t.chunk.prod ≤ t.mem.size := by
    rw [w.memSize]
    calc t.chunk.prod * i + t.chunk.prod = t.chunk.prod * (i + 1) := by rw [Nat.mul_add]; omega
      _ ≤ t.chunk.prod * t.per.prod := Nat.mul_le_mul_left _ hi
      _ = _ := Nat.mul_comm ..
  unfold copyChunk
  rw [hoff, he]
  refine forLoop_post (fun j m => Copied t newChunk (t.chunk.prod * i + j) m) 0 _ m (Nat.zero_le _) hm ?_ ?_
  · intro j m _ hj ⟨hsz, hI⟩
    have hu : (CT.unrank (List.zip t.intra (List.zipWith (· * ·) (digits 1 t.per i) t.chunk)) j).1 = ids t i j := by
      unfold CK.intra
      rw [unrank_eq t.chunk _ 1 j (by simp [digits_length, hpl]) (by omega) w.posC (by omega)]
      rfl
    obtain ⟨hlen, hat, huniq⟩ := ids_spec w hi hj
    simp only [hu]
    by_cases hv : Valid (ids t i j) t.shape
    · rw [(any_ge hlen).2 hv]
      simp only [Bool.false_eq_true, if_false]
      rw [Buf.read_eq (by omega)]
      simp only [Res.ok_bind]
      obtain ⟨u1, u2⟩ := valid_div hl h0 hv
      rw [linRest_strides _ _ _ u1, linRest_strides _ _ _ u2, Nat.one_mul, count_eq]
      have hsp : 0 ∉ t.shape := shape_pos w
      have hw : CK.WF (re t newChunk m fun _ => true) := ⟨hl, h0, hsz, rfl, pos_prod t.shape newChunk hl hsp h0⟩
      have hpos : newChunk.prod * place (List.zipWith (· / ·) (ids t i j) newChunk) (List.zipWith perDim t.shape newChunk) +
          place (List.zipWith (· % ·) (ids t i j) newChunk) newChunk = (re t newChunk m fun _ => true).at' (ids t i j) :=
        Nat.add_comm _ _
      rw [hpos, show m.write _ _ = _ from Buf.write_eq (b := m) (at_lt hw hv)]
      refine ⟨_, rfl, hsz, fun idx hvi hlt => ?_⟩
      by_cases e : idx = ids t i j
      · subst e
        rw [hat]
        exact if_pos rfl
      · have hne : (re t newChunk m fun _ => true).at' idx ≠ (re t newChunk m fun _ => true).at' (ids t i j) :=
          fun e' => e (at_inj hw hvi hv e')
        have hne2 : t.at' idx ≠ t.chunk.prod * i + j := fun e' => e (huniq idx hvi e')
        have := hI idx hvi (by omega)
        rw [← this]
        exact if_neg hne
    · have hany : (List.zip (ids t i j) t.shape).any (fun q => decide (q.1 ≥ q.2)) = true := by
        by_contra hc
        exact hv ((any_ge hlen).1 (by simpa using hc))
      rw [hany, if_pos rfl]
      refine ⟨_, rfl, hsz, fun idx hvi hlt => ?_⟩
      have hne2 : t.at' idx ≠ t.chunk.prod * i + j := fun e' => hv (huniq idx hvi e' ▸ hvi)
      exact hI idx hvi (by omega)
  · intro m h
    rw [Nat.mul_succ]
    exact h

/-- Rechunking, in terms of memory. -/
theorem rechunk_ok (junk : Nat → α) (t : CK α) (w : t.WF) (hr : t.shape ≠ []) (newChunk : List Nat)
    (hl : newChunk.length = t.shape.length) (h0 : 0 ∉ newChunk) (hf : ∀ i, i < t.per.prod → t.flags.data i = true) :
    ∃ m, rechunk junk t newChunk = .ok ({ t with chunk := newChunk, mem := m }, true) ∧
      Copied t newChunk (t.chunk.prod * t.per.prod) m := by
  have hr' : t.rank ≠ 0 := fun e => hr (List.eq_nil_of_length_eq_zero e)
  have hp0 := (per_pos w).1
  unfold rechunk
  rw [if_neg (by simpa [CK.rank] using hl), count_eq]
  obtain ⟨all, e, ha⟩ : ∃ r, (forLoop 0 t.per.prod true fun i ok => do
      let f ← t.flags.read i
      .ok (ok && f)) = .ok r ∧ r = true := by
    refine forLoop_post (fun _ r => r = true) 0 _ true (Nat.zero_le _) rfl ?_ (fun _ h => h)
    intro j r _ hj hI
    rw [Buf.read_eq (by rw [w.flagSize]; exact hj)]
    exact ⟨_, rfl, by rw [hI, hf j hj]; rfl⟩
  rw [e, ha]
  simp only [Res.ok_bind, Bool.not_true, Bool.false_eq_true, if_false]
  rw [if_neg hr', if_neg h0]
  have key : Res.Ok (forLoop 0 t.per.prod
        (⟨count (List.zipWith perDim t.shape newChunk) * count newChunk, junk⟩ : Buf α) fun i m =>
          copyChunk t newChunk (CT.unrank ((stridesFrom 1 t.per).map fun s => (s, 0)) i).1 m)
      (Copied t newChunk (t.chunk.prod * t.per.prod)) := by
    refine forLoop_ok (fun i m => Copied t newChunk (t.chunk.prod * i) m) 0 _ _ (Nat.zero_le _) ?_ ?_
    · exact ⟨by simp [count_eq], fun idx _ h => by simp at h⟩
    · intro i m _ hi hm
      have hu : (CT.unrank ((stridesFrom 1 t.per).map fun s => (s, 0)) i).1 = digits 1 t.per i := by
        rw [zip_zero, stridesFrom_length, unrank_eq t.per _ 1 i (by simp) (by omega) hp0 (by omega)]
        exact add_zeros _ _ (digits_length ..).symm
      rw [hu]
      exact copyChunk_ok w hl h0 hi hm
  obtain ⟨m, e, hm⟩ := key
  rw [e]
  exact ⟨m, rfl, hm⟩

/-- Every chunk has an element, the first one. -/
theorem first_valid {a shape chunk : List Nat} (hl : chunk.length = shape.length) (h0 : 0 ∉ chunk)
    (ha : Valid a (List.zipWith perDim shape chunk)) :
    Valid (List.zipWith (· * ·) a chunk) shape ∧ List.zipWith (· / ·) (List.zipWith (· * ·) a chunk) chunk = a := by
  induction chunk generalizing shape a with
  | nil =>
      have hs : shape = [] := List.eq_nil_of_length_eq_zero hl.symm
      subst hs
      cases ha
      exact ⟨.nil, rfl⟩
  | cons c cs ih =>
      cases shape with
      | nil => simp at hl
      | cons d ds =>
          cases ha with
          | @cons i _ is _ hi his =>
              obtain ⟨h1, h2⟩ := ih (by simpa using hl) (fun h => h0 (by simp [h])) his
              have hc : 0 < c := by
                rcases Nat.eq_zero_or_pos c with h | h
                · simp [h] at h0
                · exact h
              refine ⟨.cons ?_ h1, ?_⟩
              · show i * c < d
                unfold perDim at hi
                have hdm := Nat.div_add_mod d c
                rw [Nat.mul_comm] at hdm
                split at hi
                · have := Nat.mul_le_mul_right c (Nat.succ_le_of_lt hi)
                  rw [Nat.succ_mul] at this
                  omega
                · have := Nat.mul_le_mul_right c (Nat.le_of_lt_succ hi)
                  omega
              · simp only [List.zipWith_cons_cons, h2]
                rw [Nat.mul_div_cancel _ hc]

theorem flags_of_visible {t : CK α} (w : t.WF) (hr : t.shape ≠ []) (h : ∀ idx, Valid idx t.shape → t.tryGet idx ≠ .ok none) :
    ∀ i, i < t.per.prod → t.flags.data i = true := by
  intro i hi
  have hr' : t.rank ≠ 0 := fun e => hr (List.eq_nil_of_length_eq_zero e)
  obtain ⟨v1, e1⟩ := place_digits t.per 1 i (by omega) (per_pos w).1 (by omega)
  rw [Nat.mod_one, Nat.one_mul, Nat.add_zero] at e1
  obtain ⟨hv, hd⟩ := first_valid w.len w.posC v1
  by_contra hc
  refine h _ hv ((tryGet_valid w hv).2 ?_)
  rintro (h' | h')
  · exact hr' h'
  · unfold CK.chunkIds at h'
    rw [hd, e1] at h'
    exact hc h'

/-- **C370.** Changing the chunks of a loaded tensor changes no element, whatever the old and the new extents of the chunks are
(checked reads only if there are not more chunks than before, see C371); it is refused if the number of extents is wrong or a
chunk has not been loaded. -/
theorem C370_rechunk (junk : Nat → α) (t : CK α) (w : t.WF) (hr : t.shape ≠ []) (newChunk : List Nat) (h0 : 0 ∉ newChunk) :
    (newChunk.length = t.shape.length → (∀ idx, Valid idx t.shape → t.tryGet idx ≠ .ok none) →
      ∃ t', rechunk junk t newChunk = .ok (t', true) ∧ t'.shape = t.shape ∧ t'.chunk = newChunk ∧
        ∀ idx, Valid idx t.shape → t'.get idx = t.get idx ∧
          ((List.zipWith perDim t.shape newChunk).prod ≤ (List.zipWith perDim t.shape t.chunk).prod →
            t'.tryGet idx = t.tryGet idx)) ∧
    (newChunk.length ≠ t.shape.length ∨ (∃ idx, Valid idx t.shape ∧ t.tryGet idx = .ok none) →
      rechunk junk t newChunk = .ok (t, false)) := by
  refine ⟨fun hl hvis => ?_, fun hl => ?_⟩
  · have hf := flags_of_visible w hr hvis
    obtain ⟨m, e, hsz, hI⟩ := rechunk_ok junk t w hr newChunk hl h0 hf
    have hsp : 0 ∉ t.shape := shape_pos w
    have w2 : CK.WF (re t newChunk m t.flags.data) := ⟨hl, h0, hsz, rfl, pos_prod t.shape newChunk hl hsp h0⟩
    refine ⟨_, e, rfl, rfl, fun idx hv => ?_⟩
    have hlt : t.at' idx < t.chunk.prod * t.per.prod := by
      have := at_lt w hv
      rw [w.memSize, Nat.mul_comm] at this
      exact this
    have hd : m.data ((re t newChunk m t.flags.data).at' idx) = t.mem.data (t.at' idx) := hI idx hv hlt
    have hg : (re t newChunk m t.flags.data).get idx = t.get idx := by
      rw [get_valid w2 hv, get_valid w hv]; exact congrArg _ hd
    refine ⟨hg, fun hle => ?_⟩
    have hL : t.Loaded idx := by
      obtain ⟨v1, _⟩ := valid_div w.len w.posC hv
      exact .inr (hf _ (place_lt v1))
    obtain ⟨c1, c2⟩ := chunkLin_eq w2 hv
    have hlt2 : (re t newChunk m t.flags.data).chunkLin ((re t newChunk m t.flags.data).chunkIds idx) < t.per.prod := by
      rw [c1]; exact Nat.lt_of_lt_of_le c2 hle
    have hL2 : (re t newChunk m t.flags.data).Loaded idx := .inr (by
      rw [← c1]; exact hf _ hlt2)
    rw [(tryGet_valid w hv).1 hL, ← hd]
    refine Eq.trans ?_ ((tryGet_valid w2 hv).1 hL2)
    have hread : t.flags.read ((re t newChunk m t.flags.data).chunkLin ((re t newChunk m t.flags.data).chunkIds idx)) =
        (re t newChunk m t.flags.data).flags.read
          ((re t newChunk m t.flags.data).chunkLin ((re t newChunk m t.flags.data).chunkIds idx)) := by
      rw [Buf.read_eq (by rw [w.flagSize]; exact hlt2), Buf.read_eq (by rw [c1]; exact c2)]
      rfl
    unfold CK.tryGet
    rw [← hread]
    rfl
  · unfold rechunk
    by_cases hle : newChunk.length = t.shape.length
    · rw [if_neg (by simpa [CK.rank] using hle), count_eq]
      obtain ⟨idx, hv, hn⟩ := hl.resolve_left (fun h => h hle)
      obtain ⟨v1, _⟩ := valid_div w.len w.posC hv
      have hfl : t.flags.data (place (t.chunkIds idx) t.per) = false := by
        by_contra hc
        rw [(tryGet_valid w hv).1 (.inr (by simpa using hc))] at hn
        simp at hn
      obtain ⟨all, e, ha⟩ : ∃ r, (forLoop 0 t.per.prod true fun i ok => do
          let f ← t.flags.read i
          .ok (ok && f)) = .ok r ∧ (place (t.chunkIds idx) t.per < t.per.prod → r = false) := by
        refine forLoop_post (fun k r => place (t.chunkIds idx) t.per < k → r = false) 0 _ true (Nat.zero_le _)
          (fun h => by omega) ?_ (fun _ h => h)
        intro j r _ hj hI
        rw [Buf.read_eq (by rw [w.flagSize]; exact hj)]
        refine ⟨_, rfl, fun hlt => ?_⟩
        by_cases e : place (t.chunkIds idx) t.per = j
        · rw [← e, hfl, Bool.and_false]
        · rw [hI (by omega), Bool.false_and]
      rw [e, ha (place_lt v1)]
      rfl
    · rw [if_pos (by simpa [CK.rank] using hle)]

/-- **C371.** After the chunks of a tensor have been changed, checked reads of its elements should return them. The flags keep
their old size: for every loaded tensor with one dimension that gets more chunks, the checked read of the last element reads
memory outside of the flags. -/
theorem C371_rechunk_flags_partial (junk : Nat → α) (t : CK α) (w : t.WF) (d c c' : Nat) (hs : t.shape = [d]) (hc : t.chunk = [c])
    (hvis : ∀ idx, Valid idx t.shape → t.tryGet idx ≠ .ok none) (hc' : c' ≠ 0) (hmore : perDim d c ≤ (d - 1) / c') :
    ∃ t', rechunk junk t [c'] = .ok (t', true) ∧ ∃ e, t'.tryGet [d - 1] = .error (.ub e) := by
  have hf := flags_of_visible w (by simp [hs]) hvis
  obtain ⟨m, e, _⟩ := rechunk_ok junk t w (by simp [hs]) [c'] (by simp [hs]) (by simpa using fun h => hc' h.symm) hf
  refine ⟨_, e, "out-of-bounds read", ?_⟩
  have hfl : t.flags.size = perDim d c := by rw [w.flagSize]; simp [CK.per, hs, hc]
  have hr : CK.rank ({ t with chunk := [c'], mem := m } : CK α) = 1 := by simp [CK.rank, hs]
  have hl : CK.chunkLin ({ t with chunk := [c'], mem := m } : CK α)
      (CK.chunkIds ({ t with chunk := [c'], mem := m } : CK α) [d - 1]) = (d - 1) / c' := by
    simp [CK.chunkLin, CK.chunkIds, CK.per, hs, stridesFrom, linRest]
  have hrd : t.flags.read ((d - 1) / c') = .error (.ub "out-of-bounds read") := by
    unfold Buf.read; rw [if_neg (by omega)]
  unfold CK.tryGet
  rw [if_neg (by rw [hr]; simp), if_neg (by omega), hl]
  simp only [hrd]
  rfl

/-- Five elements in chunks of three, rechunked to chunks of two. -/
def exR : CK Nat := ⟨[5], [3], ⟨6, fun i => 10 * i⟩, ⟨2, fun _ => true⟩⟩
example : exR.WF := ⟨rfl, by decide, rfl, rfl, by decide⟩
example : perDim 5 3 ≤ (5 - 1) / 2 ∧ ((rechunk (fun _ => 0) exR [2]).bind fun q => q.1.get [4]) = .ok 40 := ⟨by decide, rfl⟩

end Verif.Chunk
