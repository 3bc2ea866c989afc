/-
  C372-C374: parts of chunked tensors.
-/
import Verif.Chunk.Rechunk

namespace Verif.Chunk
open Verif Verif.Dense Verif.Tens

variable {α : Type}

/-- The check of a range `[lo, hi)` against an extent — ChunkedTensor.h:917-923, 1014-1020 (`hi - 1` wraps for zero, and the
extent check fails then). -/
def badRange (q : (Nat × Nat) × Nat) : Bool :=
  decide (q.1.1 ≥ q.2 ∨ q.1.2 = 0 ∨ q.1.2 - 1 ≥ q.2 ∨ q.1.1 > q.1.2 - 1)

/-- `tryDice` — ChunkedTensor.h:1000-1113 (none: `nullptr`). The indexes of the elements of a new chunk are computed from
`chunk_strides`, as in the code. -/
def dice (junk : Nat → α) (t : CK α) (ranges : List (Nat × Nat)) (newChunk : List Nat) : Res (Option (CK α)) :=
  if ranges.length ≠ t.rank ∨ newChunk.length ≠ t.rank then .ok none
  else if t.rank = 0 then do
    let r ← create junk t.shape t.chunk none
    let v ← t.mem.read 0
    let m ← r.mem.write 0 v
    .ok (some { r with mem := m })
  else if (List.zip ranges t.shape).any badRange then .ok none
  else do
    let counts := List.zipWith (fun q c => (q.2 - 1) / c - q.1 / c + 1) ranges t.chunk
    let firsts := List.zipWith (fun q c => q.1 / c) ranges t.chunk
    let all ← forLoop 0 (count counts) true fun i ok =>
      if !ok then .ok false
      else t.flags.read (t.chunkLin (CT.unrank (List.zip (stridesFrom 1 counts) firsts) i).1)
    if !all then .ok none
    else do
      let r ← create junk (ranges.map fun q => q.2 - 1 - q.1 + 1) newChunk none
      let r := { r with flags := ⟨r.flags.size, fun _ => true⟩ }
      let r ← forLoop 0 (count r.per) r fun i r => do
        let cids := (CT.unrank ((stridesFrom 1 r.per).map fun s => (s, 0)) i).1
        forLoop 0 r.elems r fun j r => do
          let eids := (CT.unrank (List.zip r.intra (List.zipWith (· * ·) cids r.cstrides)) j).1
          if (List.zip eids r.shape).any (fun q => decide (q.1 ≥ q.2)) then .ok r
          else do
            let v ← t.get (List.zipWith (· + ·) eids (ranges.map Prod.fst))
            r.set eids v
      .ok (some r)

/-- **C372.** A part of a chunked tensor should show the elements of the range. With two dimensions, elements of chunks behind the first
ones are not copied: whatever the tensor of two by two elements in chunks of one contains, its part of two by two elements, in
chunks of one, shows uninitialised memory in the second column. -/
theorem C372_dice_two_dimensions_partial (junk cells : Nat → α) :
    ∃ t r : CK α, t = ⟨[2, 2], [1, 1], ⟨4, cells⟩, ⟨4, fun _ => true⟩⟩ ∧ t.WF ∧
      dice junk t [(0, 2), (0, 2)] [1, 1] = .ok (some r) ∧
      t.tryGet [0, 1] = .ok (some (cells 2)) ∧ r.tryGet [0, 1] = .ok (some (junk 2)) ∧ r.tryGet [1, 0] = .ok (some (cells 1)) := by
  refine ⟨_, ⟨[2, 2], [1, 1], ((⟨4, junk⟩ : Buf α).put 0 (cells 0)).put 1 (cells 1),
    ((⟨4, fun _ => true⟩ : Buf Bool).put 0 true).put 1 true⟩, rfl, ⟨rfl, ?_, rfl, rfl, ?_⟩, ?_, ?_, ?_, ?_⟩
  · show 0 ∉ [1, 1]
    decide
  · show 0 < 4 * 1
    decide
  · with_unfolding_all rfl
  · rfl
  · rfl
  · rfl

/-! ### One dimension -/

theorem set_ok (t : CK α) (w : t.WF) (idx : List Nat) (v : α) (h : Valid idx t.shape) (hr : t.shape ≠ []) :
    ∃ t', t.set idx v = .ok t' ∧ t'.chunk = t.chunk ∧ t.trySet idx v = .ok (t', true) := by
  have hr' : t.rank ≠ 0 := fun e => hr (List.eq_nil_of_length_eq_zero e)
  obtain ⟨c1, c2⟩ := chunkLin_eq w h
  have hw := Buf.write_eq (v := v) (at_lt w h)
  unfold CK.at' at hw
  unfold CK.set CK.trySet
  rw [if_neg hr', if_neg (by simpa [CK.rank] using h.length), if_neg hr', (any_ge h.length).2 h, lin2_eq w h hr']
  simp only [Res.ok_bind, Bool.false_eq_true, if_false]
  rw [hw, c1]
  simp only [Res.ok_bind]
  rw [Buf.write_eq c2]
  exact ⟨_, rfl, rfl, rfl⟩

/-- What holds of the new tensor when the first `n` elements have been copied. -/
def Diced (t : CK α) (lo len c' n : Nat) (r : CK α) : Prop :=
  r.WF ∧ r.shape = [len] ∧ r.chunk = [c'] ∧ ∀ k, k < n → k < len → ∃ v, t.get [k + lo] = .ok v ∧ r.tryGet [k] = .ok (some v)

theorem diced_step {t : CK α} (w : t.WF) {d lo len c' n : Nat} (hs : t.shape = [d]) (hd : lo + len ≤ d) {r : CK α}
    (h : Diced t lo len c' n r) (hn : n < len) :
    Res.Ok (do
      let v ← t.get [n + lo]
      r.set [n] v) (Diced t lo len c' (n + 1)) := by
  obtain ⟨wr, hsr, hcr, hI⟩ := h
  have hv : Valid [n + lo] t.shape := by rw [hs]; exact .cons (by omega) .nil
  have hvr : Valid [n] r.shape := by rw [hsr]; exact .cons hn .nil
  rw [get_valid w hv]
  simp only [Res.ok_bind]
  obtain ⟨r', e1, e2, e3⟩ := set_ok r wr [n] (t.mem.data (t.at' [n + lo])) hvr (by rw [hsr]; simp)
  obtain ⟨r'', f1, f2, f3, _, f5, f6⟩ := (C361_element_access r wr [n] (t.mem.data (t.at' [n + lo]))).1 hvr
  have : r'' = r' := by
    rw [e3] at f1; simpa using f1.symm
  subst this
  refine ⟨_, e1, f2, f3.trans hsr, e2.trans hcr, fun k hk hkl => ?_⟩
  by_cases e : k = n
  · subst e
    exact ⟨_, get_valid w hv, f5⟩
  · obtain ⟨v, g1, g2⟩ := hI k (by omega) hkl
    refine ⟨v, g1, (f6 [k] (by rw [hsr]; exact .cons hkl .nil) (by simpa using e)).2 v g2⟩

/-- **C373.** The part of a chunked tensor with one dimension shows the elements of the range if all of them are loaded, and
otherwise there is no part; the new chunks need not fit the old ones. -/
theorem C373_dice_one_dimension (junk : Nat → α) (t : CK α) (w : t.WF) (d lo hi c' : Nat) (hs : t.shape = [d]) (hlt : lo < hi)
    (hhi : hi ≤ d) (hc' : c' ≠ 0) :
    ((∀ i, lo ≤ i → i < hi → ∃ v, t.tryGet [i] = .ok (some v)) →
      ∃ r, dice junk t [(lo, hi)] [c'] = .ok (some r) ∧ r.shape = [hi - lo] ∧ r.chunk = [c'] ∧
        ∀ i, i < hi - lo → r.tryGet [i] = t.tryGet [i + lo]) ∧
    ((∃ i, lo ≤ i ∧ i < hi ∧ t.tryGet [i] = .ok none) → dice junk t [(lo, hi)] [c'] = .ok none) := by
  obtain ⟨c, hc⟩ : ∃ c, t.chunk = [c] := by
    have := w.len
    rw [hs] at this
    exact List.length_eq_one_iff.1 this
  have hc0 : 0 < c := by
    rcases Nat.eq_zero_or_pos c with h | h
    · exact absurd w.posC (by simp [hc, h])
    · exact h
  have hr : t.rank = 1 := by simp [CK.rank, hs]
  have hmono : lo / c ≤ (hi - 1) / c := Nat.div_le_div_right (by omega)
  have hper : t.per = [perDim d c] := by simp [CK.per, hs, hc]
  have hfs : t.flags.size = perDim d c := by rw [w.flagSize, hper]; simp
  have hflag : ∀ i, i < d → (t.Loaded [i] ↔ t.flags.data (i / c) = true) ∧ i / c < perDim d c := by
    intro i hi
    have hv : Valid [i] t.shape := by rw [hs]; exact .cons hi .nil
    obtain ⟨v1, _⟩ := valid_div w.len w.posC hv
    have hp : place (t.chunkIds [i]) t.per = i / c := by simp [CK.chunkIds, hc, hper, place]
    refine ⟨?_, ?_⟩
    · unfold CK.Loaded
      rw [hp, hr]
      simp
    · have := place_lt v1
      have e2 : (List.zipWith perDim t.shape t.chunk) = [perDim d c] := hper
      rw [e2] at this
      simpa [hc, place] using this
  have hun : ∀ (n x i : Nat), (CT.unrank (List.zip (stridesFrom 1 [n]) [x]) i).1 = [i + x] := by
    intro n x i
    simp [stridesFrom, CT.unrank]
  have hflagloop : ∃ r, (forLoop 0 ((hi - 1) / c - lo / c + 1) true fun i ok =>
      if !ok then .ok false
      else t.flags.read (t.chunkLin (CT.unrank (List.zip (stridesFrom 1 [(hi - 1) / c - lo / c + 1]) [lo / c]) i).1)) = .ok r ∧
      (r = true ↔ ∀ i, i < (hi - 1) / c - lo / c + 1 → t.flags.data (i + lo / c) = true) := by
    refine forLoop_post (fun n r => r = true ↔ ∀ i, i < n → t.flags.data (i + lo / c) = true) 0 _ true (Nat.zero_le _)
      (by simp) ?_ (fun _ h => h)
    intro j r _ hj hI
    cases r with
    | false =>
        refine ⟨false, rfl, by simp, fun h => ?_⟩
        exact absurd (hI.2 fun i hi => h i (by omega)) (by simp)
    | true =>
        have hI' := hI.1 rfl
        have hcl : t.chunkLin [j + lo / c] = j + lo / c := by
          simp [CK.chunkLin, hper, stridesFrom, linRest]
        have := (hflag (hi - 1) (by omega)).2
        simp only [Bool.not_true, Bool.false_eq_true, if_false]
        rw [hun, hcl, Buf.read_eq (by omega)]
        refine ⟨_, rfl, fun h i hi => ?_, fun h => h j (by omega)⟩
        by_cases e : i = j
        · subst e; exact h
        · exact hI' i (by omega)
  obtain ⟨all, ea, hall⟩ := hflagloop
  have hbad : (List.zip [(lo, hi)] t.shape).any badRange = false := by
    rw [hs]
    simp only [List.zip_cons_cons, List.zip_nil_right, List.any_cons, List.any_nil, Bool.or_false, badRange, decide_eq_false_iff_not]
    omega
  have hcount : ∀ n : Nat, count [n] = n := fun n => by rw [count_eq]; simp
  have hcons : List.zipWith (fun (q : Nat × Nat) c => (q.2 - 1) / c - q.1 / c + 1) [(lo, hi)] t.chunk = [(hi - 1) / c - lo / c + 1] := by
    rw [hc]; rfl
  have hfirst : List.zipWith (fun (q : Nat × Nat) c => q.1 / c) [(lo, hi)] t.chunk = [lo / c] := by rw [hc]; rfl
  unfold dice
  rw [if_neg (by simp [hr]), if_neg (by omega), hbad]
  simp only [Bool.false_eq_true, if_false, hcons, hfirst, hcount]
  rw [ea]
  simp only [Res.ok_bind]
  constructor
  · intro hvis
    have htrue : all = true := by
      refine hall.2 fun i hi' => ?_
      -- an element of the range in chunk `i + lo / c`
      have hx : ∃ x, lo ≤ x ∧ x < hi ∧ x / c = i + lo / c := by
        by_cases h0 : i = 0
        · exact ⟨lo, by omega, hlt, by rw [h0]; omega⟩
        · refine ⟨(i + lo / c) * c, ?_, ?_, Nat.mul_div_cancel _ hc0⟩
          · have h1 : (lo / c + 1) * c ≤ (i + lo / c) * c := Nat.mul_le_mul_right c (by omega)
            have h2 := Nat.lt_div_mul_add (a := lo) hc0
            rw [Nat.add_mul] at h1
            omega
          · have h1 : (i + lo / c) * c ≤ (hi - 1) / c * c := Nat.mul_le_mul_right c (by omega)
            have h2 := Nat.div_mul_le_self (hi - 1) c
            omega
      obtain ⟨x, x1, x2, x3⟩ := hx
      rw [← x3]
      refine (hflag x (by omega)).1.1 ?_
      by_contra hn
      obtain ⟨v, hv⟩ := hvis x x1 x2
      rw [(tryGet_valid w (by rw [hs]; exact .cons (by omega) .nil)).2 hn] at hv
      simp at hv
    rw [htrue]
    simp only [Bool.not_true, Bool.false_eq_true, if_false]
    have hlen : hi - 1 - lo + 1 = hi - lo := by omega
    have hcr : create junk ([(lo, hi)].map fun q => q.2 - 1 - q.1 + 1) [c'] none =
        .ok ⟨[hi - lo], [c'], ⟨perDim (hi - lo) c' * c', junk⟩, ⟨perDim (hi - lo) c', fun _ => false⟩⟩ := by
      unfold create
      simp only [List.map_cons, List.map_nil, hlen]
      rw [if_neg (by simp), if_neg (by simp; omega)]
      simp [count_eq]
    rw [hcr]
    simp only [Res.ok_bind]
    generalize hr0 : (⟨[hi - lo], [c'], ⟨perDim (hi - lo) c' * c', junk⟩, ⟨perDim (hi - lo) c', fun _ => true⟩⟩ : CK α) = r0
    have w0 : Diced t lo (hi - lo) c' 0 r0 := by
      subst hr0
      refine ⟨⟨rfl, by simpa using fun h => hc' h.symm, by simp [CK.per], by simp [CK.per], ?_⟩, rfl, rfl, fun k hk => by omega⟩
      exact pos_prod [hi - lo] [c'] rfl (by simp; omega) (by simpa using fun h => hc' h.symm)
    have hp0 : count r0.per = perDim (hi - lo) c' := by subst hr0; simp [CK.per, count_eq]
    rw [hp0]
    have key : Res.Ok (forLoop 0 (perDim (hi - lo) c') r0 fun i r => do
        let cids := (CT.unrank ((stridesFrom 1 r.per).map fun s => (s, 0)) i).1
        forLoop 0 r.elems r fun j r => do
          let eids := (CT.unrank (List.zip r.intra (List.zipWith (· * ·) cids r.cstrides)) j).1
          if (List.zip eids r.shape).any (fun q => decide (q.1 ≥ q.2)) then .ok r
          else do
            let v ← t.get (List.zipWith (· + ·) eids ([(lo, hi)].map Prod.fst))
            r.set eids v) (Diced t lo (hi - lo) c' (perDim (hi - lo) c' * c')) := by
      refine forLoop_ok (fun i r => Diced t lo (hi - lo) c' (i * c') r) 0 _ r0 (Nat.zero_le _) (by simpa using w0) ?_
      intro i r _ hi' hD
      have hcid : (CT.unrank ((stridesFrom 1 r.per).map fun s => (s, 0)) i).1 = [i] := by
        simp [CK.per, hD.2.1, hD.2.2.1, stridesFrom, CT.unrank]
      have hel : r.elems = c' := by simp [CK.elems, hD.2.2.1, count_eq]
      simp only [hcid]
      rw [hel]
      refine forLoop_post (fun j r => Diced t lo (hi - lo) c' (i * c' + j) r) 0 _ r (Nat.zero_le _) (by simpa using hD) ?_ ?_
      · intro j r _ hj hD
        have heid : (CT.unrank (List.zip r.intra (List.zipWith (· * ·) [i] r.cstrides)) j).1 = [i * c' + j] := by
          simp [CK.intra, CK.cstrides, CK.elems, CK.per, hD.2.1, hD.2.2.1, stridesFrom, CT.unrank, count_eq, Nat.add_comm]
        simp only [heid]
        by_cases hb : i * c' + j < hi - lo
        · have hany : (List.zip [i * c' + j] r.shape).any (fun q => decide (q.1 ≥ q.2)) = false := by
            rw [hD.2.1]; simp; omega
          rw [hany]
          simp only [Bool.false_eq_true, if_false, List.map_cons, List.map_nil, List.zipWith_cons_cons, List.zipWith_nil_right]
          exact diced_step w hs (by omega) hD hb
        · have hany : (List.zip [i * c' + j] r.shape).any (fun q => decide (q.1 ≥ q.2)) = true := by
            rw [hD.2.1]; simp; omega
          rw [hany, if_pos rfl]
          exact ⟨_, rfl, hD.1, hD.2.1, hD.2.2.1, fun k hk hkl => hD.2.2.2 k (by omega) hkl⟩
      · intro r h
        rw [Nat.add_mul, Nat.one_mul]
        exact h
    obtain ⟨r, er, hD⟩ := key
    rw [er]
    refine ⟨r, rfl, hD.2.1, hD.2.2.1, fun i hi' => ?_⟩
    have hcov : i < perDim (hi - lo) c' * c' := by
      have hv : Valid [i] r.shape := by rw [hD.2.1]; exact .cons hi' .nil
      have hpc : 0 < c' := by omega
      unfold perDim
      split
      · next hm => rw [Nat.div_mul_cancel (Nat.dvd_of_mod_eq_zero hm)]; exact hi'
      · have := Nat.lt_div_mul_add (a := hi - lo) hpc
        rw [Nat.add_mul]
        omega
    obtain ⟨v, g1, g2⟩ := hD.2.2.2 i hcov hi'
    have hv : Valid [i + lo] t.shape := by rw [hs]; exact .cons (by omega) .nil
    obtain ⟨u, hu⟩ := hvis (i + lo) (by omega) (by omega)
    rw [g2, hu]
    obtain ⟨x, gx, hx⟩ := (C361_element_access t w [i + lo] u).2.2 hv
    rw [gx] at g1
    rcases hx with hx | hx
    · rw [hu] at hx
      simp only [Except.ok.injEq, Option.some.injEq] at g1 hx
      rw [← g1, hx]
    · rw [hu] at hx; simp at hx
  · rintro ⟨i, i1, i2, hn⟩
    have hfalse : all = false := by
      by_contra hc1
      have := hall.1 (by simpa using hc1) (i / c - lo / c) (by
        have := Nat.div_le_div_right (c := c) (show i ≤ hi - 1 by omega)
        omega)
      have hle := Nat.div_le_div_right (c := c) i1
      rw [Nat.sub_add_cancel hle] at this
      rw [(tryGet_valid w (by rw [hs]; exact .cons (by omega) .nil)).1 ((hflag i (by omega)).1.2 this)] at hn
      simp at hn
    rw [hfalse]
    rfl

example : ((dice (fun _ => 0) exR [(1, 5)] [3]).bind fun r => match r with
    | some r => r.tryGet [3]
    | none => .ok none) = .ok (some 40) := rfl

end Verif.Chunk
