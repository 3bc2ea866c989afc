/-
  C190, C191: random samples.
-/
import Verif.Rand.Model
import Verif.Dense.Lemmas

namespace Verif.Rand
open Verif Verif.Dense

variable {V : Type}

theorem reject_ok {W : Type} {bad : W → Prop} {g : Nat → W} {pos : Nat} (h : ∃ k, ¬ bad (g (pos + k))) :
    Res.Ok (reject bad g pos) (fun x => ¬ bad x.1 ∧ ∃ i, x.1 = g i) := by
  unfold reject
  rw [dif_pos h]
  classical
  exact ⟨_, rfl, by convert Nat.find_spec h, _, rfl⟩

theorem reject_ub {W : Type} {bad : W → Prop} {g : Nat → W} {pos : Nat} (h : ∀ k, bad (g (pos + k))) : Res.IsUB (reject bad g pos) := by
  unfold reject
  rw [dif_neg (fun ⟨k, hk⟩ => hk (h k))]
  exact ⟨_, rfl⟩

/-- The conversion of integers to `double` maps positive numbers to positive numbers. -/
def PosConv (dbl : Nat → Nat) : Prop := ∀ n, 0 < n → 0 < dbl n

/-- The contract of `std::shuffle`: every old position is used for at most one new position. -/
structure ShuffleOk (size : Nat) (shuf : Nat → Nat) : Prop where
  bound : ∀ j, j < size → shuf j < size
  inj : ∀ i j, i < size → j < size → shuf i = shuf j → i = j

/-- When as many elements are needed as are left, the next one is always selected. -/
theorem pick_all {dbl : Nat → Nat} (hd : PosConv dbl) {d n : Nat} (hn : 0 < n) : pick dbl d n n = true := by
  unfold pick
  exact decide_eq_true (Nat.mod_lt _ (hd n hn))

/-- A column vector of `n` pairwise different values. -/
structure DistinctColumn (n : Nat) (a : Mat V) : Prop where
  rows : a.rows = n
  cols : a.cols = 1
  distinct : ∀ i j, i < n → j < n → a.cell i 0 = a.cell j 0 → i = j

theorem sampleSelect_ok {dbl : Nat → Nat} (hd : PosConv dbl) {range size : Nat} (hrs : size ≤ range) (draw : Nat → Nat) {shuf : Nat → Nat}
    (hsh : ShuffleOk size shuf) {m : Buf Int} (hm : m.size = size) :
    Res.Ok (sampleSelect dbl range size draw shuf m) (fun m' => m'.size = size ∧
      (∀ j, j < size → 0 ≤ m'.data j ∧ m'.data j < range) ∧
      ∀ i j, i < size → j < size → m'.data i = m'.data j → i = j) := by
  unfold sampleSelect
  refine Res.Ok.bind (P := fun (st : Buf Int × Nat) => st.1.size = size ∧ st.2 = size ∧ (∀ j, j < st.2 → 0 ≤ st.1.data j ∧ st.1.data j < (range : Int)) ∧
      ∀ i j, i < j → j < st.2 → st.1.data i < st.1.data j) ?_ ?_
  · refine forLoop_post (fun i (st : Buf Int × Nat) => st.1.size = size ∧ st.2 ≤ size ∧ size + i ≤ range + st.2 ∧
      (∀ j, j < st.2 → 0 ≤ st.1.data j ∧ st.1.data j < (i : Int)) ∧ ∀ i j, i < j → j < st.2 → st.1.data i < st.1.data j) 0 range (m, 0)
      (Nat.zero_le _) ⟨hm, Nat.zero_le _, by omega, fun j h => absurd h (Nat.not_lt_zero _), fun _ j _ h => absurd h (Nat.not_lt_zero _)⟩ ?_ ?_
    · rintro i ⟨m, k⟩ _ hi ⟨h1, h2, h3, h4, h5⟩
      simp only at h1 h2 h3 h4 h5 ⊢
      by_cases hk : k < size
      · rw [if_pos hk]
        by_cases hp : pick dbl (draw i) (range - i) (size - k) = true
        · rw [if_pos hp, Buf.write_eq (by omega)]
          refine Res.ok_iff.2 ⟨h1, hk, by simp only; omega, ?_, ?_⟩
          · intro j hj
            simp only at hj ⊢
            rw [Buf.put_data]
            split
            · omega
            · have := h4 j (by omega); omega
          · intro a b hab hb
            simp only at hb ⊢
            rw [Buf.put_data, Buf.put_data, if_neg (by omega)]
            split
            · have := h4 a (by omega); omega
            · exact h5 a b hab (by omega)
        · rw [if_neg hp]
          refine Res.ok_iff.2 ⟨h1, h2, ?_, fun j hj => ?_, h5⟩
          · simp only
            by_contra hc
            have e : range - i = size - k := by omega
            rw [e] at hp
            exact hp (pick_all hd (by omega))
          · have := h4 j hj; simp only; omega
      · rw [if_neg hk]
        refine Res.ok_iff.2 ⟨h1, h2, by simp only; omega, fun j hj => ?_, h5⟩
        have := h4 j hj; simp only; omega
    · rintro ⟨m, k⟩ ⟨h1, h2, h3, h4, h5⟩
      simp only at *
      exact ⟨h1, by omega, h4, h5⟩
  · rintro ⟨m, k⟩ ⟨h1, h2, h4, h5⟩
    simp only at h1 h2 h4 h5 ⊢
    refine Res.ok_iff.2 ⟨h1, fun j hj => ?_, fun i j hi hj e => ?_⟩
    · simp only [hj, if_true]
      exact h4 _ (by have := hsh.bound j hj; omega)
    · simp only [hi, hj, if_true] at e
      apply hsh.inj i j hi hj
      have b1 := hsh.bound i hi; have b2 := hsh.bound j hj
      rcases Nat.lt_trichotomy (shuf i) (shuf j) with h | h | h
      · have := h5 _ _ h (by omega); omega
      · exact h
      · have := h5 _ _ h (by omega); omega

theorem sampleRepl_ok (size : Nat) (draw : Nat → V) {m : Buf V} (hm : m.size = size) :
    Res.Ok (sampleRepl size draw m) (fun m' => m'.size = size ∧ ∀ j, j < size → m'.data j = draw j) := by
  unfold sampleRepl
  refine forLoop_ok (fun i m => m.size = size ∧ ∀ j, j < i → m.data j = draw j) 0 size m (Nat.zero_le _) ⟨hm, fun j h => absurd h (Nat.not_lt_zero _)⟩ ?_
  rintro i m _ hi ⟨h1, h2⟩
  rw [Buf.write_eq (by omega)]
  refine Res.ok_iff.2 ⟨h1, fun j hj => ?_⟩
  rw [Buf.put_data]
  split
  · next e => rw [e]
  · exact h2 j (by omega)

theorem column_is (n : Nat) (m : Buf V) (hm : m.size = n) : DM.Is ⟨Hdr.new n 1, m⟩ ⟨n, 1, fun r _ => m.data r⟩ :=
  is_new (by omega) (fun r c _ hc => by rw [Nat.mul_one]; congr 1; omega)

/-- C190: a sample of integers without replacement consists of pairwise different numbers from the range, whatever is drawn. -/
theorem C190_sample_distinct (dbl : Nat → Nat) (hd : PosConv dbl) (range size : Int) (h0 : 0 < size) (hr : size ≤ range)
    (draw shuf : Nat → Nat) (hsh : ShuffleOk size.toNat shuf) (junk : Nat → Int) :
    Res.Ok (sampleInt dbl range size false draw shuf junk) (fun x => ∃ a, x.Is a ∧ DistinctColumn size.toNat a ∧
      ∀ r, r < size.toNat → 0 ≤ a.cell r 0 ∧ a.cell r 0 < range) := by
  unfold sampleInt sampleCheck
  rw [if_neg (by omega), if_neg (by omega), if_neg (by simp only [id]; omega)]
  refine (sampleSelect_ok hd (range := range.toNat) (size := size.toNat) (by omega) draw hsh
    (m := (DM.create size.toNat 1 junk).mem) (by simp [DM.create])).bind ?_
  rintro m ⟨h1, h2, h3⟩
  refine Res.ok_iff.2 ⟨_, column_is _ _ h1, ⟨rfl, rfl, fun i j hi hj e => h3 i j hi hj e⟩, fun r h => ?_⟩
  have := h2 r h
  simp only
  omega

/-- C190: with replacement, all values are in the range of the draws. -/
theorem C190_sample_with_replacement (dbl : Nat → Nat) (range size : Int) (h0 : 0 < size) (hr : 0 < range)
    (draw shuf : Nat → Nat) (hdr : ∀ i, (draw i : Int) < range) (junk : Nat → Int) :
    Res.Ok (sampleInt dbl range size true draw shuf junk) (fun x => ∃ a, x.Is a ∧ a.rows = size.toNat ∧ a.cols = 1 ∧
      ∀ r, r < size.toNat → 0 ≤ a.cell r 0 ∧ a.cell r 0 < range) := by
  unfold sampleInt sampleCheck
  rw [if_neg (by omega), if_neg (by omega), if_neg (by simp)]
  refine (sampleRepl_ok size.toNat (fun i => (draw i : Int)) (m := (DM.create size.toNat 1 junk).mem) (by simp [DM.create])).bind ?_
  rintro m ⟨h1, h2⟩
  refine Res.ok_iff.2 ⟨_, column_is _ _ h1, rfl, rfl, fun r h => ?_⟩
  have := hdr r
  simp only [h2 r h]
  omega

/-- C190: exactly the impossible requests are rejected. -/
theorem C190_sample_rejects (dbl : Nat → Nat) (range size : Int) (withRepl : Bool) (draw shuf : Nat → Nat) (junk : Nat → Int)
    (h : size ≤ 0 ∨ range ≤ 0 ∨ (withRepl = false ∧ range < size)) : Res.Throws (sampleInt dbl range size withRepl draw shuf junk) := by
  unfold sampleInt sampleCheck
  by_cases h1 : size ≤ 0
  · rw [if_pos h1]; exact ⟨_, rfl⟩
  · by_cases h2 : range ≤ 0
    · rw [if_neg h1, if_pos h2]; exact ⟨_, rfl⟩
    · rw [if_neg h1, if_neg h2, if_pos (by simp only [id]; rcases h with h | h | h <;> [omega; omega; exact ⟨h.1, trivial, h.2⟩])]
      exact ⟨_, rfl⟩

/-! ## Floating-point samples -/

theorem sampleDistinct_ok (size : Nat) (draw : Nat → V) (hv : ∀ (l : List V) (pos : Nat), l.length < size → ∃ k, draw (pos + k) ∉ l)
    {m : Buf V} (hm : m.size = size) :
    Res.Ok (sampleDistinct size draw m) (fun st => st.1.size = size ∧
      (∀ j, j < size → ∃ i, st.1.data j = draw i) ∧ ∀ i j, i < size → j < size → st.1.data i = st.1.data j → i = j) := by
  unfold sampleDistinct
  refine forLoop_post (fun c st => st.1.size = size ∧ st.2.1.length = c ∧ (∀ j, j < c → st.1.data j ∈ st.2.1) ∧
      (∀ j, j < c → ∃ i, st.1.data j = draw i) ∧ ∀ i j, i < c → j < c → st.1.data i = st.1.data j → i = j) 0 size (m, [], 0) (Nat.zero_le _)
      ⟨hm, rfl, fun j h => absurd h (Nat.not_lt_zero _), fun j h => absurd h (Nat.not_lt_zero _), fun i _ h => absurd h (Nat.not_lt_zero _)⟩ ?_ ?_
  · rintro c ⟨m, l, pos⟩ _ hc ⟨h1, h2, h3, h4, h5⟩
    simp only at h1 h2 h3 h4 h5 ⊢
    refine (reject_ok (hv l pos (by omega))).bind ?_
    rintro ⟨v, pos'⟩ ⟨hnew, i0, hi0⟩
    simp only at hnew hi0 ⊢
    rw [Buf.write_eq (by omega)]
    refine Res.ok_iff.2 ⟨h1, by simp [h2], fun j hj => ?_, fun j hj => ?_, fun i j hi hj e => ?_⟩
    · simp only [Buf.put_data]
      split
      · exact List.mem_cons_self
      · exact List.mem_cons_of_mem _ (h3 j (by omega))
    · simp only [Buf.put_data]
      split
      · exact ⟨i0, hi0⟩
      · exact h4 j (by omega)
    · simp only [Buf.put_data] at e
      by_cases ei : i = c <;> by_cases ej : j = c
      · omega
      · rw [if_pos ei, if_neg ej] at e
        exact absurd (e ▸ h3 j (by omega)) hnew
      · rw [if_neg ei, if_pos ej] at e
        exact absurd (e ▸ h3 i (by omega)) hnew
      · rw [if_neg ei, if_neg ej] at e
        exact h5 i j (by omega) (by omega) e
  · rintro ⟨m, l, pos⟩ ⟨h1, h2, h3, h4, h5⟩
    exact ⟨h1, h4, h5⟩

/-- C191: a sample of floating-point numbers without replacement consists of pairwise different drawn values, provided the draws keep
producing values other than any `size - 1` given ones. -/
theorem C191_sample_float_distinct [LinearOrder V] [Zero V] (ofInt : Int → V) (range : V) (size : Int) (h0 : 0 < size) (hr : 0 < range) (draw : Nat → V)
    (hdr : ∀ i, 0 ≤ draw i ∧ draw i < range) (hv : ∀ (l : List V) (pos : Nat), l.length < size.toNat → ∃ k, draw (pos + k) ∉ l) (junk : Nat → V) :
    Res.Ok (sampleFloat ofInt range size false draw junk) (fun x => ∃ a, x.Is a ∧ DistinctColumn size.toNat a ∧
      ∀ r, r < size.toNat → 0 ≤ a.cell r 0 ∧ a.cell r 0 < range) := by
  unfold sampleFloat sampleCheck sampleFloatFill
  rw [if_neg (by omega), if_neg (not_le.2 hr), if_neg (by simp)]
  simp only [Bool.false_eq_true, if_false]
  obtain ⟨st, e, h1, h2, h3⟩ := sampleDistinct_ok size.toNat draw hv (m := (DM.create size.toNat 1 junk).mem) (by simp [DM.create])
  simp only [Res.ok_bind, e]
  refine Res.ok_iff.2 ⟨_, column_is _ _ h1, ⟨rfl, rfl, fun i j hi hj e => h3 i j hi hj e⟩, fun r h => ?_⟩
  obtain ⟨i, hi⟩ := h2 r h
  simp only [hi]
  exact hdr i

theorem forFrom_ub_at {σ : Type} {body : Nat → σ → Res σ} (Inv : Nat → σ → Prop) :
    ∀ (k i : Nat) (s : σ), Inv i s →
      (∀ j s, i ≤ j → j < i + k → Inv j s → Res.Ok (body j s) (Inv (j + 1)) ∨ Res.IsUB (body j s)) →
      (∀ s, ¬ Inv (i + k) s) → Res.IsUB (forFrom i k s body)
  | 0, i, s, h0, _, hn => absurd h0 (hn s)
  | k + 1, i, s, h0, hs, hn => by
    unfold forFrom
    rcases hs i s (Nat.le_refl _) (by omega) h0 with ⟨a, ea, ha⟩ | ⟨why, ew⟩
    · rw [ea]
      exact forFrom_ub_at Inv k (i + 1) a ha (fun j' s' a1 a2 a3 => hs j' s' (by omega) (by omega) a3)
        (fun s => by have := hn s; rwa [show i + (k + 1) = i + 1 + k from by omega] at this)
    · exact ⟨why, by rw [ew]; rfl⟩

/-- C191, refuted part: for floating-point values the size of the sample is not compared with the number of values in the range; if fewer
than `size` different values can be drawn, the kernel does not return. -/
theorem C191_sample_float_diverges_partial [LinearOrder V] [Zero V] (ofInt : Int → V) (range : V) (size : Int) (h0 : 0 < size) (hr : 0 < range) (draw : Nat → V)
    (vals : List V) (hvals : vals.length < size.toNat) (hdr : ∀ i, draw i ∈ vals) (junk : Nat → V) :
    Res.IsUB (sampleFloat ofInt range size false draw junk) := by
  unfold sampleFloat sampleCheck sampleFloatFill
  rw [if_neg (by omega), if_neg (not_le.2 hr), if_neg (by simp)]
  simp only [Bool.false_eq_true, if_false]
  have key : Res.IsUB (sampleDistinct size.toNat draw (DM.create size.toNat 1 junk).mem) := by
    unfold sampleDistinct forLoop
    refine forFrom_ub_at (fun c st => st.1.size = size.toNat ∧ st.2.1.length = c ∧ st.2.1.Nodup ∧ ∀ v ∈ st.2.1, v ∈ vals) _ 0 _
      ⟨by simp [DM.create], rfl, List.nodup_nil, by simp⟩ ?_ ?_
    · rintro c ⟨m, l, pos⟩ _ hc ⟨h1, h2, h3, h4⟩
      simp only at h1 h2 h3 h4 ⊢
      by_cases hf : ∃ k, ¬ draw (pos + k) ∈ l
      · left
        refine (reject_ok hf).bind ?_
        rintro ⟨v, pos'⟩ ⟨hnew, i0, hi0⟩
        simp only at hnew hi0 ⊢
        rw [Buf.write_eq (by omega)]
        refine Res.ok_iff.2 ⟨h1, by simp [h2], List.nodup_cons.2 ⟨hnew, h3⟩, ?_⟩
        intro w hw
        rcases List.mem_cons.1 hw with e | hw
        · rw [e, hi0]; exact hdr i0
        · exact h4 w hw
      · right
        obtain ⟨why, e⟩ := reject_ub (bad := fun v => v ∈ l) (g := draw) (pos := pos) (fun k => by
          by_contra hc
          exact hf ⟨k, hc⟩)
        exact ⟨why, by rw [e]; rfl⟩
    · rintro ⟨m, l, pos⟩ ⟨h1, h2, h3, h4⟩
      simp only at h2 h3 h4
      have : l.length ≤ vals.length := (List.subperm_of_subset h3 h4).length_le
      omega
  obtain ⟨why, e⟩ := key
  exact ⟨why, by rw [e]; rfl⟩

end Verif.Rand
