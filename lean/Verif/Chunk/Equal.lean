/-
  C369: equality of chunked tensors.
-/
import Verif.Chunk.Chunks

namespace Verif.Chunk
open Verif Verif.Dense Verif.Tens

variable {α : Type}

theorem zip_zero : ∀ (l : List Nat), (l.map fun s => (s, 0)) = List.zip l (List.replicate l.length 0)
  | [] => rfl
  | a :: l => by simp [List.replicate_succ, zip_zero l]

theorem add_zeros : ∀ (l : List Nat) (n : Nat), n = l.length → List.zipWith (· + ·) l (List.replicate n 0) = l
  | [], n, h => by simp
  | a :: l, n, h => by subst h; simp [List.replicate_succ, add_zeros l _ rfl]

theorem digits_length : ∀ (ds : List Nat) (s n : Nat), (digits s ds n).length = ds.length
  | [], _, _ => rfl
  | d :: ds, s, n => by simp [digits, digits_length ds]

theorem prod_zero : ∀ (l : List Nat), 0 ∈ l → l.prod = 0
  | [], h => by simp at h
  | a :: l, h => by
      rcases List.mem_cons.1 h with h | h
      · simp [← h]
      · simp [prod_zero l h]

theorem per_pos {t : CK α} (w : t.WF) : 0 ∉ t.per ∧ 0 < t.chunk.prod := by
  have h := w.pos0
  refine ⟨fun h0 => ?_, Nat.pos_of_mul_pos_left h⟩
  have : t.per.prod = 0 := prod_zero _ h0
  rw [this] at h; simp at h

/-- The chunk with number `i` starts behind the `i` chunks before. -/
theorem chunkPtr_eq {t : CK α} (w : t.WF) (hr : t.shape ≠ []) {i : Nat} (hi : i < t.per.prod) :
    t.chunkPtr i = .ok (t.chunk.prod * i) := by
  have hr' : t.rank ≠ 0 := fun e => hr (List.eq_nil_of_length_eq_zero e)
  obtain ⟨h0, _⟩ := per_pos w
  unfold CK.chunkPtr
  rw [if_neg hr', zip_zero, stridesFrom_length]
  rw [unrank_eq t.per _ 1 i (by simp) (by omega) h0 (by omega)]
  simp only
  rw [add_zeros _ _ (digits_length ..).symm]
  obtain ⟨v, e⟩ := place_digits t.per 1 i (by omega) h0 (by omega)
  unfold CK.cstrides
  rw [linRest_strides _ _ _ v, CK.elems, count_eq]
  have : place (digits 1 t.per i) t.per = i := by
    rw [Nat.mod_one] at e; omega
  rw [this]

/-- What the comparison says, in terms of memory. -/
theorem equal_mem (eqv : α → α → Bool) (t u : CK α) (wt : t.WF) (wu : u.WF) (hr : t.shape ≠ [])
    (hs : t.shape = u.shape) (hc : t.chunk = u.chunk) :
    ∃ r, t.equal eqv u = .ok r ∧ (r = true ↔ ∀ i, i < t.per.prod → t.flags.data i = true ∧ u.flags.data i = true ∧
      ∀ k, k < t.chunk.prod → eqv (t.mem.data (t.chunk.prod * i + k)) (u.mem.data (t.chunk.prod * i + k)) = true) := by
  have hp : u.per = t.per := by unfold CK.per; rw [hs, hc]
  have bound : ∀ i, i < t.per.prod → t.chunk.prod * i + t.chunk.prod ≤ t.per.prod * t.chunk.prod := by
    intro i hi
    calc t.chunk.prod * i + t.chunk.prod = t.chunk.prod * (i + 1) := by rw [Nat.mul_add]; omega
      _ ≤ t.chunk.prod * t.per.prod := Nat.mul_le_mul_left _ hi
      _ = _ := Nat.mul_comm ..
  have ft := wt.flagSize
  have fu := wu.flagSize
  have mt := wt.memSize
  have mu := wu.memSize
  rw [hp] at fu mu
  rw [← hc] at mu
  have he : t.elems = t.chunk.prod := by rw [CK.elems, count_eq]
  unfold CK.equal
  rw [if_neg (by simp [hs, hc]), count_eq, he]
  obtain ⟨same, e1, h1⟩ : ∃ r, (forLoop 0 t.per.prod true fun i ok => do
      let a ← t.flags.read i
      let b ← u.flags.read i
      .ok (ok && a == b)) = .ok r ∧ (r = true ↔ ∀ i, i < t.per.prod → t.flags.data i = u.flags.data i) := by
    refine forLoop_post (fun k r => r = true ↔ ∀ i, i < k → t.flags.data i = u.flags.data i) 0 _ true (Nat.zero_le _)
      (by simp) ?_ (fun _ h => h)
    intro j r _ hj hI
    rw [Buf.read_eq (by omega), Buf.read_eq (by omega)]
    refine ⟨_, rfl, ?_⟩
    show (r && t.flags.data j == u.flags.data j) = true ↔ _
    rw [Bool.and_eq_true, hI, beq_iff_eq]
    constructor
    · rintro ⟨a, b⟩ i hi
      by_cases e : i = j
      · rw [e]; exact b
      · exact a i (by omega)
    · intro h
      exact ⟨fun i hi => h i (by omega), h j (by omega)⟩
  rw [e1]
  simp only [Res.ok_bind]
  cases same with
  | false =>
      refine ⟨false, rfl, by simp, fun h => ?_⟩
      exact absurd (h1.2 fun i hi => by rw [(h i hi).1, (h i hi).2.1]) (by simp)
  | true =>
      simp only [Bool.not_true, Bool.false_eq_true, if_false]
      refine forLoop_post (fun k r => r = true ↔ ∀ i, i < k → t.flags.data i = true ∧ u.flags.data i = true ∧
        ∀ k, k < t.chunk.prod → eqv (t.mem.data (t.chunk.prod * i + k)) (u.mem.data (t.chunk.prod * i + k)) = true)
        0 _ true (Nat.zero_le _) (by simp) ?_ (fun _ h => h)
      intro j r _ hj hI
      cases r with
      | false =>
          refine ⟨false, rfl, by simp, fun h => ?_⟩
          exact absurd (hI.2 fun i hi => h i (by omega)) (by simp)
      | true =>
          have hI' := hI.1 rfl
          simp only [Bool.not_true, Bool.false_eq_true, if_false]
          rw [Buf.read_eq (by omega), Buf.read_eq (by omega)]
          simp only [Res.ok_bind]
          by_cases hf : t.flags.data j = true ∧ u.flags.data j = true
          · rw [hf.1, hf.2]
            simp only [Bool.not_true, Bool.or_self, Bool.false_eq_true, if_false]
            rw [chunkPtr_eq wt hr hj, chunkPtr_eq wu (hs ▸ hr) (by rw [hp]; exact hj)]
            simp only [Res.ok_bind]
            rw [← hc]
            have := bound j hj
            obtain ⟨r, e, h⟩ := memcmp_ok eqv t.mem u.mem (t.chunk.prod * j) (t.chunk.prod * j) t.chunk.prod
              (by omega) (by omega)
            refine ⟨r, e, h.trans ⟨fun h i hi => ?_, fun h => (h j (by omega)).2.2⟩⟩
            by_cases e : i = j
            · subst e; exact ⟨hf.1, hf.2, h⟩
            · exact hI' i (by omega)
          · rw [if_pos (by
              cases ha : t.flags.data j <;> cases hb : u.flags.data j <;> simp [ha, hb] at hf ⊢)]
            refine ⟨false, rfl, by simp, fun h => ?_⟩
            have := h j (by omega)
            exact absurd ⟨this.1, this.2.1⟩ hf

/-- If the chunks divide the tensor, every place of every chunk shows an element. -/
theorem exists_idx {shape chunk a b : List Nat} (hl : chunk.length = shape.length)
    (hd : ∀ q ∈ List.zip shape chunk, q.1 % q.2 = 0) (ha : Valid a (List.zipWith perDim shape chunk)) (hb : Valid b chunk) :
    ∃ idx, Valid idx shape ∧ List.zipWith (· / ·) idx chunk = a ∧ List.zipWith (· % ·) idx chunk = b := by
  induction chunk generalizing shape a b with
  | nil =>
      have hs : shape = [] := List.eq_nil_of_length_eq_zero hl.symm
      subst hs
      cases ha; cases hb
      exact ⟨[], .nil, rfl, rfl⟩
  | cons c cs ih =>
      cases shape with
      | nil => simp at hl
      | cons d ds =>
          cases ha with
          | @cons i _ is _ hi his =>
              cases hb with
              | @cons j _ js _ hj hjs =>
                  obtain ⟨idx, h1, h2, h3⟩ := ih (by simpa using hl) (fun q hq => hd q (by simp [hq])) his hjs
                  have hm : d % c = 0 := hd (d, c) (by simp)
                  unfold perDim at hi
                  rw [if_pos hm] at hi
                  have hlt : i * c + j < d := by
                    calc i * c + j < i * c + c := by omega
                      _ = (i + 1) * c := by rw [Nat.add_mul]; omega
                      _ ≤ d / c * c := Nat.mul_le_mul_right c hi
                      _ ≤ d := Nat.div_mul_le_self d c
                  refine ⟨(i * c + j) :: idx, .cons hlt h1, ?_, ?_⟩
                  · simp only [List.zipWith_cons_cons, h2]
                    rw [Nat.mul_comm, Nat.mul_add_div (by omega), Nat.div_eq_of_lt hj, Nat.add_zero]
                  · simp only [List.zipWith_cons_cons, h3]
                    rw [Nat.mul_comm, Nat.mul_add_mod, Nat.mod_eq_of_lt hj]

/-- **C369.** The comparison of chunked tensors of rank at least one always returns. If it says yes, the tensors have the same shapes, all
elements are loaded and corresponding elements are the same; if the chunks divide the tensor evenly, it says yes in all these
cases. -/
theorem C369_equal (eqv : α → α → Bool) (t u : CK α) (wt : t.WF) (wu : u.WF) (hr : t.shape ≠ []) :
    ∃ r, t.equal eqv u = .ok r ∧
      (r = true → t.shape = u.shape ∧ t.chunk = u.chunk ∧ ∀ idx, Valid idx t.shape →
        ∃ a b, t.tryGet idx = .ok (some a) ∧ u.tryGet idx = .ok (some b) ∧ eqv a b = true) ∧
      ((∀ q ∈ List.zip t.shape t.chunk, q.1 % q.2 = 0) → t.shape = u.shape → t.chunk = u.chunk →
        (∀ idx, Valid idx t.shape → ∃ a b, t.tryGet idx = .ok (some a) ∧ u.tryGet idx = .ok (some b) ∧ eqv a b = true) →
        r = true) := by
  by_cases hsc : t.shape = u.shape ∧ t.chunk = u.chunk
  · obtain ⟨hs, hc⟩ := hsc
    have hp : u.per = t.per := by unfold CK.per; rw [hs, hc]
    obtain ⟨r, e, h⟩ := equal_mem eqv t u wt wu hr hs hc
    have hci : ∀ idx, u.chunkIds idx = t.chunkIds idx := fun idx => by unfold CK.chunkIds; rw [hc]
    have hat : ∀ idx, u.at' idx = t.at' idx := fun idx => by unfold CK.at'; rw [hci, hp, hc]
    have hr' : t.rank ≠ 0 := fun e => hr (List.eq_nil_of_length_eq_zero e)
    have hru : u.rank ≠ 0 := by unfold CK.rank; rw [← hs]; exact hr'
    refine ⟨r, e, fun hr1 => ⟨hs, hc, fun idx hv => ?_⟩, fun hd _ _ hall => h.2 fun i hi => ?_⟩
    · obtain ⟨v1, v2⟩ := valid_div wt.len wt.posC hv
      obtain ⟨a1, a2, a3⟩ := h.1 hr1 (place (t.chunkIds idx) t.per) (place_lt v1)
      refine ⟨_, _, (tryGet_valid wt hv).1 (.inr a1),
        (tryGet_valid wu (hs ▸ hv)).1 (.inr (by rw [hci, hp]; exact a2)), ?_⟩
      rw [hat]
      have := a3 _ (place_lt v2)
      unfold CK.at'
      rw [Nat.add_comm (place _ t.chunk)]
      exact this
    · obtain ⟨h0, hc0⟩ := per_pos wt
      obtain ⟨v1, e1⟩ := place_digits t.per 1 i (by omega) h0 (by omega)
      rw [Nat.mod_one, Nat.one_mul, Nat.add_zero] at e1
      have el : ∀ k, k < t.chunk.prod → t.flags.data i = true ∧ u.flags.data i = true ∧
          eqv (t.mem.data (t.chunk.prod * i + k)) (u.mem.data (t.chunk.prod * i + k)) = true := by
        intro k hk
        obtain ⟨v2, e2⟩ := place_digits t.chunk 1 k (by omega) wt.posC (by omega)
        rw [Nat.mod_one, Nat.one_mul, Nat.add_zero] at e2
        obtain ⟨idx, hv, x1, x2⟩ := exists_idx wt.len hd v1 v2
        obtain ⟨a, b, g1, g2, g3⟩ := hall idx hv
        have hcid : place (t.chunkIds idx) t.per = i := by unfold CK.chunkIds; rw [x1]; exact e1
        have hpos : t.at' idx = t.chunk.prod * i + k := by
          unfold CK.at'; rw [hcid, x2, e2, Nat.add_comm]
        have hvu : Valid idx u.shape := hs ▸ hv
        have l1 : t.Loaded idx := by
          by_contra hn
          rw [(tryGet_valid wt hv).2 hn] at g1; simp at g1
        have l2 : u.Loaded idx := by
          by_contra hn
          rw [(tryGet_valid wu hvu).2 hn] at g2; simp at g2
        rw [(tryGet_valid wt hv).1 l1, hpos] at g1
        rw [(tryGet_valid wu hvu).1 l2, hat, hpos] at g2
        simp only [Except.ok.injEq, Option.some.injEq] at g1 g2
        refine ⟨?_, ?_, by rw [g1, g2]; exact g3⟩
        · rcases l1 with l | l
          · exact absurd l hr'
          · rw [hcid] at l; exact l
        · rcases l2 with l | l
          · exact absurd l hru
          · rw [hci, hp, hcid] at l; exact l
      exact ⟨(el 0 hc0).1, (el 0 hc0).2.1, fun k hk => (el k hk).2.2⟩
  · refine ⟨false, ?_, by simp, fun _ h1 h2 _ => absurd ⟨h1, h2⟩ hsc⟩
    unfold CK.equal
    rw [if_pos]
    by_contra h
    simp only [not_or, not_not] at h
    exact hsc h

/-- A 4x2 tensor in chunks of 2x2, equal to itself, and different from one with another last element. -/
example : ∃ t u : CK Nat, t.WF ∧ u.WF ∧ t.shape = [4, 2] ∧ (∀ q ∈ List.zip t.shape t.chunk, q.1 % q.2 = 0) ∧
    t.equal (· == ·) t = .ok true ∧ t.equal (· == ·) u = .ok false := by
  refine ⟨⟨[4, 2], [2, 2], ⟨8, fun i => i⟩, ⟨2, fun _ => true⟩⟩,
    ⟨[4, 2], [2, 2], ⟨8, fun i => if i = 7 then 0 else i⟩, ⟨2, fun _ => true⟩⟩,
    ⟨rfl, by decide, rfl, rfl, by decide⟩, ⟨rfl, by decide, rfl, rfl, by decide⟩, rfl, by decide, rfl, rfl⟩

end Verif.Chunk
