/-
  Model of src/runtime/local/kernels/OneHot.h (59-124) and Recode.h (55-147), and properties C112-C115.

  Simplifications: `res == nullptr` on entry; `std::set` is a sorted list in which a value is searched from the front (the same
  elements as in the tree whenever `<` is a strict order without incomparable values); `std::unordered_map` is a list of pairs;
  codes do not overflow.
-/
import Verif.Shape.CTable

namespace Verif.Shape
open Verif Verif.Dense
variable {α : Type}

/-! ### Specification: one-hot encoding -/

/-- The cells for one value: itself if the column is kept (`d = -1`), else `d` cells with a one at the position of the value. -/
def encodeValue (zero one : α) (idx : α → Nat) (d : Int) (v : α) : List α :=
  if d = -1 then [v] else (List.range d.toNat).map fun k => if k = idx v then one else zero

/-- The cells for the first `n` values of a row. -/
def encodeRow (zero one : α) (idx : α → Nat) (info : Nat → Int) (row : Nat → α) (n : Nat) : List α :=
  (List.range n).flatMap fun c => encodeValue zero one idx (info c) (row c)

/-- Number of cells for the first `n` columns. -/
def encodedWidth (info : Nat → Int) (n : Nat) : Nat := ((List.range n).map fun c => if info c = -1 then 1 else (info c).toNat).sum

/-- One-hot encoding of a matrix. -/
def encoded (zero one : α) (idx : α → Nat) (info : Nat → Int) (a : Mat α) : Mat α :=
  ⟨a.rows, encodedWidth info a.cols, fun r c => (encodeRow zero one idx info (a.cell r) a.cols).getD c zero⟩

/-! ### Model: one-hot encoding -/

/-- OneHot.h:72-85: the number of columns of the result. -/
def oneHotWidth (info : DM Int) (n : Nat) : Res Nat :=
  forLoop 0 n 0 fun c k => do
    let d ← info.mem.read (info.h.start + c)
    if d = -1 then .ok (k + 1)
    else if 0 < d then .ok (k + d.toNat)
    else if d ≠ 0 then .error (.throw "parameter 'info' must be an integer greater or equal than -1")
    else .ok k

/-- OneHot.h:105-119: one value; `s` = (result values, `cRes`), `base` = start of the row of the result. -/
def oneHotCell (zero one : α) (idx : α → Nat) (x : DM α) (info : DM Int) (base r c : Nat) (s : Buf α × Nat) : Res (Buf α × Nat) := do
  let d ← info.mem.read (info.h.start + c)
  if d = -1 then do
    let v ← x.mem.read (x.addr r c)
    let m ← s.1.write (base + s.2) v
    .ok (m, s.2 + 1)
  else if d ≠ 0 then do
    let m ← s.1.fill (base + s.2) (base + s.2 + d.toNat) zero
    let v ← x.mem.read (x.addr r c)
    if idx v < d.toNat then do
      let m ← m.write (base + s.2 + idx v) one
      .ok (m, s.2 + d.toNat)
    else .error (.throw "arg values that are encoded must be smaller than the corresponding info value")
  else .ok s

/-- OneHot.h:102-123: one row. -/
def oneHotRow (zero one : α) (idx : α → Nat) (x : DM α) (info : DM Int) (base r : Nat) (m : Buf α) : Res (Buf α) := do
  let s ← forLoop 0 x.numCols (m, 0) fun c s => oneHotCell zero one idx x info base r c s
  .ok s.1

/-- OneHot.h:60-124. -/
def oneHot (zero one : α) (idx : α → Nat) (x : DM α) (info : DM Int) (junk : Nat → α) : Res (DM α) :=
  if info.numRows ≠ 1 then .error (.throw "parameter 'info' must be a row matrix")
  else if x.numCols ≠ info.numCols then .error (.throw "parameter 'info' must provide information for each column")
  else do
    let w ← oneHotWidth info x.numCols
    if w = 0 then .error (.throw "parameter 'info' must contain at least one non-zero entry")
    else do
      let res := DM.create x.numRows w junk
      let m ← forLoop 0 x.numRows res.mem fun r m => oneHotRow zero one idx x info (res.addr r 0) r m
      .ok ⟨res.h, m⟩

/-! ### One-hot encoding -/

theorem encodedWidth_succ (info : Nat → Int) (n : Nat) :
    encodedWidth info (n + 1) = encodedWidth info n + if info n = -1 then 1 else (info n).toNat := by
  simp [encodedWidth, List.range_succ]

theorem encodedWidth_mono (info : Nat → Int) {n n' : Nat} (h : n ≤ n') : encodedWidth info n ≤ encodedWidth info n' := by
  induction n' with
  | zero => rw [Nat.le_zero.1 h]
  | succ k ih =>
    rcases Nat.eq_or_lt_of_le h with e | e
    · rw [e]
    · rw [encodedWidth_succ]; have := ih (by omega); omega

theorem encodeRow_succ (zero one : α) (idx : α → Nat) (info : Nat → Int) (row : Nat → α) (n : Nat) :
    encodeRow zero one idx info row (n + 1) = encodeRow zero one idx info row n ++ encodeValue zero one idx (info n) (row n) := by
  simp [encodeRow, List.range_succ]

theorem encodeValue_length (zero one : α) (idx : α → Nat) (d : Int) (v : α) :
    (encodeValue zero one idx d v).length = if d = -1 then 1 else d.toNat := by
  unfold encodeValue; split <;> simp

theorem encodeRow_length (zero one : α) (idx : α → Nat) (info : Nat → Int) (row : Nat → α) (n : Nat) :
    (encodeRow zero one idx info row n).length = encodedWidth info n := by
  induction n with
  | zero => rfl
  | succ n ih => rw [encodeRow_succ, encodedWidth_succ, List.length_append, ih, encodeValue_length]

theorem oneHotWidth_ok (info : DM Int) (f : Nat → Int) (n : Nat) (hi : info.Is ⟨1, n, fun _ c => f c⟩) (hge : ∀ c, c < n → -1 ≤ f c) :
    oneHotWidth info n = .ok (encodedWidth f n) := by
  have rd : ∀ c, c < n → info.mem.read (info.h.start + c) = .ok (f c) := by
    intro c hc
    have := hi.read (r := 0) (c := c) (by simp) hc
    have ea : info.addr 0 c = info.h.start + c := by unfold DM.addr; omega
    rw [ea] at this; exact this
  unfold oneHotWidth
  have := forLoop_ok (fun i (k : Nat) => k = encodedWidth f i) 0 n 0 (body := fun c k => do
    let d ← info.mem.read (info.h.start + c)
    if d = -1 then .ok (k + 1)
    else if 0 < d then .ok (k + d.toNat)
    else if d ≠ 0 then .error (.throw "parameter 'info' must be an integer greater or equal than -1")
    else .ok k) (Nat.zero_le _) rfl (by
    rintro c k - hc hk
    have := hge c hc
    rw [rd c hc]
    simp only [Res.ok_bind]
    by_cases h1 : f c = -1
    · rw [if_pos h1]; refine Res.ok_iff.2 ?_; rw [encodedWidth_succ, if_pos h1, hk]
    · rw [if_neg h1]
      by_cases h2 : 0 < f c
      · rw [if_pos h2]; refine Res.ok_iff.2 ?_; rw [encodedWidth_succ, if_neg h1, hk]
      · rw [if_neg h2, if_neg (by simp; omega)]
        refine Res.ok_iff.2 ?_
        rw [encodedWidth_succ, if_neg h1, hk]; omega)
  obtain ⟨k, h1, h2⟩ := this
  rw [h1, h2]

theorem oneHotRow_ok (zero one : α) (idx : α → Nat) (x : DM α) (a : Mat α) (hx : x.Is a) (info : DM Int) (f : Nat → Int)
    (hi : info.Is ⟨1, a.cols, fun _ c => f c⟩) (hge : ∀ c, c < a.cols → -1 ≤ f c) {r base : Nat} (hr : r < a.rows)
    (hv : ∀ c, c < a.cols → 0 < f c → idx (a.cell r c) < (f c).toNat) (m : Buf α) (hs : base + encodedWidth f a.cols ≤ m.size) :
    Res.Ok (oneHotRow zero one idx x info base r m) (fun m' => m'.size = m.size ∧
      (∀ k, k < encodedWidth f a.cols → m'.data (base + k) = (encodeRow zero one idx f (a.cell r) a.cols).getD k zero) ∧
      ∀ p, p < base ∨ base + encodedWidth f a.cols ≤ p → m'.data p = m.data p) := by
  have e2 : x.numCols = a.cols := hx.cols
  have rd : ∀ c, c < a.cols → info.mem.read (info.h.start + c) = .ok (f c) := by
    intro c hc
    have := hi.read (r := 0) (c := c) (by simp) hc
    have ea : info.addr 0 c = info.h.start + c := by unfold DM.addr; omega
    rw [ea] at this; exact this
  unfold oneHotRow
  rw [e2]
  have hl := forLoop_ok (fun c (s : Buf α × Nat) => s.1.size = m.size ∧ s.2 = encodedWidth f c ∧
      (∀ k, k < encodedWidth f c → s.1.data (base + k) = (encodeRow zero one idx f (a.cell r) c).getD k zero) ∧
      ∀ p, p < base ∨ base + encodedWidth f a.cols ≤ p → s.1.data p = m.data p)
    0 a.cols (m, 0) (body := fun c s => oneHotCell zero one idx x info base r c s) (Nat.zero_le _)
    ⟨rfl, rfl, fun k h => by simp [encodedWidth] at h, fun p _ => rfl⟩ (by
    rintro c ⟨m', k0⟩ - hc ⟨g1, g2, g3, g4⟩
    simp only at g1 g2 g3 g4
    have hw := encodedWidth_succ f c
    have hm := encodedWidth_mono f (n := c + 1) (n' := a.cols) hc
    have hlen := encodeRow_length zero one idx f (a.cell r) c
    -- cells before the new ones
    have old : ∀ (t : Buf α), (∀ k, k < encodedWidth f c → t.data (base + k) = m'.data (base + k)) →
        (∀ j, j < (encodeValue zero one idx (f c) (a.cell r c)).length →
          t.data (base + (encodedWidth f c + j)) = (encodeValue zero one idx (f c) (a.cell r c)).getD j zero) →
        ∀ k, k < encodedWidth f (c + 1) → t.data (base + k) = (encodeRow zero one idx f (a.cell r) (c + 1)).getD k zero := by
      intro t h1 h2 k hk
      rw [encodeRow_succ]
      simp only [List.getD_eq_getElem?_getD] at h2 g3 ⊢
      by_cases h : k < encodedWidth f c
      · rw [List.getElem?_append_left (by omega), h1 k h, g3 k h]
      · rw [List.getElem?_append_right (by omega), hlen]
        have := h2 (k - encodedWidth f c) (by rw [encodeValue_length]; omega)
        rw [← this]; congr 1; omega
    unfold oneHotCell
    rw [rd c hc]
    simp only [Res.ok_bind]
    by_cases h1 : f c = -1
    · rw [if_pos h1, hx.read hr hc]
      rw [if_pos h1] at hw
      simp only [Res.ok_bind]
      rw [Buf.write_eq (by omega)]
      refine Res.ok_iff.2 ⟨g1, by simp only; omega, old _ ?_ ?_, fun p hp => ?_⟩
      · intro k hk; simp only [Buf.put_data]; rw [if_neg (by omega)]
      · intro j hj
        rw [encodeValue_length, if_pos h1] at hj
        have : j = 0 := by omega
        subst this
        simp only [Buf.put_data]
        rw [if_pos (by omega)]
        simp [encodeValue, h1]
      · simp only [Buf.put_data]; rw [if_neg (by omega)]; exact g4 p hp
    · rw [if_neg h1]
      rw [if_neg h1] at hw
      have := hge c hc
      by_cases h2 : f c = 0
      · rw [if_neg (by simpa using h2)]
        rw [h2] at hw
        have hw' : encodedWidth f (c + 1) = encodedWidth f c := by simpa using hw
        refine Res.ok_iff.2 ⟨g1, by simp only; omega, old _ (fun k _ => rfl) ?_, g4⟩
        intro j hj
        rw [encodeValue_length, if_neg h1, h2] at hj
        simp at hj
      · rw [if_pos h2]
        have hidx := hv c hc (by omega)
        refine (Buf.fill_ok (Or.inr (by omega))).bind ?_
        rintro t ⟨t1, t2⟩
        rw [hx.read hr hc]
        simp only [Res.ok_bind]
        rw [if_pos hidx, Buf.write_eq (by omega)]
        refine Res.ok_iff.2 ⟨t1.trans g1, by simp only; omega, old _ ?_ ?_, fun p hp => ?_⟩
        · intro k hk; simp only [Buf.put_data]; rw [if_neg (by omega), t2, if_neg (by omega)]
        · intro j hj
          rw [encodeValue_length, if_neg h1] at hj
          simp only [Buf.put_data, encodeValue, if_neg h1]
          rw [List.getD_eq_getElem?_getD, List.getElem?_map, List.getElem?_range hj]
          simp only [Option.map_some, Option.getD_some]
          by_cases e : j = idx (a.cell r c)
          · rw [if_pos (by omega), if_pos e]
          · rw [if_neg (by omega), if_neg e, t2, if_pos (by omega)]
        · simp only [Buf.put_data]; rw [if_neg (by omega), t2, if_neg (by omega)]; exact g4 p hp)
  refine hl.bind ?_
  rintro ⟨m', k⟩ ⟨g1, g2, g3, g4⟩
  exact ⟨_, rfl, g1, g3, g4⟩

/-- A loop in which every iteration either returns (then `good`) or throws, and one iteration is not good, throws. -/
theorem firstThrow {σ : Type} {body : Nat → σ → Res σ} (Inv : Nat → σ → Prop) (good : Nat → Prop) : ∀ (lo hi : Nat) (s : σ), Inv lo s →
    (∀ i s, lo ≤ i → i < hi → Inv i s → (Res.Ok (body i s) (Inv (i + 1)) ∧ good i) ∨ Res.Throws (body i s)) →
    (∃ i, lo ≤ i ∧ i < hi ∧ ¬ good i) → Res.Throws (forLoop lo hi s body) := by
  intro lo hi s h0 hstep hbad
  obtain ⟨k, hk⟩ : ∃ k, hi = lo + k := ⟨hi - lo, by obtain ⟨i, h1, h2, -⟩ := hbad; omega⟩
  induction k generalizing lo s with
  | zero => obtain ⟨i, h1, h2, -⟩ := hbad; omega
  | succ k ih =>
    rw [forLoop_succ lo hi s (by omega)]
    rcases hstep lo s (Nat.le_refl _) (by omega) h0 with ⟨⟨t, t1, t2⟩, hg⟩ | ⟨msg, hm⟩
    · rw [t1, Res.ok_bind]
      refine ih (lo + 1) t t2 (fun i s h1 h2 => hstep i s (by omega) h2) ?_ (by omega)
      obtain ⟨i, h1, h2, h3⟩ := hbad
      refine ⟨i, ?_, h2, h3⟩
      rcases Nat.eq_or_lt_of_le h1 with e | e
      · subst e; exact absurd hg h3
      · exact e
    · rw [hm]; exact ⟨msg, rfl⟩

/-- **C112.** One-hot encoding of a dense matrix or view: with an `info` row of values ≥ -1 (one per column, not all 0), a column
with info -1 is kept, a column with info 0 is dropped, a column with info `d` becomes `d` columns with a one at the position of the
value. It is rejected if `info` has the wrong shape, only zeros, a value below -1, or if a value to be encoded is not below `d`. -/
theorem C112_oneHot (zero one : α) (idx : α → Nat) (x : DM α) (a : Mat α) (hx : x.Is a) (info : DM Int) (b : Mat Int) (hi : info.Is b)
    (junk : Nat → α) :
    (b.rows = 1 → b.cols = a.cols → (∀ c, c < a.cols → -1 ≤ b.cell 0 c) → (∃ c, c < a.cols ∧ b.cell 0 c ≠ 0) →
      (∀ r c, r < a.rows → c < a.cols → 0 < b.cell 0 c → idx (a.cell r c) < (b.cell 0 c).toNat) →
      Res.Ok (oneHot zero one idx x info junk) (fun y => y.Is (encoded zero one idx (b.cell 0) a))) ∧
    (¬ (b.rows = 1 ∧ b.cols = a.cols ∧ (∀ c, c < a.cols → -1 ≤ b.cell 0 c) ∧ (∃ c, c < a.cols ∧ b.cell 0 c ≠ 0) ∧
      (∀ r c, r < a.rows → c < a.cols → 0 < b.cell 0 c → idx (a.cell r c) < (b.cell 0 c).toNat)) →
      Res.Throws (oneHot zero one idx x info junk)) := by
  have e1 : x.numRows = a.rows := hx.rows
  have e2 : x.numCols = a.cols := hx.cols
  have f1 : info.numRows = b.rows := hi.rows
  have f2 : info.numCols = b.cols := hi.cols
  unfold oneHot
  rw [e1, e2, f1, f2]
  have hi' : b.rows = 1 → b.cols = a.cols → info.Is ⟨1, a.cols, fun _ c => b.cell 0 c⟩ := fun h1 h2 =>
    hi.congr ⟨h1, h2, fun r c hr _ => by rw [show r = 0 by omega]⟩
  have wpos : (∃ c, c < a.cols ∧ b.cell 0 c ≠ 0) → (∀ c, c < a.cols → -1 ≤ b.cell 0 c) → encodedWidth (b.cell 0) a.cols ≠ 0 := by
    rintro ⟨c, h1, h2⟩ hge
    have := encodedWidth_succ (b.cell 0) c
    have h3 := encodedWidth_mono (b.cell 0) (n := c + 1) (n' := a.cols) h1
    have h4 := hge c h1
    split at this <;> omega
  constructor
  · intro h1 h2 hge hex hv
    rw [if_neg (by simpa using h1), if_neg (by simpa using h2.symm), oneHotWidth_ok info (b.cell 0) a.cols (hi' h1 h2) hge]
    simp only [Res.ok_bind]
    rw [if_neg (wpos hex hge)]
    generalize hW : encodedWidth (b.cell 0) a.cols = W
    have hf := fill_rows (lo := 0) (hi := a.rows) (rows := a.rows) (cols := W) (m := (DM.create a.rows W junk).mem)
      (Nat.zero_le _) rfl (encoded zero one idx (b.cell 0) a).cell
      (fun r m => oneHotRow zero one idx x info ((DM.create a.rows W junk).addr r 0) r m)
      (by
        intro r m _ hr hm
        rw [create_addr, Nat.add_zero]
        have hle : (r + 1) * W ≤ a.rows * W := Nat.mul_le_mul_right _ hr
        have e : (r + 1) * W = r * W + W := by ring
        refine (oneHotRow_ok zero one idx x a hx info (b.cell 0) (hi' h1 h2) hge (base := r * W) hr
          (fun c hc => hv r c hr hc) m (by omega)).mono ?_
        rintro m' ⟨g1, g2, g3⟩
        refine ⟨g1.trans hm, fun r' c hc => ?_⟩
        by_cases e' : r' = r
        · subst e'
          rw [if_pos rfl, g2 c (by omega)]; rfl
        · rw [if_neg e']
          apply g3
          rw [hW]
          rcases Nat.lt_or_gt_of_ne e' with h | h
          · left
            have : (r' + 1) * W ≤ r * W := Nat.mul_le_mul_right _ h
            have e3 : (r' + 1) * W = r' * W + W := by ring
            omega
          · right
            have : (r + 1) * W ≤ r' * W := Nat.mul_le_mul_right _ h
            omega)
    refine hf.bind ?_
    rintro m ⟨g1, g2⟩
    have := is_new (rows := a.rows) (cols := W) g1 (f := (encoded zero one idx (b.cell 0) a).cell) fun r c hr hc => by
      rw [g2 r c hc, if_pos ⟨Nat.zero_le _, hr⟩]
    refine ⟨_, rfl, ?_⟩
    have e : encoded zero one idx (b.cell 0) a = ⟨a.rows, W, (encoded zero one idx (b.cell 0) a).cell⟩ := by rw [← hW]; rfl
    rw [e]; exact this
  · intro hn
    by_cases h1 : b.rows = 1
    swap
    · rw [if_pos h1]; exact ⟨_, rfl⟩
    rw [if_neg (by simpa using h1)]
    by_cases h2 : b.cols = a.cols
    swap
    · rw [if_pos (fun h => h2 h.symm)]; exact ⟨_, rfl⟩
    rw [if_neg (by simpa using h2.symm)]
    have hI := hi' h1 h2
    have rd : ∀ c, c < a.cols → info.mem.read (info.h.start + c) = .ok (b.cell 0 c) := by
      intro c hc
      have := hI.read (r := 0) (c := c) (by simp) hc
      have ea : info.addr 0 c = info.h.start + c := by unfold DM.addr; omega
      rw [ea] at this; exact this
    by_cases hge : ∀ c, c < a.cols → -1 ≤ b.cell 0 c
    swap
    · have ht : Res.Throws (oneHotWidth info a.cols) := by
        unfold oneHotWidth
        refine forLoop_throws (fun _ => True) 0 a.cols 0 trivial ?_ ?_
        · rintro c k - hc -
          rw [rd c hc]
          simp only [Res.ok_bind]
          split
          · exact Or.inl ⟨_, rfl, trivial⟩
          split
          · exact Or.inl ⟨_, rfl, trivial⟩
          split
          · exact Or.inr ⟨_, rfl⟩
          · exact Or.inl ⟨_, rfl, trivial⟩
        · have hex : ∃ c, c < a.cols ∧ b.cell 0 c < -1 := by
            by_contra hno
            exact hge fun c hc => by by_contra hcon; exact hno ⟨c, hc, by omega⟩
          obtain ⟨c, hc, hlt⟩ := hex
          refine ⟨c, Nat.zero_le _, hc, fun k _ => ?_⟩
          rw [rd c hc]
          simp only [Res.ok_bind]
          rw [if_neg (by omega), if_neg (by omega), if_pos (by omega)]
          exact ⟨_, rfl⟩
      obtain ⟨msg, hm⟩ := ht
      rw [hm]; exact ⟨msg, rfl⟩
    rw [oneHotWidth_ok info (b.cell 0) a.cols hI hge]
    simp only [Res.ok_bind]
    by_cases hex : ∃ c, c < a.cols ∧ b.cell 0 c ≠ 0
    swap
    · have hz : ∀ n, n ≤ a.cols → encodedWidth (b.cell 0) n = 0 := by
        intro n
        induction n with
        | zero => intro _; rfl
        | succ n ih =>
          intro h
          have h0 : b.cell 0 n = 0 := by by_contra hc; exact hex ⟨n, by omega, hc⟩
          rw [encodedWidth_succ, ih (by omega), h0]; rfl
      rw [if_pos (hz _ (Nat.le_refl _))]; exact ⟨_, rfl⟩
    rw [if_neg (wpos hex hge)]
    generalize hW : encodedWidth (b.cell 0) a.cols = W
    -- some value is out of range
    have hbad : ∃ r c, r < a.rows ∧ c < a.cols ∧ 0 < b.cell 0 c ∧ ¬ idx (a.cell r c) < (b.cell 0 c).toNat := by
      by_contra hno
      refine hn ⟨h1, h2, hge, hex, fun r c hr hc hp => ?_⟩
      by_contra hcon
      exact hno ⟨r, c, hr, hc, hp, hcon⟩
    have ht : Res.Throws (forLoop 0 a.rows (DM.create a.rows W junk).mem
        fun r m => oneHotRow zero one idx x info ((DM.create a.rows W junk).addr r 0) r m) := by
      have hrow : ∀ r m, r < a.rows → m.size = a.rows * W →
          (Res.Ok (oneHotRow zero one idx x info ((DM.create a.rows W junk).addr r 0) r m) (fun m' => m'.size = a.rows * W) ∨
            Res.Throws (oneHotRow zero one idx x info ((DM.create a.rows W junk).addr r 0) r m)) ∧
          ((∃ c, c < a.cols ∧ 0 < b.cell 0 c ∧ ¬ idx (a.cell r c) < (b.cell 0 c).toNat) →
            Res.Throws (oneHotRow zero one idx x info ((DM.create a.rows W junk).addr r 0) r m)) := by
        intro r m hr hm
        rw [create_addr, Nat.add_zero]
        have hle : (r + 1) * W ≤ a.rows * W := Nat.mul_le_mul_right _ hr
        have e : (r + 1) * W = r * W + W := by ring
        have hthr : (∃ c, c < a.cols ∧ 0 < b.cell 0 c ∧ ¬ idx (a.cell r c) < (b.cell 0 c).toNat) →
            Res.Throws (oneHotRow zero one idx x info (r * W) r m) := by
          intro hc
          -- the first bad column
          have hc' : ∃ c, c < a.cols ∧ 0 < b.cell 0 c ∧ ¬ idx (a.cell r c) < (b.cell 0 c).toNat := hc
          unfold oneHotRow
          rw [e2]
          have ht : Res.Throws (forLoop 0 a.cols (m, 0) fun c s => oneHotCell zero one idx x info (r * W) r c s) := by
            have hcell : ∀ c (s : Buf α × Nat), c < a.cols → s.1.size = m.size ∧ s.2 = encodedWidth (b.cell 0) c →
                (Res.Ok (oneHotCell zero one idx x info (r * W) r c s) (fun s' => s'.1.size = m.size ∧ s'.2 = encodedWidth (b.cell 0) (c + 1)) ∧
                  (0 < b.cell 0 c → idx (a.cell r c) < (b.cell 0 c).toNat)) ∨
                (Res.Throws (oneHotCell zero one idx x info (r * W) r c s)) := by
              rintro c ⟨t, k⟩ hc ⟨s1, s2⟩
              simp only at s1 s2
              have hw := encodedWidth_succ (b.cell 0) c
              have hmm := encodedWidth_mono (b.cell 0) (n := c + 1) (n' := a.cols) hc
              unfold oneHotCell
              rw [rd c hc]
              simp only [Res.ok_bind]
              by_cases q1 : b.cell 0 c = -1
              · left
                rw [if_pos q1] at hw
                rw [if_pos q1, hx.read hr hc]
                simp only [Res.ok_bind]
                rw [Buf.write_eq (by omega)]
                exact ⟨⟨_, rfl, s1, by simp only; omega⟩, fun h => by omega⟩
              · rw [if_neg q1] at hw ⊢
                by_cases q2 : b.cell 0 c = 0
                · left
                  rw [if_neg (by simpa using q2)]
                  rw [q2] at hw
                  have hw' : encodedWidth (b.cell 0) (c + 1) = encodedWidth (b.cell 0) c := by simpa using hw
                  exact ⟨⟨_, rfl, s1, by simp only; omega⟩, fun h => by omega⟩
                · rw [if_pos q2]
                  obtain ⟨t', h5, h6, -⟩ := Buf.fill_ok (dst := t) (lo := r * W + k) (hi := r * W + k + (b.cell 0 c).toNat) (v := zero)
                    (Or.inr (by omega))
                  rw [h5, Res.ok_bind, hx.read hr hc]
                  simp only [Res.ok_bind]
                  by_cases q3 : idx (a.cell r c) < (b.cell 0 c).toNat
                  · left
                    rw [if_pos q3, Buf.write_eq (by omega)]
                    exact ⟨⟨_, rfl, h6.trans s1, by simp only; omega⟩, fun _ => q3⟩
                  · right; rw [if_neg q3]; exact ⟨_, rfl⟩
            exact firstThrow (fun c (s : Buf α × Nat) => s.1.size = m.size ∧ s.2 = encodedWidth (b.cell 0) c)
              (fun c => 0 < b.cell 0 c → idx (a.cell r c) < (b.cell 0 c).toNat) 0 a.cols (m, 0) ⟨rfl, rfl⟩
              (fun c s _ hc inv => hcell c s hc inv) (by
                obtain ⟨c, k1, k2, k3⟩ := hc'
                exact ⟨c, Nat.zero_le _, k1, fun h => k3 (h k2)⟩)
          obtain ⟨msg, hm'⟩ := ht
          rw [hm']; exact ⟨msg, rfl⟩
        refine ⟨?_, hthr⟩
        by_cases hall : ∀ c, c < a.cols → 0 < b.cell 0 c → idx (a.cell r c) < (b.cell 0 c).toNat
        · left
          refine (oneHotRow_ok zero one idx x a hx info (b.cell 0) hI hge (base := r * W) hr hall m (by omega)).mono ?_
          rintro m' ⟨g1, -⟩
          exact g1.trans hm
        · right
          refine hthr ?_
          by_contra hno
          exact hall fun c hc hp => by by_contra hcon; exact hno ⟨c, hc, hp, hcon⟩
      obtain ⟨r, c, hr, hc, hp, hcon⟩ := hbad
      refine forLoop_throws (fun (m : Buf α) => m.size = a.rows * W) 0 a.rows _ rfl (fun r m _ hr hm => (hrow r m hr hm).1)
        ⟨r, Nat.zero_le _, hr, fun m hm => (hrow r m hr hm).2 ⟨c, hc, hp, hcon⟩⟩
    obtain ⟨msg, hm⟩ := ht
    rw [hm]; exact ⟨msg, rfl⟩

/-- The hypotheses of `C112_oneHot` are met: two rows, one column kept, one dropped, one encoded with three positions. -/
example : Res.Ok (oneHot (0 : Int) 1 Int.toNat ⟨Hdr.new 2 3, ⟨6, fun i => [7, 8, 2, 9, 5, 0].getD i 0⟩⟩
      ⟨Hdr.new 1 3, ⟨3, fun i => [-1, 0, 3].getD i 0⟩⟩ (fun _ => 99))
    (fun y => (List.range 8).map y.mem.data = [7, 0, 0, 1, 9, 1, 0, 0]) := ⟨_, rfl, by decide +kernel⟩

/-! ### Specification: recoding -/

/-- `code` maps the first `n` values of `col` to positions in the dictionary `d`: decoding gives the values back, and the
dictionary contains every value once and nothing else. -/
structure Recoding (col : Nat → α) (n : Nat) (d : List α) (code : Nat → Nat) : Prop where
  decode : ∀ r, r < n → d[code r]? = some (col r)
  once : d.Nodup
  only : ∀ v, v ∈ d → ∃ r, r < n ∧ col r = v

/-- Codes are given in the order in which the values appear: every smaller code was used in an earlier row. -/
def FirstAppearance (col : Nat → α) (n : Nat) (d : List α) (code : Nat → Nat) : Prop :=
  ∀ r, r < n → ∀ k, k < code r → ∃ r', r' < r ∧ d[k]? = some (col r')

/-- `==` and `<` of a type of integers or strings: equality and a strict total order. -/
structure Ordered (eqv lt : α → α → Bool) : Prop where
  eq : ∀ a b, eqv a b = true ↔ a = b
  irrefl : ∀ a, lt a a = false
  trans : ∀ a b c, lt a b = true → lt b c = true → lt a c = true
  total : ∀ a b, lt a b = true ∨ a = b ∨ lt b a = true

/-- One column with the entries of a list. -/
def colOf (v0 : α) (d : List α) : Mat α := ⟨d.length, 1, fun r _ => d.getD r v0⟩

/-! ### Model: recoding -/

/-- `std::unordered_map::find`: keys are compared with `==`. -/
def mapFind (eqv : α → α → Bool) (v : α) : List (α × Nat) → Option Nat
  | [] => none
  | (k, c) :: t => if eqv k v then some c else mapFind eqv v t

/-- `std::set::insert`: find the first element that is not smaller; insert in front of it unless it is equivalent. -/
def setInsert (lt : α → α → Bool) (v : α) : List α → List α
  | [] => [v]
  | e :: t => if lt e v then e :: setInsert lt v t else if lt v e then v :: e :: t else e :: t

/-- Recode.h:117-127: one row; `s` = (codes, recodeDict, nextCode). -/
def recodeStep (eqv : α → α → Bool) (x : DM α) (r : Nat) (s : Buf Nat × List (α × Nat) × Nat) : Res (Buf Nat × List (α × Nat) × Nat) := do
  let v ← x.mem.read (x.addr r 0)
  match mapFind eqv v s.2.1 with
  | some c => do
    let m ← s.1.write r c
    .ok (m, s.2.1, s.2.2)
  | none => do
    let m ← s.1.write r s.2.2
    .ok (m, s.2.1 ++ [(v, s.2.2)], s.2.2 + 1)

/-- Recode.h:139-143: `valuesDict[c * rowSkipDict] = v` for every entry of the map. -/
def storeDict : List (α × Nat) → Buf α → Res (Buf α)
  | [], m => .ok m
  | (v, c) :: t, m => do
    let m ← m.write c v
    storeDict t m

/-- Recode.h:101-144: not order-preserving. `order` = the order in which the unordered map is traversed. -/
def recodeFirst (eqv : α → α → Bool) (order : List (α × Nat) → List (α × Nat)) (x : DM α) (junk : Nat → Nat) (junk' : Nat → α) :
    Res (DM Nat × DM α) := do
  let res := DM.create x.numRows 1 junk
  let s ← forLoop 0 x.numRows (res.mem, [], 0) fun r s => recodeStep eqv x r s
  let dict := DM.create s.2.1.length 1 junk'
  let m ← storeDict (order s.2.1) dict.mem
  .ok (⟨res.h, s.1⟩, ⟨dict.h, m⟩)

/-- Recode.h:66-73: the set of the distinct values. -/
def recodeSet (lt : α → α → Bool) (x : DM α) : Res (List α) :=
  forLoop 0 x.numRows [] fun r s => do
    let v ← x.mem.read (x.addr r 0)
    .ok (setInsert lt v s)

/-- Recode.h:80-88: the recoding and the decoding dictionary; `k` = `nextCode`. -/
def sortedDict : List α → Nat → List (α × Nat) → Buf α → Res (List (α × Nat) × Buf α)
  | [], _, mp, m => .ok (mp, m)
  | v :: t, k, mp, m => do
    let m ← m.write k v
    sortedDict t (k + 1) (mp ++ [(v, k)]) m

/-- Recode.h:94-101: the codes. A missing key is inserted with code 0 by `operator[]`. -/
def recodeSorted' (eqv : α → α → Bool) (x : DM α) (mp : List (α × Nat)) (m : Buf Nat) : Res (Buf Nat × List (α × Nat)) :=
  forLoop 0 x.numRows (m, mp) fun r s => do
    let v ← x.mem.read (x.addr r 0)
    match mapFind eqv v s.2 with
    | some c => do
      let m ← s.1.write r c
      .ok (m, s.2)
    | none => do
      let m ← s.1.write r 0
      .ok (m, s.2 ++ [(v, 0)])

/-- Recode.h:65-101: order-preserving. -/
def recodeSorted (eqv lt : α → α → Bool) (x : DM α) (junk : Nat → Nat) (junk' : Nat → α) : Res (DM Nat × DM α) := do
  let d ← recodeSet lt x
  let dict := DM.create d.length 1 junk'
  let s ← sortedDict d 0 [] dict.mem
  let res := DM.create x.numRows 1 junk
  let t ← recodeSorted' eqv x s.1 res.mem
  .ok (⟨res.h, t.1⟩, ⟨dict.h, s.2⟩)

/-- Recode.h:56-147. -/
def recode (eqv lt : α → α → Bool) (order : List (α × Nat) → List (α × Nat)) (x : DM α) (orderPreserving : Bool)
    (junk : Nat → Nat) (junk' : Nat → α) : Res (DM Nat × DM α) :=
  if x.numCols ≠ 1 then .error (.throw "the argument must have exactly one column")
  else if orderPreserving then recodeSorted eqv lt x junk junk'
  else recodeFirst eqv order x junk junk'

/-! ### Recoding by first appearance -/

theorem mapFind_zipIdx (eqv : α → α → Bool) (he : ∀ a b, eqv a b = true ↔ a = b) (v : α) : ∀ (d : List α) (k : Nat),
    (v ∉ d ∧ mapFind eqv v (d.zipIdx k) = none) ∨ (∃ c, d[c]? = some v ∧ mapFind eqv v (d.zipIdx k) = some (k + c)) := by
  intro d
  induction d with
  | nil => intro k; left; simp [mapFind]
  | cons e t ih =>
    intro k
    rw [List.zipIdx_cons]
    unfold mapFind
    by_cases h : e = v
    · right; exact ⟨0, by simp [h], by rw [if_pos ((he e v).2 h)]; rfl⟩
    · rw [if_neg (fun hh => h ((he e v).1 hh))]
      rcases ih (k + 1) with ⟨h1, h2⟩ | ⟨c, h1, h2⟩
      · left; exact ⟨by simp [h1, Ne.symm h], h2⟩
      · right; exact ⟨c + 1, by simpa using h1, by rw [h2]; congr 1; omega⟩

theorem storeDict_ok : ∀ (l : List (α × Nat)) (m : Buf α), (∀ p, p ∈ l → p.2 < m.size) →
    (l.map Prod.snd).Nodup → Res.Ok (storeDict l m) (fun m' => m'.size = m.size ∧ (∀ p, p ∈ l → m'.data p.2 = p.1) ∧
      ∀ k, k ∉ l.map Prod.snd → m'.data k = m.data k) := by
  intro l
  induction l with
  | nil => intro m _ _; exact ⟨_, rfl, rfl, by simp, fun _ _ => rfl⟩
  | cons p t ih =>
    intro m hb hn
    obtain ⟨v, c⟩ := p
    unfold storeDict
    rw [Buf.write_eq (hb (v, c) (by simp))]
    simp only [List.map_cons, List.nodup_cons] at hn
    refine (ih (m.put c v) (fun p hp => hb p (by simp [hp])) hn.2).mono ?_
    rintro m' ⟨h1, h2, h3⟩
    refine ⟨h1, ?_, ?_⟩
    · intro p hp
      rcases List.mem_cons.1 hp with e | e
      · subst e; rw [h3 _ hn.1]; simp [Buf.put_data]
      · exact h2 p e
    · intro k hk
      simp only [List.map_cons, List.mem_cons, not_or] at hk
      rw [h3 k hk.2]; simp only [Buf.put_data]; rw [if_neg hk.1]

theorem getElem?_some_lt {d : List α} {k : Nat} {v : α} (h : d[k]? = some v) : k < d.length := by
  by_contra hn
  rw [List.getElem?_eq_none (by omega)] at h
  simp at h

/-- **C113.** Recoding a column (or view) without `orderPreserving`: the codes index the dictionary, decoding gives the input back,
the dictionary has every value of the input exactly once, and codes are given in the order of first appearance - for every order in
which the hash map may be traversed. -/
theorem C113_recode (eqv lt : α → α → Bool) (he : ∀ a b, eqv a b = true ↔ a = b) (order : List (α × Nat) → List (α × Nat))
    (ho : ∀ l, (order l).Perm l) (x : DM α) (a : Mat α) (hx : x.Is a) (h1 : a.cols = 1) (v0 : α) (junk : Nat → Nat) (junk' : Nat → α) :
    Res.Ok (recode eqv lt order x false junk junk') (fun y => ∃ d code,
      y.1.Is ⟨a.rows, 1, fun r _ => code r⟩ ∧ y.2.Is (colOf v0 d) ∧
      Recoding (fun r => a.cell r 0) a.rows d code ∧ FirstAppearance (fun r => a.cell r 0) a.rows d code) := by
  have e1 : x.numRows = a.rows := hx.rows
  have e2 : x.numCols = a.cols := hx.cols
  unfold recode
  rw [if_neg (by rw [e2]; omega)]
  simp only [Bool.false_eq_true, if_false]
  unfold recodeFirst
  rw [e1]
  have hl := forLoop_ok (fun i (s : Buf Nat × List (α × Nat) × Nat) => s.1.size = a.rows * 1 ∧ ∃ d : List α, s.2.1 = d.zipIdx 0 ∧
      s.2.2 = d.length ∧ d.Nodup ∧ (∀ v, v ∈ d → ∃ r, r < i ∧ a.cell r 0 = v) ∧
      (∀ r, r < i → d[s.1.data r]? = some (a.cell r 0)) ∧
      (∀ r, r < i → ∀ k, k < s.1.data r → ∃ r', r' < r ∧ d[k]? = some (a.cell r' 0)) ∧
      (∀ k, k < d.length → ∃ r', r' < i ∧ d[k]? = some (a.cell r' 0)))
    0 a.rows ((DM.create a.rows 1 junk).mem, [], 0) (body := fun r s => recodeStep eqv x r s) (Nat.zero_le _)
    ⟨rfl, [], rfl, rfl, List.nodup_nil, by simp, by simp, by simp, by simp⟩ (by
    rintro i ⟨m, mp, nx⟩ - hi ⟨g1, d, g2, g3, g4, g5, g6, g7, g8⟩
    simp only at g1 g2 g3 g6 g7
    unfold recodeStep
    rw [hx.read hi (by omega)]
    simp only [Res.ok_bind]
    subst g2
    rcases mapFind_zipIdx eqv he (a.cell i 0) d 0 with ⟨k1, k2⟩ | ⟨c, k1, k2⟩
    · rw [k2]
      simp only
      rw [Buf.write_eq (by omega)]
      refine Res.ok_iff.2 ⟨g1, d ++ [a.cell i 0], ?_, by simp [g3], ?_, ?_, ?_, ?_, ?_⟩
      · rw [List.zipIdx_append]; simp [g3]
      · rw [List.nodup_append]; refine ⟨g4, by simp, fun b hb c hc e => k1 ?_⟩
        rw [List.mem_singleton] at hc; rw [← hc, ← e]; exact hb
      · intro v hv
        rcases List.mem_append.1 hv with h | h
        · obtain ⟨r, r1, r2⟩ := g5 v h; exact ⟨r, by omega, r2⟩
        · exact ⟨i, by omega, (List.mem_singleton.1 h).symm⟩
      · intro r hr
        simp only [Buf.put_data]
        by_cases e : r = i
        · subst e; simp [g3]
        · rw [if_neg e]
          have := g6 r (by omega)
          rw [List.getElem?_append_left (getElem?_some_lt this), this]
      · intro r hr k hk
        simp only [Buf.put_data] at hk
        by_cases e : r = i
        · subst e
          rw [if_pos rfl, g3] at hk
          obtain ⟨r', q1, q2⟩ := g8 k hk
          exact ⟨r', q1, by rw [List.getElem?_append_left hk, q2]⟩
        · rw [if_neg e] at hk
          obtain ⟨r', q1, q2⟩ := g7 r (by omega) k hk
          exact ⟨r', q1, by rw [List.getElem?_append_left (getElem?_some_lt q2), q2]⟩
      · intro k hk
        simp only [List.length_append, List.length_singleton] at hk
        by_cases e : k = d.length
        · exact ⟨i, by omega, by simp [e]⟩
        · obtain ⟨r', q1, q2⟩ := g8 k (by omega)
          exact ⟨r', by omega, by rw [List.getElem?_append_left (by omega), q2]⟩
    · rw [k2]
      simp only
      rw [Buf.write_eq (by omega)]
      refine Res.ok_iff.2 ⟨g1, d, rfl, g3, g4, fun v hv => ?_, fun r hr => ?_, fun r hr k hk => ?_, fun k hk => ?_⟩
      · obtain ⟨r, r1, r2⟩ := g5 v hv; exact ⟨r, by omega, r2⟩
      · simp only [Buf.put_data]
        by_cases e : r = i
        · subst e; simpa using k1
        · rw [if_neg e]; exact g6 r (by omega)
      · simp only [Buf.put_data] at hk
        by_cases e : r = i
        · subst e
          rw [if_pos rfl] at hk
          exact g8 k (by have := getElem?_some_lt k1; omega)
        · rw [if_neg e] at hk
          exact g7 r (by omega) k hk
      · obtain ⟨r', q1, q2⟩ := g8 k hk; exact ⟨r', by omega, q2⟩)
  refine hl.bind ?_
  rintro ⟨m, mp, nx⟩ ⟨g1, d, g2, g3, g4, g5, g6, g7, g8⟩
  simp only at g1 g2 g3 g6 g7 ⊢
  subst g2
  have hz : ∀ p, p ∈ d.zipIdx 0 → d[p.2]? = some p.1 := by
    rintro ⟨v, c⟩ hp
    exact List.mem_zipIdx_iff_getElem?.1 hp
  have hn : ((d.zipIdx 0).map Prod.snd).Nodup := by
    rw [List.zipIdx_map_snd]; exact List.nodup_range'
  have hp := ho (d.zipIdx 0)
  refine (storeDict_ok (order (d.zipIdx 0)) _ ?_ ((hp.map Prod.snd).nodup_iff.2 hn)).bind ?_
  · intro p hq
    have := getElem?_some_lt (hz p (hp.mem_iff.1 hq))
    rw [create_size]; simpa using this
  rintro m' ⟨q1, q2, -⟩
  refine Res.ok_iff.2 ⟨d, m.data, is_new g1 (fun r c hr hc => by congr 1; omega), ?_, ⟨g6, g4, g5⟩, g7⟩
  rw [create_h]
  have ed : (d.zipIdx 0).length = d.length := by simp
  rw [ed]
  refine is_new (by rw [q1, create_size, ed]) (fun r c hr hc => ?_)
  have hmem : (d[r], r) ∈ order (d.zipIdx 0) := hp.mem_iff.2 (List.mem_zipIdx_iff_getElem?.2 (by simp [hr]))
  have := q2 _ hmem
  simp only at this
  rw [show r * 1 + c = r by omega, this]
  simp [List.getD_eq_getElem?_getD, hr]

/-- A hash map may be traversed in any order; `recode` of a view (rowSkip 2) with a repeated value. -/
example : Res.Ok (recode (fun (a b : Int) => decide (a = b)) (fun a b => decide (a < b)) List.reverse
      ⟨⟨4, 1, 2, 1, 0, 0, 8, false, 0, 0⟩, ⟨8, fun i => [0, 5, 0, 3, 0, 5, 0, 9].getD i 0⟩⟩ false (fun _ => 77) (fun _ => 99))
    (fun y => (List.range 4).map y.1.mem.data = [0, 1, 0, 2] ∧ (List.range 3).map y.2.mem.data = [5, 3, 9]) := ⟨_, rfl, by decide +kernel⟩

/-! ### Order-preserving recoding -/

theorem mem_setInsert {lt : α → α → Bool} {eqv : α → α → Bool} (h : Ordered eqv lt) (v w : α) : ∀ (l : List α),
    w ∈ setInsert lt v l ↔ w = v ∨ w ∈ l := by
  intro l
  induction l with
  | nil => simp [setInsert]
  | cons e t ih =>
    unfold setInsert
    by_cases h1 : lt e v = true
    · rw [if_pos h1, List.mem_cons, ih, List.mem_cons]; tauto
    · rw [if_neg h1]
      by_cases h2 : lt v e = true
      · rw [if_pos h2, List.mem_cons, List.mem_cons]
      · rw [if_neg h2]
        have : v = e := by rcases h.total v e with q | q | q <;> simp_all
        subst this
        rw [List.mem_cons]; tauto

theorem setInsert_sorted {lt : α → α → Bool} {eqv : α → α → Bool} (h : Ordered eqv lt) (v : α) : ∀ (l : List α),
    l.Pairwise (fun a b => lt a b = true) → (setInsert lt v l).Pairwise (fun a b => lt a b = true) := by
  intro l
  induction l with
  | nil => intro _; simp [setInsert]
  | cons e t ih =>
    intro hl
    have hl' := List.pairwise_cons.1 hl
    unfold setInsert
    by_cases h1 : lt e v = true
    · rw [if_pos h1, List.pairwise_cons]
      refine ⟨fun b hb => ?_, ih hl'.2⟩
      rcases (mem_setInsert h v b t).1 hb with q | q
      · rw [q]; exact h1
      · exact hl'.1 b q
    · rw [if_neg h1]
      by_cases h2 : lt v e = true
      · rw [if_pos h2, List.pairwise_cons]
        refine ⟨fun b hb => ?_, hl⟩
        rcases List.mem_cons.1 hb with q | q
        · rw [q]; exact h2
        · exact h.trans _ _ _ h2 (hl'.1 b q)
      · rw [if_neg h2]; exact hl

theorem sortedDict_ok : ∀ (d : List α) (k : Nat) (mp : List (α × Nat)) (m : Buf α), k + d.length ≤ m.size →
    Res.Ok (sortedDict d k mp m) (fun s => s.1 = mp ++ d.zipIdx k ∧ s.2.size = m.size ∧
      (∀ j, j < k → s.2.data j = m.data j) ∧ ∀ j, (h : j < d.length) → s.2.data (k + j) = d[j]) := by
  intro d
  induction d with
  | nil => intro k mp m _; exact ⟨_, rfl, by simp, rfl, fun _ _ => rfl, by simp⟩
  | cons v t ih =>
    intro k mp m hs
    simp only [List.length_cons] at hs
    unfold sortedDict
    rw [Buf.write_eq (by omega)]
    refine (ih (k + 1) (mp ++ [(v, k)]) (m.put k v) (by show _ ≤ m.size; omega)).mono ?_
    rintro ⟨mp', m'⟩ ⟨h1, h2, h3, h4⟩
    simp only at h1 h2 h3 h4
    refine ⟨by simp [h1, List.zipIdx_cons], h2, fun j hj => ?_, fun j hj => ?_⟩
    · simp only; rw [h3 j (by omega)]; simp only [Buf.put_data]; rw [if_neg (by omega)]
    · cases j with
      | zero => simp only [Nat.add_zero]; rw [h3 k (by omega)]; simp [Buf.put_data]
      | succ j =>
        simp only [List.length_cons] at hj
        have := h4 j (by omega)
        simp only [List.getElem_cons_succ]
        rw [← this]; congr 1; omega

/-- **C114.** Order-preserving recoding of a column (or view) of integers or strings: codes index the dictionary, decoding gives the
input back, the dictionary has every value of the input once, in ascending order; so codes compare as the values do. -/
theorem C114_recode_ordered (eqv lt : α → α → Bool) (hord : Ordered eqv lt) (order : List (α × Nat) → List (α × Nat)) (x : DM α)
    (a : Mat α) (hx : x.Is a) (h1 : a.cols = 1) (v0 : α) (junk : Nat → Nat) (junk' : Nat → α) :
    Res.Ok (recode eqv lt order x true junk junk') (fun y => ∃ d code,
      y.1.Is ⟨a.rows, 1, fun r _ => code r⟩ ∧ y.2.Is (colOf v0 d) ∧ Recoding (fun r => a.cell r 0) a.rows d code ∧
      d.Pairwise (fun v w => lt v w = true) ∧
      ∀ r r', r < a.rows → r' < a.rows → (lt (a.cell r 0) (a.cell r' 0) = true ↔ code r < code r')) := by
  have e1 : x.numRows = a.rows := hx.rows
  have e2 : x.numCols = a.cols := hx.cols
  unfold recode
  rw [if_neg (by rw [e2]; omega)]
  simp only [if_true]
  unfold recodeSorted
  have hset : Res.Ok (recodeSet lt x) (fun d => d.Pairwise (fun v w => lt v w = true) ∧ ∀ v, v ∈ d ↔ ∃ r, r < a.rows ∧ a.cell r 0 = v) := by
    unfold recodeSet
    rw [e1]
    refine forLoop_post (fun i (d : List α) => d.Pairwise (fun v w => lt v w = true) ∧ ∀ v, v ∈ d ↔ ∃ r, r < i ∧ a.cell r 0 = v)
      0 a.rows [] (Nat.zero_le _) ⟨List.Pairwise.nil, by simp⟩ ?_ (fun s h => h)
    rintro i d - hi ⟨g1, g2⟩
    rw [hx.read hi (by omega)]
    refine Res.ok_iff.2 ⟨setInsert_sorted hord _ d g1, fun v => ?_⟩
    rw [mem_setInsert hord, g2]
    constructor
    · rintro (q | ⟨r, q1, q2⟩)
      · exact ⟨i, by omega, q.symm⟩
      · exact ⟨r, by omega, q2⟩
    · rintro ⟨r, q1, q2⟩
      by_cases e : r = i
      · left; rw [← q2, e]
      · right; exact ⟨r, by omega, q2⟩
  refine hset.bind ?_
  rintro d ⟨g1, g2⟩
  simp only
  refine (sortedDict_ok d 0 [] _ (by rw [create_size]; omega)).bind ?_
  rintro ⟨mp, md⟩ ⟨k1, k2, -, k4⟩
  simp only [List.nil_append] at k1 k2 k4 ⊢
  subst k1
  have hcodes : Res.Ok (recodeSorted' eqv x (d.zipIdx 0) (DM.create x.numRows 1 junk).mem) (fun t => t.1.size = a.rows * 1 ∧
      ∀ r, r < a.rows → d[t.1.data r]? = some (a.cell r 0)) := by
    unfold recodeSorted'
    rw [e1]
    refine forLoop_post (fun i (t : Buf Nat × List (α × Nat)) => t.1.size = a.rows * 1 ∧ t.2 = d.zipIdx 0 ∧
      ∀ r, r < i → d[t.1.data r]? = some (a.cell r 0)) 0 a.rows _ (Nat.zero_le _) ⟨rfl, rfl, by simp⟩ ?_ (fun s h => ⟨h.1, h.2.2⟩)
    rintro i ⟨m, mp⟩ - hi ⟨s1, s2, s3⟩
    simp only at s1 s2 s3
    subst s2
    rw [hx.read hi (by omega)]
    simp only [Res.ok_bind]
    rcases mapFind_zipIdx eqv hord.eq (a.cell i 0) d 0 with ⟨q1, -⟩ | ⟨c, q1, q2⟩
    · exact absurd ((g2 _).2 ⟨i, hi, rfl⟩) q1
    · rw [q2]
      simp only
      rw [Buf.write_eq (by omega)]
      refine Res.ok_iff.2 ⟨s1, rfl, fun r hr => ?_⟩
      simp only [Buf.put_data]
      by_cases e : r = i
      · subst e; simpa using q1
      · rw [if_neg e]; exact s3 r (by omega)
  refine hcodes.bind ?_
  rintro ⟨m, mp⟩ ⟨s1, s2⟩
  simp only at s1 s2
  rw [e1]
  have hlt : ∀ (i j : Nat) (v w : α), d[i]? = some v → d[j]? = some w → i < j → lt v w = true := by
    intro i j v w hi hj hij
    have li := getElem?_some_lt hi
    have lj := getElem?_some_lt hj
    have := List.pairwise_iff_getElem.1 g1 i j li lj hij
    rw [List.getElem?_eq_getElem li, Option.some.injEq] at hi
    rw [List.getElem?_eq_getElem lj, Option.some.injEq] at hj
    rw [← hi, ← hj]; exact this
  refine Res.ok_iff.2 ⟨d, m.data, is_new s1 (fun r c hr hc => by congr 1; omega), ?_, ⟨s2, ?_, fun v hv => (g2 v).1 hv⟩, g1, ?_⟩
  · rw [create_h]
    refine is_new (by rw [k2, create_size]) (fun r c hr hc => ?_)
    have := k4 r hr
    rw [show r * 1 + c = 0 + r by omega, this]
    simp [List.getD_eq_getElem?_getD, hr]
  · refine g1.imp ?_
    rintro v w hvw rfl
    rw [hord.irrefl] at hvw; simp at hvw
  · intro r r' hr hr'
    have q := s2 r hr
    have q' := s2 r' hr'
    constructor
    · intro h
      by_contra hn
      rcases Nat.eq_or_lt_of_le (Nat.le_of_not_lt hn) with e | e
      · rw [e, q, Option.some.injEq] at q'
        rw [q', hord.irrefl] at h; simp at h
      · have := hord.trans _ _ _ h (hlt _ _ _ _ q' q e)
        rw [hord.irrefl] at this; simp at this
    · exact hlt _ _ _ _ q q'

/-- The hypotheses of `C114_recode_ordered` are met. -/
example : Ordered (fun (a b : Int) => decide (a = b)) (fun a b => decide (a < b)) :=
  ⟨by simp, by simp, by simp; omega, by intro a b; simp; omega⟩
example : Res.Ok (recode (fun (a b : Int) => decide (a = b)) (fun a b => decide (a < b)) id
      ⟨⟨4, 1, 2, 1, 0, 0, 8, false, 0, 0⟩, ⟨8, fun i => [0, 5, 0, 3, 0, 5, 0, 9].getD i 0⟩⟩ true (fun _ => 77) (fun _ => 99))
    (fun y => (List.range 4).map y.1.mem.data = [1, 0, 1, 2] ∧ (List.range 3).map y.2.mem.data = [3, 5, 9]) := ⟨_, rfl, by decide +kernel⟩

/-- Floating point values with a not-a-number (`none`), as far as `==` and `<` see them. -/
def fltEq (a b : Option Int) : Bool := match a, b with | some a, some b => decide (a = b) | _, _ => false
def fltLt (a b : Option Int) : Bool := match a, b with | some a, some b => decide (a < b) | _, _ => false

/-- **C115 (refuted).** Full statement: order-preserving recoding of a column of floating-point values gives codes from which the
dictionary gives back the values. With a NaN in the first row, every other value is "equivalent" to it in the `std::set`, so for the
column (NaN, 1) the dictionary is (NaN) and both codes are 0: the value 1 is lost. -/
theorem C115_recode_nan_partial : ∀ (junk : Nat → Nat) (junk' : Nat → Option Int), ∃ y,
    recode fltEq fltLt id ⟨Hdr.new 2 1, ⟨2, fun i => if i = 0 then none else some 1⟩⟩ true junk junk' = .ok y ∧
    y.2.numRows = 1 ∧ y.2.get 0 0 = .ok none ∧ y.1.get 1 0 = .ok 0 ∧
    ¬ ∃ d code, Recoding (fun r => if r = 0 then none else some (1 : Int)) 2 d code ∧ y.2.Is (colOf none d) := by
  intro junk junk'
  refine ⟨_, rfl, rfl, rfl, rfl, ?_⟩
  rintro ⟨d, code, h1, h2⟩
  have hr := h2.rows
  have hl : d.length = 1 := hr.symm
  have a0 := h1.decode 0 (by omega)
  have a1 := h1.decode 1 (by omega)
  have b0 := getElem?_some_lt a0
  have b1 := getElem?_some_lt a1
  have : code 0 = code 1 := by omega
  rw [this, a1] at a0
  simp at a0

end Verif.Shape
