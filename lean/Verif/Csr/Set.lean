/-
  Changing one cell of a sparse matrix or of a row view of it.
-/
import Verif.Csr.Lemmas

namespace Verif.Csr
open Verif
variable {α : Type}

theorem shiftRight_ok {v : Buf α} {c : Buf Nat} {p e : Nat} (hp : p ≤ e) (hv : e < v.size) (hc : e < c.size) :
    Res.Ok (CHdr.shiftRight v c p e) (fun vc => vc.1.size = v.size ∧ vc.2.size = c.size ∧
      (∀ q, vc.1.data q = if p < q ∧ q ≤ e then v.data (q - 1) else v.data q) ∧
      (∀ q, vc.2.data q = if p < q ∧ q ≤ e then c.data (q - 1) else c.data q)) := by
  unfold CHdr.shiftRight
  refine forLoop_post (fun k (vc : Buf α × Buf Nat) => vc.1.size = v.size ∧ vc.2.size = c.size ∧
      (∀ q, vc.1.data q = if e - k < q ∧ q ≤ e then v.data (q - 1) else v.data q) ∧
      (∀ q, vc.2.data q = if e - k < q ∧ q ≤ e then c.data (q - 1) else c.data q)) 0 (e - p) _ (Nat.zero_le _) ?_ ?_ ?_
  · refine ⟨rfl, rfl, fun q => ?_, fun q => ?_⟩ <;> rw [if_neg (by omega)]
  · rintro k ⟨v', c'⟩ _ hk ⟨i1, i2, i3, i4⟩
    simp only at i1 i2 i3 i4 ⊢
    rw [Buf.read_eq (by omega)]
    simp only [Res.ok_bind]
    rw [Buf.write_eq (by omega)]
    simp only [Res.ok_bind]
    rw [Buf.read_eq (by omega)]
    simp only [Res.ok_bind]
    rw [Buf.write_eq (by omega)]
    simp only [Res.ok_bind]
    refine Res.ok_iff.2 ⟨by simpa using i1, by simpa using i2, fun q => ?_, fun q => ?_⟩
    · simp only [Buf.put_data]
      by_cases hq : q = e - k
      · rw [if_pos hq, i3, if_neg (by omega), if_pos (by omega), hq]
      · rw [if_neg hq, i3]
        by_cases h2 : e - k < q ∧ q ≤ e
        · rw [if_pos h2, if_pos (by omega)]
        · rw [if_neg h2, if_neg (by omega)]
    · simp only [Buf.put_data]
      by_cases hq : q = e - k
      · rw [if_pos hq, i4, if_neg (by omega), if_pos (by omega), hq]
      · rw [if_neg hq, i4]
        by_cases h2 : e - k < q ∧ q ≤ e
        · rw [if_pos h2, if_pos (by omega)]
        · rw [if_neg h2, if_neg (by omega)]
  · rintro ⟨v', c'⟩ h
    have : e - (e - p) = p := by omega
    rw [this] at h; exact h

theorem shiftLeft_ok {v : Buf α} {c : Buf Nat} {p e : Nat} (hp : p ≤ e) (hv : e < v.size) (hc : e < c.size) :
    Res.Ok (CHdr.shiftLeft v c p e) (fun vc => vc.1.size = v.size ∧ vc.2.size = c.size ∧
      (∀ q, vc.1.data q = if p ≤ q ∧ q < e then v.data (q + 1) else v.data q) ∧
      (∀ q, vc.2.data q = if p ≤ q ∧ q < e then c.data (q + 1) else c.data q)) := by
  unfold CHdr.shiftLeft
  refine forLoop_ok (fun k (vc : Buf α × Buf Nat) => vc.1.size = v.size ∧ vc.2.size = c.size ∧
      (∀ q, vc.1.data q = if p ≤ q ∧ q < k then v.data (q + 1) else v.data q) ∧
      (∀ q, vc.2.data q = if p ≤ q ∧ q < k then c.data (q + 1) else c.data q)) p e _ hp ?_ ?_
  · refine ⟨rfl, rfl, fun q => ?_, fun q => ?_⟩ <;> rw [if_neg (by omega)]
  · rintro k ⟨v', c'⟩ hk0 hk ⟨i1, i2, i3, i4⟩
    simp only at i1 i2 i3 i4 ⊢
    rw [Buf.read_eq (by omega)]
    simp only [Res.ok_bind]
    rw [Buf.write_eq (by omega)]
    simp only [Res.ok_bind]
    rw [Buf.read_eq (by omega)]
    simp only [Res.ok_bind]
    rw [Buf.write_eq (by omega)]
    simp only [Res.ok_bind]
    refine Res.ok_iff.2 ⟨by simpa using i1, by simpa using i2, fun q => ?_, fun q => ?_⟩
    · simp only [Buf.put_data]
      by_cases hq : q = k
      · rw [if_pos hq, i3, if_neg (by omega), if_pos (by omega), hq]
      · rw [if_neg hq, i3]
        by_cases h2 : p ≤ q ∧ q < k
        · rw [if_pos h2, if_pos (by omega)]
        · rw [if_neg h2, if_neg (by omega)]
    · simp only [Buf.put_data]
      by_cases hq : q = k
      · rw [if_pos hq, i4, if_neg (by omega), if_pos (by omega), hq]
      · rw [if_neg hq, i4]
        by_cases h2 : p ≤ q ∧ q < k
        · rw [if_pos h2, if_pos (by omega)]
        · rw [if_neg h2, if_neg (by omega)]

/-- The loop over the row offsets behind the changed row. -/
theorem bump_ok (f : Nat → Nat) (o : Buf Nat) (base lo hi : Nat) (hle : lo ≤ hi) (hs : base + hi ≤ o.size) :
    Res.Ok (forLoop lo hi o fun k os => do
        let x ← os.read (base + k)
        os.write (base + k) (f x)) (fun o' => o'.size = o.size ∧
      ∀ i, o'.data i = if base + lo ≤ i ∧ i < base + hi then f (o.data i) else o.data i) := by
  refine forLoop_ok (fun k (o' : Buf Nat) => o'.size = o.size ∧
      ∀ i, o'.data i = if base + lo ≤ i ∧ i < base + k then f (o.data i) else o.data i) lo hi _ hle ?_ ?_
  · exact ⟨rfl, fun i => by rw [if_neg (by omega)]⟩
  · rintro k o' hk0 hk ⟨i1, i2⟩
    rw [Buf.read_eq (by omega)]
    simp only [Res.ok_bind]
    rw [Buf.write_eq (by omega)]
    refine Res.ok_iff.2 ⟨by simpa using i1, fun i => ?_⟩
    simp only [Buf.put_data]
    by_cases hq : i = base + k
    · rw [if_pos hq, i2, if_neg (by omega), if_pos (by omega), hq]
    · rw [if_neg hq, i2]
      by_cases h2 : base + lo ≤ i ∧ i < base + k
      · rw [if_pos h2, if_pos (by omega)]
      · rw [if_neg h2, if_neg (by omega)]

/-- `a` with cell `(r, c)` replaced by `v`. -/
def _root_.Verif.Mat.setCell (a : Mat α) (r c : Nat) (v : α) : Mat α :=
  ⟨a.rows, a.cols, fun r' c' => if r' = r ∧ c' = c then v else a.cell r' c'⟩

/-- Header `h` is an object (original, view, nested view) on an allocation for `N` rows and `C` columns. -/
structure CHdr.On (N C : Nat) (h : CHdr) : Prop where
  rows : h.rowOff + h.alloc = N
  fit : h.numRows ≤ h.alloc
  cols : h.numCols = C

/-- Header of the whole allocation. -/
abbrev whole (N C : Nat) : CHdr := CHdr.new N C

theorem On.sliceRow {N C : Nat} {h : CHdr} (o : h.On N C) {rl ru : Nat} {v : CHdr} (hv : h.sliceRow rl ru = .ok v) : v.On N C := by
  unfold CHdr.sliceRow at hv
  split at hv
  · cases hv
  split at hv
  · cases hv
  split at hv
  · cases hv
  injection hv with hv
  subst hv
  have := o.rows; have := o.fit
  exact ⟨by simp only; omega, by simp only; omega, o.cols⟩

/-- Every object on an allocation shows its window of the rows. -/
theorem CM.Is.on {zero : α} {N C : Nat} {m : CMem α} {a : Mat α} (h : CM.Is zero ⟨whole N C, m⟩ a) {v : CHdr} (ov : v.On N C) :
    CM.Is zero ⟨v, m⟩ (a.window v.rowOff (v.rowOff + v.numRows) 0 a.cols) := by
  have e1 := h.rows; have e2 := h.cols
  simp only [whole, CHdr.new] at e1 e2
  have f1 := ov.rows; have f2 := ov.fit; have f3 := ov.cols
  have ho : ∀ r, CM.o ⟨v, m⟩ r = CM.o ⟨whole N C, m⟩ (v.rowOff + r) := by
    intro r; unfold CM.o; simp [whole, CHdr.new]
  refine ⟨⟨?_, ?_, ?_, ?_, ?_, ?_⟩, ?_, ?_, ?_, ?_⟩
  · have := h.wf.offsIn; simp only [whole, CHdr.new] at this ⊢; omega
  · intro r hr
    simp only at hr
    rw [ho, ho]; exact h.wf.mono (v.rowOff + r) (by simp only [whole, CHdr.new]; omega)
  · rw [ho]
    have := (h.wf.mono' (r := v.rowOff + v.numRows) (r' := N) (by omega) (Nat.le_refl _))
    have t : CM.o ⟨whole N C, m⟩ N ≤ m.vals.size := h.wf.topV
    simp only; omega
  · rw [ho]
    have := (h.wf.mono' (r := v.rowOff + v.numRows) (r' := N) (by omega) (Nat.le_refl _))
    have t : CM.o ⟨whole N C, m⟩ N ≤ m.cols.size := h.wf.topC
    simp only; omega
  · intro r p q hr
    simp only at hr
    rw [ho, ho]; exact h.wf.sorted (v.rowOff + r) p q (by simp only [whole, CHdr.new]; omega)
  · intro r p hr
    simp only at hr
    rw [ho, ho]
    have := h.wf.bound (v.rowOff + r) p (by simp only [whole, CHdr.new]; omega)
    simp only [whole, CHdr.new] at this ⊢
    rw [f3]; exact this
  · simp [Mat.window]
  · simp [Mat.window, f3, e2]
  · intro r p hr
    simp only [Mat.window] at hr
    rw [ho, ho]
    simp only [Mat.window, Nat.zero_add]
    exact h.entry (v.rowOff + r) p (by omega)
  · intro r c hr hc
    simp only [Mat.window] at hr hc
    rw [ho, ho]
    simp only [Mat.window, Nat.zero_add]
    exact h.rest (v.rowOff + r) c (by omega) (by omega)

/-- Number of non-zero cells after a cell with value `old` is set to `new`. -/
def nnzAfter [DecidableEq α] (zero : α) (n : Nat) (old new : α) : Nat :=
  if new = zero then (if old = zero then n else n - 1) else (if old = zero then n + 1 else n)

/-- `set` through any object on the allocation changes exactly the addressed cell of the whole matrix, provided that there is
room for one more entry or the set of non-zero cells stays the same. -/
theorem set_ok [DecidableEq α] {zero : α} {N C : Nat} {m : CMem α} {a : Mat α} (h : CM.Is zero ⟨whole N C, m⟩ a)
    {v : CHdr} (ov : v.On N C) {r c : Nat} (hr : r < v.numRows) (hc : c < C) (x : α)
    (room : (m.offs.data N < m.vals.size ∧ m.offs.data N < m.cols.size) ∨
      ((x = zero ↔ a.cell (v.rowOff + r) c = zero) ∧ ∀ q, q < m.offs.data N → m.vals.data q ≠ zero)) :
    Res.Ok (v.set zero m r c x) (fun m' => CM.Is zero ⟨whole N C, m'⟩ (a.setCell (v.rowOff + r) c x) ∧
      m'.vals.size = m.vals.size ∧ m'.cols.size = m.cols.size ∧
      ((∀ q, q < m.offs.data N → m.vals.data q ≠ zero) → (∀ q, q < m'.offs.data N → m'.vals.data q ≠ zero) ∧
        m'.offs.data N = nnzAfter zero (m.offs.data N) (a.cell (v.rowOff + r) c) x)) := by
  have e1 := h.rows; have e2 := h.cols
  simp only [whole, CHdr.new] at e1 e2
  have f1 := ov.rows; have f2 := ov.fit; have f3 := ov.cols
  have hw := (h.on ov).wf
  have hO : ∀ i, CM.o ⟨whole N C, m⟩ i = m.offs.data i := fun i => by simp [CM.o, whole, CHdr.new]
  have hV : ∀ i, CM.o ⟨v, m⟩ i = m.offs.data (v.rowOff + i) := fun i => rfl
  have topV : m.offs.data N ≤ m.vals.size := by have := h.wf.topV; rwa [hO] at this
  have topC : m.offs.data N ≤ m.cols.size := by have := h.wf.topC; rwa [hO] at this
  have offsIn : N < m.offs.size := by have := h.wf.offsIn; simpa [whole, CHdr.new] using this
  have mono : ∀ i j, i ≤ j → j ≤ N → m.offs.data i ≤ m.offs.data j := by
    intro i j h1 h2
    have := h.wf.mono' (r := i) (r' := j) h1 h2
    rwa [hO, hO] at this
  have sorted := h.wf.sorted
  have bound := h.wf.bound
  have entry := h.entry
  have rest := h.rest
  simp only [hO] at sorted bound entry rest
  simp only [whole, CHdr.new] at sorted bound
  unfold CHdr.set
  rw [if_neg (by omega), if_neg (by omega)]
  rw [show v.rowPtr m r = _ from hw.rowPtr (by simp only; omega), show v.rowPtr m (r + 1) = _ from hw.rowPtr (by simp only; omega)]
  simp only [Res.ok_bind]
  obtain ⟨p, hp, g1, g2, g3, g4⟩ := hw.search (r := r) c (by simp only; omega)
  simp only [hV] at hp g1 g2 g3 g4 ⊢
  rw [hp]
  simp only [Res.ok_bind]
  unfold CHdr.off
  rw [Buf.read_eq (by omega)]
  simp only [Res.ok_bind]
  rw [f1]
  generalize hR : v.rowOff + r = R at *
  rw [show v.rowOff + (r + 1) = R + 1 by omega] at *
  have hRN : R < N := by omega
  have hbe := mono R (R + 1) (by omega) (by omega)
  have hbE := mono (R + 1) N (by omega) (by omega)
  obtain ⟨b, hb, hb'⟩ : Res.Ok (CHdr.hit m p (m.offs.data (R + 1)) c)
      (fun b => b = true ↔ p < m.offs.data (R + 1) ∧ m.cols.data p = c) := by
    unfold CHdr.hit
    by_cases hpe : p = m.offs.data (R + 1)
    · rw [if_pos hpe]; exact ⟨false, rfl, by simp; omega⟩
    · rw [if_neg hpe, Buf.read_eq (by omega)]
      refine ⟨_, rfl, ?_⟩
      have : p < m.offs.data (R + 1) := by omega
      simp [this]
  rw [hb]
  simp only [Res.ok_bind]
  by_cases hbt : b = true
  · have ⟨hp1, hp2⟩ := hb'.1 hbt
    rw [if_neg (by simp [hbt])]
    by_cases hx : x = zero
    · -- delete
      rw [if_pos hx]
      have hcell := entry R p (by omega) g1 hp1
      rw [hp2] at hcell
      obtain ⟨roomV, roomC⟩ : m.offs.data N < m.vals.size ∧ m.offs.data N < m.cols.size := by
        rcases room with h1 | ⟨h1, h2⟩
        · exact h1
        · exact absurd (hcell.symm.trans (h1.1 hx)) (h2 p (by omega))
      obtain ⟨⟨vs, cs⟩, hs, s1, s2, s3, s4⟩ := shiftLeft_ok (v := m.vals) (c := m.cols) (p := p) (e := m.offs.data N) (by omega) roomV roomC
      rw [hs]
      simp only [Res.ok_bind] at s1 s2 s3 s4 ⊢
      obtain ⟨os, ho, o1, o2⟩ := bump_ok (fun x => x - 1) m.offs v.rowOff (r + 1) (v.alloc + 1) (by omega) (by omega)
      rw [ho]
      simp only [Res.ok_bind]
      rw [show v.rowOff + (r + 1) = R + 1 by omega, show v.rowOff + (v.alloc + 1) = N + 1 by omega] at o2
      have hO' : ∀ i, CM.o ⟨whole N C, ⟨vs, cs, os⟩⟩ i = os.data i := fun i => by simp [CM.o, whole, CHdr.new]
      have olo : ∀ i, i ≤ R → os.data i = m.offs.data i := fun i hi => by rw [o2, if_neg (by omega)]
      have ohi : ∀ i, R < i → i ≤ N → os.data i = m.offs.data i - 1 := fun i hi hi' => by rw [o2, if_pos (by omega)]
      -- where the entries of row s come from
      have from' : ∀ s q, s < N → os.data s ≤ q → q < os.data (s + 1) →
          ∃ q0, m.offs.data s ≤ q0 ∧ q0 < m.offs.data (s + 1) ∧ q0 ≠ p ∧ cs.data q = m.cols.data q0 ∧ vs.data q = m.vals.data q0 ∧
            (q < p ∧ q0 = q ∨ p ≤ q ∧ q0 = q + 1) := by
        intro s q hs h1 h2
        have m1 := mono s (s + 1) (by omega) (by omega)
        have m3 := mono (s + 1) N (by omega) (by omega)
        rcases Nat.lt_trichotomy s R with hsR | hsR | hsR
        · rw [olo s (by omega)] at h1; rw [olo (s + 1) (by omega)] at h2
          have m2 := mono (s + 1) R (by omega) (by omega)
          exact ⟨q, h1, h2, by omega, by rw [s4, if_neg (by omega)], by rw [s3, if_neg (by omega)], .inl ⟨by omega, rfl⟩⟩
        · subst hsR
          rw [olo s (by omega)] at h1; rw [ohi (s + 1) (by omega) (by omega)] at h2
          by_cases hq : q < p
          · exact ⟨q, h1, by omega, by omega, by rw [s4, if_neg (by omega)], by rw [s3, if_neg (by omega)], .inl ⟨hq, rfl⟩⟩
          · exact ⟨q + 1, by omega, by omega, by omega, by rw [s4, if_pos (by omega)], by rw [s3, if_pos (by omega)], .inr ⟨by omega, rfl⟩⟩
        · have m2 := mono (R + 1) s (by omega) (by omega)
          rw [ohi s (by omega) (by omega)] at h1; rw [ohi (s + 1) (by omega) (by omega)] at h2
          exact ⟨q + 1, by omega, by omega, by omega, by rw [s4, if_pos (by omega)], by rw [s3, if_pos (by omega)], .inr ⟨by omega, rfl⟩⟩
      -- where the old entries go
      have to' : ∀ s q, s < N → m.offs.data s ≤ q → q < m.offs.data (s + 1) → q ≠ p →
          ∃ q', os.data s ≤ q' ∧ q' < os.data (s + 1) ∧ cs.data q' = m.cols.data q := by
        intro s q hs h1 h2 hne
        have m3 := mono (s + 1) N (by omega) (by omega)
        rcases Nat.lt_trichotomy s R with hsR | hsR | hsR
        · have m2 := mono (s + 1) R (by omega) (by omega)
          exact ⟨q, by rw [olo s (by omega)]; exact h1, by rw [olo (s + 1) (by omega)]; exact h2, by rw [s4, if_neg (by omega)]⟩
        · subst hsR
          rw [olo s (by omega), ohi (s + 1) (by omega) (by omega)]
          by_cases hq : q < p
          · exact ⟨q, h1, by omega, by rw [s4, if_neg (by omega)]⟩
          · exact ⟨q - 1, by omega, by omega, by rw [s4, if_pos (by omega), Nat.sub_add_cancel (by omega)]⟩
        · have m2 := mono (R + 1) s (by omega) (by omega)
          rw [ohi s (by omega) (by omega), ohi (s + 1) (by omega) (by omega)]
          exact ⟨q - 1, by omega, by omega, by rw [s4, if_pos (by omega), Nat.sub_add_cancel (by omega)]⟩
      refine Res.ok_iff.2 ⟨⟨⟨?_, ?_, ?_, ?_, ?_, ?_⟩, e1, e2, ?_, ?_⟩, s1, s2, ?_⟩
      · simp only [whole, CHdr.new]; omega
      · intro s hs
        simp only [whole, CHdr.new] at hs
        rw [hO', hO']
        have m1 := mono s (s + 1) (by omega) (by omega)
        rcases Nat.lt_trichotomy s R with hsR | hsR | hsR
        · rw [olo s (by omega), olo (s + 1) (by omega)]; exact m1
        · subst hsR; rw [olo s (by omega), ohi (s + 1) (by omega) (by omega)]; omega
        · rw [ohi s (by omega) (by omega), ohi (s + 1) (by omega) (by omega)]; omega
      · rw [hO']; simp only [whole, CHdr.new]; rw [ohi N (by omega) (by omega)]; omega
      · rw [hO']; simp only [whole, CHdr.new]; rw [ohi N (by omega) (by omega)]; omega
      · intro s q1 q2 hs h1 h2 h3
        simp only [whole, CHdr.new] at hs
        rw [hO'] at h1 h3
        obtain ⟨k1, a1, a2, a3, a4, a5, a6⟩ := from' s q1 hs h1 (by omega)
        obtain ⟨k2, b1, b2, b3, b4, b5, b6⟩ := from' s q2 hs (by omega) h3
        simp only
        rw [a4, b4]
        exact sorted s k1 k2 hs a1 (by omega) b2
      · intro s q hs h1 h2
        simp only [whole, CHdr.new] at hs
        rw [hO'] at h1 h2
        obtain ⟨k1, a1, a2, a3, a4, a5, a6⟩ := from' s q hs h1 h2
        simp only [whole, CHdr.new]
        rw [a4]; exact bound s k1 hs a1 a2
      · intro s q hs h1 h2
        rw [hO'] at h1 h2
        obtain ⟨k1, a1, a2, a3, a4, a5, a6⟩ := from' s q (by simp only [Mat.setCell] at hs; omega) h1 h2
        simp only [Mat.setCell] at hs ⊢
        rw [a4, a5, if_neg ?_]
        · exact entry s k1 hs a1 a2
        · rintro ⟨rfl, h3⟩
          rcases Nat.lt_or_gt_of_ne a3 with h4 | h4
          · have := sorted s k1 p (by omega) a1 h4 hp1; omega
          · have := sorted s p k1 (by omega) g1 h4 a2; omega
      · intro s k hs hk hno
        simp only [hO', Mat.setCell] at hs hk hno ⊢
        by_cases hsc : s = R ∧ k = c
        · rw [if_pos hsc, hx]
        · rw [if_neg hsc]
          refine rest s k hs hk fun q h1 h2 h3 => ?_
          by_cases hqp : q = p
          · -- the deleted entry
            subst hqp
            refine hsc ⟨?_, by omega⟩
            rcases Nat.lt_trichotomy s R with hsR | hsR | hsR
            · have := mono (s + 1) R (by omega) (by omega); omega
            · exact hsR
            · have := mono (R + 1) s (by omega) (by omega); omega
          · obtain ⟨q', z1, z2, z3⟩ := to' s q (by omega) h1 h2 hqp
            exact hno q' z1 z2 (by rw [z3]; exact h3)
      · intro nz
        simp only; rw [ohi N (by omega) (by omega)]
        refine ⟨fun q hq => ?_, ?_⟩
        · rw [s3]; split <;> exact nz _ (by omega)
        · have := entry R p (by omega) g1 hp1
          rw [hp2] at this
          rw [nnzAfter, if_pos hx, this, if_neg (nz p (by omega))]
    · -- overwrite
      rw [if_neg hx, Buf.write_eq (by omega)]
      simp only [Res.ok_bind]
      have hO' : ∀ i, CM.o ⟨whole N C, ⟨m.vals.put p x, m.cols, m.offs⟩⟩ i = m.offs.data i := fun i => by simp [CM.o, whole, CHdr.new]
      refine Res.ok_iff.2 ⟨⟨⟨?_, ?_, ?_, ?_, ?_, ?_⟩, e1, e2, ?_, ?_⟩, rfl, rfl, ?_⟩
      · simp only [whole, CHdr.new]; omega
      · intro s hs; rw [hO', hO']; exact mono s (s + 1) (by omega) hs
      · rw [hO']; simp only [whole, CHdr.new, Buf.put_size]; omega
      · rw [hO']; simp only [whole, CHdr.new]; omega
      · intro s q1 q2 hs; rw [hO', hO']; exact sorted s q1 q2 hs
      · intro s q hs; rw [hO', hO']; exact bound s q hs
      · intro s q hs h1 h2
        simp only [hO', Mat.setCell, Buf.put_data] at hs h1 h2 ⊢
        by_cases hqp : q = p
        · subst hqp
          have hsR : s = R := by
            rcases Nat.lt_trichotomy s R with hsR | hsR | hsR
            · have := mono (s + 1) R (by omega) (by omega); omega
            · exact hsR
            · have := mono (R + 1) s (by omega) (by omega); omega
          rw [if_pos ⟨hsR, hp2⟩, if_pos rfl]
        · rw [if_neg hqp, if_neg ?_]
          · exact entry s q hs h1 h2
          · rintro ⟨rfl, h3⟩
            rcases Nat.lt_or_gt_of_ne hqp with h4 | h4
            · have := sorted s q p (by omega) h1 h4 hp1; omega
            · have := sorted s p q (by omega) g1 h4 h2; omega
      · intro s k hs hk hno
        simp only [hO', Mat.setCell] at hs hk hno ⊢
        rw [if_neg ?_]
        · exact rest s k hs hk hno
        · rintro ⟨rfl, rfl⟩
          exact hno p g1 hp1 hp2
      · intro nz
        simp only [Buf.put_data]
        refine ⟨fun q hq => ?_, ?_⟩
        · split
          · exact hx
          · exact nz q hq
        · have := entry R p (by omega) g1 hp1
          rw [hp2] at this
          rw [nnzAfter, if_neg hx, this, if_neg (nz p (by omega))]
  · have hbf : b = false := by cases b <;> simp_all
    have habs : ∀ q, p ≤ q → q < m.offs.data (R + 1) → c < m.cols.data q := by
      intro q h1 h2
      have h3 := g4 q h1 h2
      have h4 : m.cols.data p ≠ c := fun h4 => hbt (hb'.2 ⟨by omega, h4⟩)
      have h5 := g4 p (Nat.le_refl _) (by omega)
      by_cases hqp : q = p
      · subst hqp; omega
      · have := sorted R p q (by omega) g1 (by omega) h2; omega
    have hzero : a.cell R c = zero := by
      refine rest R c (by omega) (by omega) fun q h1 h2 h3 => ?_
      by_cases hqp : q < p
      · have := g3 q h1 hqp; omega
      · have := habs q (by omega) h2; omega
    rw [if_pos hbf]
    by_cases hx : x = zero
    · rw [if_pos hx]
      refine Res.ok_iff.2 ⟨⟨h.wf, e1, e2, ?_, ?_⟩, rfl, rfl, fun nz => ⟨nz, by rw [nnzAfter, if_pos hx, if_pos hzero]⟩⟩
      · intro s q hs h1 h2
        simp only [hO, Mat.setCell] at hs h1 h2 ⊢
        rw [if_neg ?_]
        · exact entry s q hs h1 h2
        · rintro ⟨rfl, h3⟩
          by_cases hqp : q < p
          · have := g3 q h1 hqp; omega
          · have := habs q (by omega) h2; omega
      · intro s k hs hk hno
        simp only [hO, Mat.setCell] at hs hk hno ⊢
        by_cases hsc : s = R ∧ k = c
        · rw [if_pos hsc, hx]
        · rw [if_neg hsc]; exact rest s k hs hk hno
    · -- insert
      rw [if_neg hx]
      obtain ⟨roomV, roomC⟩ : m.offs.data N < m.vals.size ∧ m.offs.data N < m.cols.size := by
        rcases room with h1 | ⟨h1, _⟩
        · exact h1
        · exact absurd (h1.2 hzero) hx
      obtain ⟨⟨vs, cs⟩, hs, s1, s2, s3, s4⟩ := shiftRight_ok (v := m.vals) (c := m.cols) (p := p) (e := m.offs.data N) (by omega) roomV roomC
      rw [hs]
      simp only [Res.ok_bind] at s1 s2 s3 s4 ⊢
      rw [Buf.write_eq (by omega)]
      simp only [Res.ok_bind]
      rw [Buf.write_eq (by omega)]
      simp only [Res.ok_bind]
      obtain ⟨os, ho, o1, o2⟩ := bump_ok (fun x => x + 1) m.offs v.rowOff (r + 1) (v.alloc + 1) (by omega) (by omega)
      rw [ho]
      simp only [Res.ok_bind]
      rw [show v.rowOff + (r + 1) = R + 1 by omega, show v.rowOff + (v.alloc + 1) = N + 1 by omega] at o2
      have hO' : ∀ i, CM.o ⟨whole N C, ⟨vs.put p x, cs.put p c, os⟩⟩ i = os.data i := fun i => by simp [CM.o, whole, CHdr.new]
      have olo : ∀ i, i ≤ R → os.data i = m.offs.data i := fun i hi => by rw [o2, if_neg (by omega)]
      have ohi : ∀ i, R < i → i ≤ N → os.data i = m.offs.data i + 1 := fun i hi hi' => by rw [o2, if_pos (by omega)]
      have from' : ∀ s q, s < N → os.data s ≤ q → q < os.data (s + 1) → (s = R ∧ q = p) ∨
          (q ≠ p ∧ ∃ q0, m.offs.data s ≤ q0 ∧ q0 < m.offs.data (s + 1) ∧ (cs.put p c).data q = m.cols.data q0 ∧
            (vs.put p x).data q = m.vals.data q0 ∧ (q < p ∧ q0 = q ∨ p < q ∧ q = q0 + 1)) := by
        intro s q hs h1 h2
        have m1 := mono s (s + 1) (by omega) (by omega)
        have m3 := mono (s + 1) N (by omega) (by omega)
        simp only [Buf.put_data]
        rcases Nat.lt_trichotomy s R with hsR | hsR | hsR
        · rw [olo s (by omega)] at h1; rw [olo (s + 1) (by omega)] at h2
          have m2 := mono (s + 1) R (by omega) (by omega)
          refine .inr ⟨by omega, q, h1, h2, ?_, ?_, .inl ⟨by omega, rfl⟩⟩
          · rw [if_neg (by omega), s4, if_neg (by omega)]
          · rw [if_neg (by omega), s3, if_neg (by omega)]
        · subst hsR
          rw [olo s (by omega)] at h1; rw [ohi (s + 1) (by omega) (by omega)] at h2
          rcases Nat.lt_trichotomy q p with hq | hq | hq
          · refine .inr ⟨by omega, q, h1, by omega, ?_, ?_, .inl ⟨hq, rfl⟩⟩
            · rw [if_neg (by omega), s4, if_neg (by omega)]
            · rw [if_neg (by omega), s3, if_neg (by omega)]
          · exact .inl ⟨rfl, hq⟩
          · refine .inr ⟨by omega, q - 1, by omega, by omega, ?_, ?_, .inr ⟨hq, by omega⟩⟩
            · rw [if_neg (by omega), s4, if_pos (by omega)]
            · rw [if_neg (by omega), s3, if_pos (by omega)]
        · have m2 := mono (R + 1) s (by omega) (by omega)
          rw [ohi s (by omega) (by omega)] at h1; rw [ohi (s + 1) (by omega) (by omega)] at h2
          refine .inr ⟨by omega, q - 1, by omega, by omega, ?_, ?_, .inr ⟨by omega, by omega⟩⟩
          · rw [if_neg (by omega), s4, if_pos (by omega)]
          · rw [if_neg (by omega), s3, if_pos (by omega)]
      have to' : ∀ s q, s < N → m.offs.data s ≤ q → q < m.offs.data (s + 1) →
          ∃ q', os.data s ≤ q' ∧ q' < os.data (s + 1) ∧ (cs.put p c).data q' = m.cols.data q := by
        intro s q hs h1 h2
        have m3 := mono (s + 1) N (by omega) (by omega)
        simp only [Buf.put_data]
        rcases Nat.lt_trichotomy s R with hsR | hsR | hsR
        · have m2 := mono (s + 1) R (by omega) (by omega)
          exact ⟨q, by rw [olo s (by omega)]; exact h1, by rw [olo (s + 1) (by omega)]; exact h2,
            by rw [if_neg (by omega), s4, if_neg (by omega)]⟩
        · subst hsR
          rw [olo s (by omega), ohi (s + 1) (by omega) (by omega)]
          by_cases hq : q < p
          · exact ⟨q, h1, by omega, by rw [if_neg (by omega), s4, if_neg (by omega)]⟩
          · exact ⟨q + 1, by omega, by omega, by rw [if_neg (by omega), s4, if_pos (by omega)]; rfl⟩
        · have m2 := mono (R + 1) s (by omega) (by omega)
          rw [ohi s (by omega) (by omega), ohi (s + 1) (by omega) (by omega)]
          exact ⟨q + 1, by omega, by omega, by rw [if_neg (by omega), s4, if_pos (by omega)]; rfl⟩
      have hpin : os.data R ≤ p ∧ p < os.data (R + 1) := by
        rw [olo R (by omega), ohi (R + 1) (by omega) (by omega)]; omega
      refine Res.ok_iff.2 ⟨⟨⟨?_, ?_, ?_, ?_, ?_, ?_⟩, e1, e2, ?_, ?_⟩, s1, s2, ?_⟩
      · simp only [whole, CHdr.new]; omega
      · intro s hs
        simp only [whole, CHdr.new] at hs
        rw [hO', hO']
        have m1 := mono s (s + 1) (by omega) (by omega)
        rcases Nat.lt_trichotomy s R with hsR | hsR | hsR
        · rw [olo s (by omega), olo (s + 1) (by omega)]; exact m1
        · subst hsR; rw [olo s (by omega), ohi (s + 1) (by omega) (by omega)]; omega
        · rw [ohi s (by omega) (by omega), ohi (s + 1) (by omega) (by omega)]; omega
      · rw [hO']; simp only [whole, CHdr.new, Buf.put_size]; rw [ohi N (by omega) (by omega)]; omega
      · rw [hO']; simp only [whole, CHdr.new, Buf.put_size]; rw [ohi N (by omega) (by omega)]; omega
      · intro s q1 q2 hs h1 h2 h3
        simp only [whole, CHdr.new] at hs
        rw [hO'] at h1 h3
        simp only
        rcases from' s q1 hs h1 (by omega) with ⟨a1, a2⟩ | ⟨a0, k1, a1, a2, a3, a4, a5⟩
        · rcases from' s q2 hs (by omega) h3 with ⟨b1, b2⟩ | ⟨b0, k2, b1, b2, b3, b4, b5⟩
          · omega
          · rw [b3, a2, Buf.put_data_same]
            subst a1
            exact habs k2 (by omega) b2
        · rcases from' s q2 hs (by omega) h3 with ⟨b1, b2⟩ | ⟨b0, k2, b1, b2, b3, b4, b5⟩
          · rw [a3, b2, Buf.put_data_same]
            subst b1
            exact g3 k1 a1 (by omega)
          · rw [a3, b3]
            exact sorted s k1 k2 hs a1 (by omega) b2
      · intro s q hs h1 h2
        simp only [whole, CHdr.new] at hs
        rw [hO'] at h1 h2
        simp only [whole, CHdr.new]
        rcases from' s q hs h1 h2 with ⟨a1, a2⟩ | ⟨a0, k1, a1, a2, a3, a4, a5⟩
        · rw [a2, Buf.put_data_same]; exact hc
        · rw [a3]; exact bound s k1 hs a1 a2
      · intro s q hs h1 h2
        rw [hO'] at h1 h2
        simp only [Mat.setCell] at hs ⊢
        rcases from' s q (by omega) h1 h2 with ⟨a1, a2⟩ | ⟨a0, k1, a1, a2, a3, a4, a5⟩
        · rw [a2, Buf.put_data_same, Buf.put_data_same, if_pos ⟨a1, rfl⟩]
        · rw [a3, a4, if_neg ?_]
          · exact entry s k1 hs a1 a2
          · rintro ⟨rfl, h3⟩
            by_cases h4 : k1 < p
            · have := g3 k1 a1 h4; omega
            · have := habs k1 (by omega) a2; omega
      · intro s k hs hk hno
        simp only [hO', Mat.setCell] at hs hk hno ⊢
        by_cases hsc : s = R ∧ k = c
        · exact absurd (by rw [Buf.put_data_same]; exact hsc.2.symm) (hno p (by rw [hsc.1]; exact hpin.1) (by rw [hsc.1]; exact hpin.2))
        · rw [if_neg hsc]
          refine rest s k hs hk fun q h1 h2 h3 => ?_
          obtain ⟨q', z1, z2, z3⟩ := to' s q (by omega) h1 h2
          exact hno q' z1 z2 (by rw [z3]; exact h3)
      · intro nz
        simp only; rw [ohi N (by omega) (by omega)]
        refine ⟨fun q hq => ?_, by rw [nnzAfter, if_neg hx, if_pos hzero]⟩
        simp only [Buf.put_data]
        split
        · exact hx
        · rw [s3]; split <;> exact nz _ (by omega)

end Verif.Csr
