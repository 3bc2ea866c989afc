/-
  C13: building a sparse matrix by in-order append.
-/
import Verif.Csr.Windows
import Verif.Dense.Append

namespace Verif.Csr
open Verif
open Verif.Dense (Before)
variable {α : Type}

/-- `prepareAppend(); append(..) for each triple; finishAppend()` on the matrix object `x`. -/
def buildByAppend [DecidableEq α] (zero : α) (x : CM α) (l : List (Nat × Nat × α)) : Res (CM α) := do
  let (h, m) ← x.h.prepareAppend x.mem
  let (h, m) ← l.foldlM (fun (s : CHdr × CMem α) (t : Nat × Nat × α) => s.1.append zero s.2 t.1 t.2.1 t.2.2) (h, m)
  let (h, m) ← h.finishAppend m
  .ok ⟨h, m⟩

/-- Filling the offsets of skipped rows. -/
theorem fill_ok (h : CHdr) (o : Buf Nat) (E r : Nat) (hr : h.rowOff + r + 1 < o.size) :
    Res.Ok (h.fillNextPosUntil o E r) (fun ho => ho.1 = { h with lastApp := max h.lastApp r } ∧ ho.2.size = o.size ∧
      ∀ i, ho.2.data i = if h.rowOff + h.lastApp + 2 ≤ i ∧ i ≤ h.rowOff + r + 1 then E else o.data i) := by
  unfold CHdr.fillNextPosUntil
  by_cases hl : h.lastApp < r
  · rw [if_pos hl]
    obtain ⟨o', h1, h2, h3⟩ := forLoop_ok (body := fun k o => o.write (h.rowOff + k) E) (fun k (o' : Buf Nat) => o'.size = o.size ∧
      ∀ i, o'.data i = if h.rowOff + h.lastApp + 2 ≤ i ∧ i < h.rowOff + k then E else o.data i) (h.lastApp + 2) (r + 2) o (by omega)
      ⟨rfl, fun i => by rw [if_neg (by omega)]⟩ (by
        rintro k o' hk0 hk ⟨i1, i2⟩
        rw [Buf.write_eq (by omega)]
        refine Res.ok_iff.2 ⟨by simpa using i1, fun i => ?_⟩
        simp only [Buf.put_data]
        by_cases hi : i = h.rowOff + k
        · rw [if_pos hi, if_pos (by omega)]
        · rw [if_neg hi, i2]
          by_cases h2 : h.rowOff + h.lastApp + 2 ≤ i ∧ i < h.rowOff + k
          · rw [if_pos h2, if_pos (by omega)]
          · rw [if_neg h2, if_neg (by omega)])
    rw [h1]
    refine Res.ok_iff.2 ⟨?_, h2, fun i => ?_⟩
    · simp only; congr 1; omega
    · rw [h3]
      by_cases h2 : h.rowOff + h.lastApp + 2 ≤ i ∧ i < h.rowOff + (r + 2)
      · rw [if_pos h2, if_pos (by omega)]
      · rw [if_neg h2, if_neg (by omega)]
  · rw [if_neg hl]
    refine Res.ok_iff.2 ⟨?_, rfl, fun i => by rw [if_neg (by omega)]⟩
    simp only; cases h; simp only [CHdr.mk.injEq, true_and]; simp only at hl; omega

/-- State while appending: the first `lastApp + 1` rows are a well-formed matrix with the cells `f`. -/
structure AppInv (zero : α) (x : CM α) (S : Nat) (s : CHdr × CMem α) (f : Nat → Nat → α) (n : Nat) (done : List (Nat × Nat × α)) : Prop where
  hdr : s.1 = { x.h with lastApp := s.1.lastApp }
  last : s.1.lastApp < x.h.numRows
  is : CM.Is zero ⟨{ s.1 with numRows := s.1.lastApp + 1 }, s.2⟩ ⟨s.1.lastApp + 1, x.h.numCols, f⟩
  start : s.2.offs.data x.h.rowOff = S
  top : s.2.offs.data (x.h.rowOff + s.1.lastApp + 1) = S + n
  zeroAbove : ∀ r c, s.1.lastApp < r → f r c = zero
  sizeV : s.2.vals.size = x.mem.vals.size
  sizeC : s.2.cols.size = x.mem.cols.size
  sizeO : s.2.offs.size = x.mem.offs.size
  keepV : ∀ p, p < S → s.2.vals.data p = x.mem.vals.data p
  keepC : ∀ p, p < S → s.2.cols.data p = x.mem.cols.data p
  keepO : ∀ i, ¬ (x.h.rowOff ≤ i ∧ i ≤ x.h.rowOff + x.h.numRows) → s.2.offs.data i = x.mem.offs.data i
  rowOrigin : s.1.lastApp = 0 ∨ ∃ t ∈ done, t.1 = s.1.lastApp
  colOrigin : ∀ p, s.2.offs.data (x.h.rowOff + s.1.lastApp) ≤ p → p < S + n → ∃ v, (s.1.lastApp, s.2.cols.data p, v) ∈ done

theorem app_step [DecidableEq α] {zero : α} {x : CM α} {S : Nat} {s : CHdr × CMem α} {f : Nat → Nat → α} {n : Nat}
    {done : List (Nat × Nat × α)} (inv : AppInv zero x S s f n done) (hO : x.h.rowOff + x.h.numRows < x.mem.offs.size)
    {r c : Nat} {v : α} (hr : r < x.h.numRows) (hc : c < x.h.numCols)
    (hord : ∀ t ∈ done, Before t (r, c, v)) (cap : v = zero ∨ (S + n < x.mem.vals.size ∧ S + n < x.mem.cols.size)) :
    Res.Ok (s.1.append zero s.2 r c v) (fun s' => AppInv zero x S s' (if v = zero then f else (fun r' c' => if r' = r ∧ c' = c then v else f r' c'))
      (if v = zero then n else n + 1) (done ++ [(r, c, v)])) := by
  obtain ⟨h, m⟩ := s
  have ehdr := inv.hdr
  have elast := inv.last
  simp only at ehdr elast
  have eo : h.rowOff = x.h.rowOff := by rw [ehdr]
  have en : h.numRows = x.h.numRows := by rw [ehdr]
  have ec : h.numCols = x.h.numCols := by rw [ehdr]
  unfold CHdr.append
  rw [if_neg (by simp only; omega), if_neg (by simp only; omega)]
  by_cases hv : v = zero
  · rw [if_pos hv, if_pos hv, if_pos hv]
    refine Res.ok_iff.2 ⟨inv.hdr, inv.last, inv.is, inv.start, inv.top, inv.zeroAbove, inv.sizeV, inv.sizeC, inv.sizeO, inv.keepV,
      inv.keepC, inv.keepO, ?_, ?_⟩
    · rcases inv.rowOrigin with h1 | ⟨t, h1, h2⟩
      · exact .inl h1
      · exact .inr ⟨t, List.mem_append_left _ h1, h2⟩
    · intro p h1 h2
      obtain ⟨w, hw⟩ := inv.colOrigin p h1 h2
      exact ⟨w, List.mem_append_left _ hw⟩
  · rw [if_neg hv, if_neg hv, if_neg hv]
    have hcap : S + n < x.mem.vals.size ∧ S + n < x.mem.cols.size := cap.resolve_left hv
    have sizeV := inv.sizeV; have sizeC := inv.sizeC; have sizeO := inv.sizeO
    have top := inv.top; have start := inv.start
    simp only at sizeV sizeC sizeO top start
    -- the new row is not before the last one
    have hLr : h.lastApp ≤ r := by
      rcases inv.rowOrigin with h1 | ⟨t, h1, h2⟩
      · simp only at h1; omega
      · have := hord t h1; simp only at h2; unfold Before at this; simp only at this; omega
    simp only
    rw [Buf.read_eq (by omega)]
    simp only [Res.ok_bind]
    rw [show h.rowOff + (h.lastApp + 1) = x.h.rowOff + h.lastApp + 1 by omega, top]
    obtain ⟨⟨h', o'⟩, hf, g1, g2, g3⟩ := fill_ok h m.offs (S + n) r (by omega)
    rw [hf]
    simp only [Res.ok_bind] at g1 g2 g3 ⊢
    rw [Buf.write_eq (by omega)]
    simp only [Res.ok_bind]
    rw [Buf.write_eq (by omega)]
    simp only [Res.ok_bind]
    have eh' : h' = { x.h with lastApp := r } := by
      rw [g1, ehdr]; simp only [CHdr.mk.injEq, true_and]; omega
    clear g1
    subst eh'
    simp only
    rw [Buf.read_eq (by omega)]
    simp only [Res.ok_bind]
    rw [Buf.write_eq (by omega)]
    simp only [Res.ok_bind]
    rw [eo] at g3
    have ov : o'.data (x.h.rowOff + (r + 1)) = S + n := by
      rw [g3]
      by_cases hL : h.lastApp = r
      · rw [if_neg (by omega)]; rw [← hL]; rw [← top]; congr 1
      · rw [if_pos (by omega)]
    rw [ov]
    -- offsets afterwards
    have onew : ∀ i, (o'.put (x.h.rowOff + (r + 1)) (S + n + 1)).data (x.h.rowOff + i) =
        if i = r + 1 then S + n + 1 else if h.lastApp + 1 < i ∧ i ≤ r then S + n else m.offs.data (x.h.rowOff + i) := by
      intro i
      rw [Buf.put_data]
      by_cases hi : i = r + 1
      · rw [if_pos (by omega), if_pos hi]
      · rw [if_neg (by omega), if_neg hi, g3]
        by_cases h2 : h.lastApp + 1 < i ∧ i ≤ r
        · rw [if_pos (by omega), if_pos h2]
        · rw [if_neg (by omega), if_neg h2]
    have w := inv.is.wf
    have hold : ∀ i, CM.o ⟨{ h with numRows := h.lastApp + 1 }, m⟩ i = m.offs.data (x.h.rowOff + i) := by
      intro i; unfold CM.o; simp only [eo]
    have omono : ∀ i j, i ≤ j → j ≤ h.lastApp + 1 → m.offs.data (x.h.rowOff + i) ≤ m.offs.data (x.h.rowOff + j) := by
      intro i j h1 h2
      have := w.mono' (r := i) (r' := j) h1 h2
      rwa [hold, hold] at this
    have otop : m.offs.data (x.h.rowOff + (h.lastApp + 1)) = S + n := by rw [← top]; congr 1
    have sorted := w.sorted; have bound := w.bound; have entry := inv.is.entry; have rest := inv.is.rest
    simp only [hold] at sorted bound entry rest
    simp only [ec] at bound
    have osz : (o'.put (x.h.rowOff + (r + 1)) (S + n + 1)).size = x.mem.offs.size := by rw [Buf.put_size, g2, sizeO]
    generalize hoN : o'.put (x.h.rowOff + (r + 1)) (S + n + 1) = oN at *
    have hnew : ∀ i, CM.o ⟨{ x.h with numRows := r + 1, lastApp := r }, ⟨m.vals.put (S + n) v, m.cols.put (S + n) c, oN⟩⟩ i
        = oN.data (x.h.rowOff + i) := by
      intro i; rfl
    -- positions of a row of the new matrix
    have rowpos : ∀ s p, s < r + 1 → oN.data (x.h.rowOff + s) ≤ p → p < oN.data (x.h.rowOff + (s + 1)) →
        (s = r ∧ p = S + n) ∨ (s ≤ h.lastApp ∧ m.offs.data (x.h.rowOff + s) ≤ p ∧ p < m.offs.data (x.h.rowOff + (s + 1)) ∧ p < S + n) := by
      intro s p hs h1 h2
      rw [onew] at h1 h2
      rw [if_neg (by omega)] at h1
      by_cases hsL : h.lastApp < s
      · by_cases hsr : s = r
        · subst hsr
          rw [if_pos rfl] at h2
          left
          by_cases h3 : h.lastApp + 1 < s
          · rw [if_pos (by omega)] at h1; omega
          · rw [if_neg (by omega), show s = h.lastApp + 1 by omega, otop] at h1; omega
        · rw [if_neg (by omega), if_pos (by omega)] at h2
          by_cases h3 : h.lastApp + 1 < s
          · rw [if_pos (by omega)] at h1; omega
          · rw [if_neg (by omega), show s = h.lastApp + 1 by omega, otop] at h1; omega
      · rw [if_neg (by omega)] at h1
        by_cases hsr : s = r
        · subst hsr
          rw [if_pos rfl] at h2
          have hL : h.lastApp = s := by omega
          by_cases hp : p = S + n
          · exact .inl ⟨rfl, hp⟩
          · right; refine ⟨by omega, h1, ?_, by omega⟩
            rw [← hL, otop]; omega
        · rw [if_neg (by omega), if_neg (by omega)] at h2
          have := omono (s + 1) (h.lastApp + 1) (by omega) (by omega)
          exact .inr ⟨by omega, h1, h2, by omega⟩
    -- columns stored in row r are smaller
    have colsLt : ∀ p, h.lastApp = r → m.offs.data (x.h.rowOff + r) ≤ p → p < S + n → m.cols.data p < c := by
      intro p hL h1 h2
      obtain ⟨w', hw'⟩ := inv.colOrigin p (by simp only; rw [hL]; exact h1) h2
      have := hord _ hw'
      unfold Before at this; simp only at this; omega
    have newpos : oN.data (x.h.rowOff + r) ≤ S + n ∧ S + n < oN.data (x.h.rowOff + (r + 1)) := by
      rw [onew, onew, if_pos rfl, if_neg (by omega)]
      by_cases h3 : h.lastApp + 1 < r
      · rw [if_pos (by omega)]; omega
      · rw [if_neg (by omega)]
        have := omono r (h.lastApp + 1) (by omega) (by omega)
        omega
    have oldpos : ∀ s p, s ≤ h.lastApp → m.offs.data (x.h.rowOff + s) ≤ p → p < m.offs.data (x.h.rowOff + (s + 1)) →
        oN.data (x.h.rowOff + s) ≤ p ∧ p < oN.data (x.h.rowOff + (s + 1)) ∧ p < S + n := by
      intro s p hs h1 h2
      have := omono (s + 1) (h.lastApp + 1) (by omega) (by omega)
      rw [onew, onew, if_neg (by omega), if_neg (by omega)]
      refine ⟨h1, ?_, by omega⟩
      by_cases hsr : s = r
      · rw [if_pos (by omega)]; omega
      · rw [if_neg (by omega), if_neg (by omega)]; exact h2
    refine Res.ok_iff.2 ⟨?_, ?_, ⟨⟨?_, ?_, ?_, ?_, ?_, ?_⟩, ?_, ?_, ?_, ?_⟩, ?_, ?_, ?_, ?_, ?_, ?_, ?_, ?_, ?_, ?_, ?_⟩
    · rfl
    · simp only; omega
    · simp only; omega
    · intro s hs
      simp only at hs ⊢
      rw [hnew, hnew, onew, onew, if_neg (by omega)]
      by_cases h3 : h.lastApp + 1 < s
      · rw [if_pos (by omega)]
        split
        · omega
        · rw [if_pos (by omega)]
      · rw [if_neg (by omega)]
        have := omono s (h.lastApp + 1) (by omega) (by omega)
        split
        · omega
        · split
          · omega
          · exact omono s (s + 1) (by omega) (by omega)
    · simp only; rw [hnew, onew, if_pos rfl, Buf.put_size]; omega
    · simp only; rw [hnew, onew, if_pos rfl, Buf.put_size]; omega
    · intro s p q hs h1 h2 h3
      simp only at hs h1 h3 ⊢
      rw [hnew] at h1 h3
      rcases rowpos s p hs h1 (by omega) with ⟨a1, a2⟩ | ⟨a1, a2, a3, a4⟩
      · rcases rowpos s q hs (by omega) h3 with ⟨b1, b2⟩ | ⟨b1, b2, b3, b4⟩ <;> omega
      · rcases rowpos s q hs (by omega) h3 with ⟨b1, b2⟩ | ⟨b1, b2, b3, b4⟩
        · rw [Buf.put_data_ne _ _ _ _ (by omega), b2, Buf.put_data_same]
          subst b1
          exact colsLt p (by omega) a2 a4
        · rw [Buf.put_data_ne _ _ _ _ (by omega), Buf.put_data_ne _ _ _ _ (by omega)]
          exact sorted s p q (by omega) a2 h2 b3
    · intro s p hs h1 h2
      simp only at hs h1 h2 ⊢
      rw [hnew] at h1 h2
      rcases rowpos s p hs h1 h2 with ⟨a1, a2⟩ | ⟨a1, a2, a3, a4⟩
      · rw [a2, Buf.put_data_same]; exact hc
      · rw [Buf.put_data_ne _ _ _ _ (by omega)]; exact bound s p (by omega) a2 a3
    · rfl
    · rfl
    · intro s p hs h1 h2
      simp only at hs h1 h2 ⊢
      rw [hnew] at h1 h2
      rcases rowpos s p hs h1 h2 with ⟨a1, a2⟩ | ⟨a1, a2, a3, a4⟩
      · rw [a2, Buf.put_data_same, Buf.put_data_same, if_pos ⟨a1, rfl⟩]
      · rw [Buf.put_data_ne _ _ _ _ (by omega), Buf.put_data_ne _ _ _ _ (by omega), if_neg ?_]
        · exact entry s p (by omega) a2 a3
        · rintro ⟨rfl, h3⟩
          have := colsLt p (by omega) a2 a4; omega
    · intro s k hs hk hno
      simp only at hs hk hno ⊢
      simp only [hnew] at hno
      by_cases hsc : s = r ∧ k = c
      · exfalso
        refine hno (S + n) ?_ ?_ ?_
        · rw [hsc.1]; exact newpos.1
        · rw [hsc.1]; exact newpos.2
        · rw [Buf.put_data_same]; exact hsc.2.symm
      · rw [if_neg hsc]
        by_cases hsL : s ≤ h.lastApp
        · refine rest s k (by omega) hk fun p h1 h2 h3 => ?_
          obtain ⟨z1, z2, z3⟩ := oldpos s p hsL h1 h2
          exact hno p z1 z2 (by rw [Buf.put_data_ne _ _ _ _ (by omega)]; exact h3)
        · exact inv.zeroAbove s k (by simp only; omega)
    · have h0 := onew 0
      simp only [Nat.add_zero] at h0
      simp only
      rw [h0, if_neg (by omega), if_neg (by omega)]; exact start
    · simp only
      rw [show x.h.rowOff + r + 1 = x.h.rowOff + (r + 1) by omega, onew, if_pos rfl]; rfl
    · intro s k hs
      simp only at hs
      rw [if_neg (by omega)]
      exact inv.zeroAbove s k (by simp only; omega)
    · simp only [Buf.put_size]; exact sizeV
    · simp only [Buf.put_size]; exact sizeC
    · exact osz
    · intro p hp
      simp only
      rw [Buf.put_data_ne _ _ _ _ (by omega)]; exact inv.keepV p hp
    · intro p hp
      simp only
      rw [Buf.put_data_ne _ _ _ _ (by omega)]; exact inv.keepC p hp
    · intro i hi
      simp only
      rw [← hoN, Buf.put_data_ne _ _ _ _ (by omega), g3, if_neg (by omega)]
      exact inv.keepO i hi
    · right; exact ⟨_, List.mem_append_right _ (List.mem_singleton.2 rfl), rfl⟩
    · intro p h1 h2
      simp only at h1 ⊢
      by_cases hp : p = S + n
      · subst hp
        rw [Buf.put_data_same]
        exact ⟨v, List.mem_append_right _ (List.mem_singleton.2 rfl)⟩
      · rw [Buf.put_data_ne _ _ _ _ hp]
        rcases rowpos r p (by omega) h1 (by omega) with ⟨a1, a2⟩ | ⟨a1, a2, a3, a4⟩
        · omega
        · have hL : h.lastApp = r := by omega
          obtain ⟨w', hw'⟩ := inv.colOrigin p (by simp only; rw [hL]; exact a2) a4
          simp only at hw'
          rw [hL] at hw'
          exact ⟨w', List.mem_append_left _ hw'⟩

/-- `f` holds exactly the cells of `l`, and `zero` elsewhere. -/
def Cells (zero : α) (l : List (Nat × Nat × α)) (f : Nat → Nat → α) : Prop :=
  (∀ r c v, (r, c, v) ∈ l → f r c = v) ∧ (∀ r c, (∀ v, (r, c, v) ∉ l) → f r c = zero)

/-- Number of non-zero values in `l`. -/
def nonZeros [DecidableEq α] (zero : α) (l : List (Nat × Nat × α)) : Nat := (l.filter fun t => t.2.2 ≠ zero).length

theorem app_fold [DecidableEq α] {zero : α} {x : CM α} {S : Nat} (hO : x.h.rowOff + x.h.numRows < x.mem.offs.size) :
    ∀ (l : List (Nat × Nat × α)) {s : CHdr × CMem α} {f : Nat → Nat → α} {n : Nat} {done : List (Nat × Nat × α)},
      AppInv zero x S s f n done → Cells zero done f → (∀ t ∈ l, t.1 < x.h.numRows ∧ t.2.1 < x.h.numCols) →
      (done ++ l).Pairwise Before → S + n + nonZeros zero l ≤ x.mem.vals.size → S + n + nonZeros zero l ≤ x.mem.cols.size →
      Res.Ok (l.foldlM (fun (s : CHdr × CMem α) (t : Nat × Nat × α) => s.1.append zero s.2 t.1 t.2.1 t.2.2) s)
        (fun s' => ∃ f', AppInv zero x S s' f' (n + nonZeros zero l) (done ++ l) ∧ Cells zero (done ++ l) f') := by
  intro l
  induction l with
  | nil =>
    intro s f n done inv cells _ _ _ _
    exact ⟨s, rfl, f, by simpa [nonZeros] using inv, by simpa using cells⟩
  | cons t l ih =>
    intro s f n done inv cells hin hord c1 c2
    obtain ⟨r, c, v⟩ := t
    rw [List.foldlM_cons]
    have hord' : ∀ t ∈ done, Before t (r, c, v) := by
      intro t ht
      exact (List.pairwise_append.1 hord).2.2 t ht _ (List.mem_cons_self ..)
    have hb := hin (r, c, v) (List.mem_cons_self ..)
    have hn : nonZeros zero ((r, c, v) :: l) = (if v = zero then 0 else 1) + nonZeros zero l := by
      unfold nonZeros
      by_cases hv : v = zero
      · simp [hv]
      · simp [hv]; omega
    rw [hn] at c1 c2
    refine (app_step inv hO hb.1 hb.2 hord' (by
      by_cases hv : v = zero
      · exact .inl hv
      · right; rw [if_neg hv] at c1 c2; omega)).bind fun s' inv' => ?_
    have cells' : Cells zero (done ++ [(r, c, v)]) (if v = zero then f else (fun r' c' => if r' = r ∧ c' = c then v else f r' c')) := by
      have hfresh : ∀ v', (r, c, v') ∉ done := by
        intro v' hv'
        have := hord' _ hv'
        unfold Before at this; simp only at this; omega
      constructor
      · intro r' c' v' hm
        rcases List.mem_append.1 hm with h1 | h1
        · have h2 := hord' _ h1
          unfold Before at h2; simp only at h2
          by_cases hv : v = zero
          · rw [if_pos hv]; exact cells.1 r' c' v' h1
          · rw [if_neg hv, if_neg (by omega)]; exact cells.1 r' c' v' h1
        · simp only [List.mem_singleton, Prod.mk.injEq] at h1
          obtain ⟨rfl, rfl, rfl⟩ := h1
          by_cases hv : v' = zero
          · rw [if_pos hv, cells.2 r' c' hfresh, hv]
          · rw [if_neg hv, if_pos ⟨rfl, rfl⟩]
      · intro r' c' hno
        have h1 : ¬ (r' = r ∧ c' = c) := by
          rintro ⟨rfl, rfl⟩
          exact hno v (List.mem_append_right _ (List.mem_singleton.2 rfl))
        have h2 : f r' c' = zero := cells.2 r' c' fun v' hv' => hno v' (List.mem_append_left _ hv')
        by_cases hv : v = zero
        · rw [if_pos hv]; exact h2
        · rw [if_neg hv, if_neg h1]; exact h2
    have e : done ++ (r, c, v) :: l = (done ++ [(r, c, v)]) ++ l := by simp
    rw [e] at hord ⊢
    have := ih inv' cells' (fun t ht => hin t (List.mem_cons_of_mem _ ht)) hord 
      (by by_cases hv : v = zero
          · rw [if_pos hv] at c1 ⊢; omega
          · rw [if_neg hv] at c1 ⊢; omega)
      (by by_cases hv : v = zero
          · rw [if_pos hv] at c2 ⊢; omega
          · rw [if_neg hv] at c2 ⊢; omega)
    refine this.mono ?_
    rintro s'' ⟨f', i1, i2⟩
    refine ⟨f', ?_, i2⟩
    rw [hn]
    have e2 : n + ((if v = zero then 0 else 1) + nonZeros zero l) = (if v = zero then n else n + 1) + nonZeros zero l := by
      split <;> omega
    rw [e2]; exact i1

/-- Appending into any object whose start offset is known. -/
theorem append_general [DecidableEq α] (zero : α) (x : CM α) (hpos : 0 < x.h.numRows)
    (hO : x.h.rowOff + x.h.numRows < x.mem.offs.size) (l : List (Nat × Nat × α))
    (hin : ∀ t ∈ l, t.1 < x.h.numRows ∧ t.2.1 < x.h.numCols) (hord : l.Pairwise Before) (S : Nat)
    (hS : S = if x.h.before then x.mem.offs.data x.h.rowOff else 0)
    (capV : S + nonZeros zero l ≤ x.mem.vals.size) (capC : S + nonZeros zero l ≤ x.mem.cols.size) :
    Res.Ok (buildByAppend zero x l) (fun y => ∃ f, Cells zero l f ∧ y.Is zero ⟨x.h.numRows, x.h.numCols, f⟩ ∧
      y.h = { x.h with lastApp := y.h.lastApp } ∧ y.mem.offs.data x.h.rowOff = S ∧
      y.mem.vals.size = x.mem.vals.size ∧ y.mem.cols.size = x.mem.cols.size ∧ y.mem.offs.size = x.mem.offs.size ∧
      (∀ p, p < S → y.mem.vals.data p = x.mem.vals.data p) ∧ (∀ p, p < S → y.mem.cols.data p = x.mem.cols.data p) ∧
      (∀ i, ¬ (x.h.rowOff ≤ i ∧ i ≤ x.h.rowOff + x.h.numRows) → y.mem.offs.data i = x.mem.offs.data i)) := by
  unfold buildByAppend
  -- prepareAppend
  have hprep : Res.Ok (x.h.prepareAppend x.mem) (fun s => AppInv zero x S s (fun _ _ => zero) 0 []) := by
    have mk : ∀ offs : Buf Nat, offs.size = x.mem.offs.size → offs.data x.h.rowOff = S → offs.data (x.h.rowOff + 1) = S →
        (∀ i, ¬ (x.h.rowOff ≤ i ∧ i ≤ x.h.rowOff + x.h.numRows) → offs.data i = x.mem.offs.data i) →
        AppInv zero x S ({ x.h with lastApp := 0 }, { x.mem with offs := offs }) (fun _ _ => zero) 0 [] := by
      intro offs h1 h2 h3 h4
      have ho : ∀ i, CM.o ⟨{ x.h with numRows := 1, lastApp := 0 }, { x.mem with offs := offs }⟩ i = offs.data (x.h.rowOff + i) := fun i => rfl
      have ho0 : offs.data (x.h.rowOff + 0) = S := h2
      refine ⟨rfl, hpos, ⟨⟨?_, ?_, ?_, ?_, ?_, ?_⟩, rfl, rfl, ?_, ?_⟩, h2, h3, fun _ _ _ => rfl, rfl, rfl, h1, fun _ _ => rfl, fun _ _ => rfl, h4, .inl rfl, ?_⟩
      · simp only; omega
      · intro r hr
        have : r = 0 := by simp only at hr; omega
        subst this
        rw [ho, ho, ho0]; rw [show x.h.rowOff + (0 + 1) = x.h.rowOff + 1 from rfl, h3]
      · rw [ho]; simp only; rw [h3]; omega
      · rw [ho]; simp only; rw [h3]; omega
      · intro r p q hr a1 a2 a3
        have : r = 0 := by simp only at hr; omega
        subst this
        rw [ho] at a1 a3
        rw [show x.h.rowOff + (0 + 1) = x.h.rowOff + 1 from rfl, h3] at a3
        rw [ho0] at a1; omega
      · intro r p hr a1 a3
        have : r = 0 := by simp only at hr; omega
        subst this
        rw [ho] at a1 a3
        rw [show x.h.rowOff + (0 + 1) = x.h.rowOff + 1 from rfl, h3] at a3
        rw [ho0] at a1; omega
      · intro r p hr a1 a3
        have : r = 0 := by simp only at hr; omega
        subst this
        rw [ho] at a1 a3
        rw [show x.h.rowOff + (0 + 1) = x.h.rowOff + 1 from rfl, h3] at a3
        rw [ho0] at a1; omega
      · intro r c _ _ _; rfl
      · intro p a1 a2
        simp only at a1
        rw [ho0] at a1; omega
    unfold CHdr.prepareAppend
    by_cases hb : x.h.before = true
    · rw [if_pos hb, Buf.read_eq (by omega)]
      simp only [Res.ok_bind]
      rw [Buf.write_eq (by omega)]
      simp only [Res.ok_bind]
      rw [if_pos hb] at hS
      refine Res.ok_iff.2 (mk _ rfl ?_ ?_ ?_)
      · rw [Buf.put_data_ne _ _ _ _ (by omega), hS]
      · rw [Buf.put_data_same, hS]
      · intro i hi; rw [Buf.put_data_ne _ _ _ _ (by omega)]
    · rw [if_neg hb] at hS ⊢
      rw [Buf.write_eq (by omega)]
      simp only [Res.ok_bind]
      rw [Buf.write_eq (by simp only [Buf.put_size]; omega)]
      simp only [Res.ok_bind]
      refine Res.ok_iff.2 (mk _ rfl ?_ ?_ ?_)
      · rw [Buf.put_data_ne _ _ _ _ (by omega), Buf.put_data_same, hS]
      · rw [Buf.put_data_same, hS]
      · intro i hi; rw [Buf.put_data_ne _ _ _ _ (by omega), Buf.put_data_ne _ _ _ _ (by omega)]
  refine hprep.bind fun s inv0 => ?_
  obtain ⟨h0, m0⟩ := s
  simp only
  refine (app_fold hO l inv0 ⟨fun _ _ _ hm => absurd hm (List.not_mem_nil), fun _ _ _ => rfl⟩ hin (by simpa using hord)
    (by simpa using capV) (by simpa using capC)).bind fun s' hs' => ?_
  obtain ⟨f, inv, cells⟩ := hs'
  simp only [List.nil_append, Nat.zero_add] at inv cells
  obtain ⟨h, m⟩ := s'
  simp only
  -- finishAppend
  have ehdr := inv.hdr
  have elast := inv.last
  have top := inv.top; have sizeO := inv.sizeO; have sizeV := inv.sizeV; have sizeC := inv.sizeC
  simp only at ehdr elast top sizeO sizeV sizeC
  have eo : h.rowOff = x.h.rowOff := by rw [ehdr]
  have en : h.numRows = x.h.numRows := by rw [ehdr]
  have ec : h.numCols = x.h.numCols := by rw [ehdr]
  unfold CHdr.finishAppend
  rw [Buf.read_eq (by omega)]
  simp only [Res.ok_bind]
  rw [if_neg (by omega), show h.rowOff + (h.lastApp + 1) = x.h.rowOff + h.lastApp + 1 by omega, top]
  obtain ⟨⟨h', o'⟩, hf, g1, g2, g3⟩ := fill_ok h m.offs (S + nonZeros zero l) (h.numRows - 1) (by omega)
  rw [hf]
  simp only [Res.ok_bind] at g1 g2 g3 ⊢
  have eh' : h' = { x.h with lastApp := h'.lastApp } := by rw [g1, ehdr]
  have w := inv.is.wf
  have hold : ∀ i, CM.o ⟨{ h with numRows := h.lastApp + 1 }, m⟩ i = m.offs.data (x.h.rowOff + i) := by
    intro i; unfold CM.o; simp only [eo]
  have hnew : ∀ i, CM.o ⟨h', ⟨m.vals, m.cols, o'⟩⟩ i = o'.data (x.h.rowOff + i) := by
    intro i; unfold CM.o; rw [eh']
  have onew : ∀ i, i ≤ x.h.numRows → o'.data (x.h.rowOff + i) = if h.lastApp + 1 < i then S + nonZeros zero l else m.offs.data (x.h.rowOff + i) := by
    intro i hi
    rw [g3]
    by_cases h1 : h.lastApp + 1 < i
    · rw [if_pos (by omega), if_pos h1]
    · rw [if_neg (by omega), if_neg h1]
  have otop : m.offs.data (x.h.rowOff + (h.lastApp + 1)) = S + nonZeros zero l := by rw [← top]; congr 1
  have omono : ∀ i j, i ≤ j → j ≤ h.lastApp + 1 → m.offs.data (x.h.rowOff + i) ≤ m.offs.data (x.h.rowOff + j) := by
    intro i j h1 h2
    have := w.mono' (r := i) (r' := j) h1 h2
    rwa [hold, hold] at this
  have sorted := w.sorted; have bound := w.bound; have entry := inv.is.entry; have rest := inv.is.rest
  simp only [hold] at sorted bound entry rest
  simp only [ec] at bound
  have rowpos : ∀ s p, s < x.h.numRows → o'.data (x.h.rowOff + s) ≤ p → p < o'.data (x.h.rowOff + (s + 1)) →
      s ≤ h.lastApp ∧ m.offs.data (x.h.rowOff + s) ≤ p ∧ p < m.offs.data (x.h.rowOff + (s + 1)) := by
    intro s p hs h1 h2
    rw [onew s (by omega)] at h1; rw [onew (s + 1) (by omega)] at h2
    by_cases h3 : h.lastApp + 1 < s
    · rw [if_pos h3] at h1; rw [if_pos (by omega)] at h2; omega
    · rw [if_neg h3] at h1
      by_cases h4 : h.lastApp + 1 < s + 1
      · rw [if_pos h4] at h2
        have : s = h.lastApp + 1 := by omega
        rw [this, otop] at h1; omega
      · rw [if_neg h4] at h2; exact ⟨by omega, h1, h2⟩
  have wtop : o'.data (x.h.rowOff + x.h.numRows) = S + nonZeros zero l := by
    rw [onew _ (Nat.le_refl _)]
    by_cases h3 : h.lastApp + 1 < x.h.numRows
    · rw [if_pos h3]
    · rw [if_neg h3, show x.h.numRows = h.lastApp + 1 by omega, otop]
  have hn' : h'.numRows = x.h.numRows := by rw [eh']
  refine Res.ok_iff.2 ⟨f, cells, ⟨⟨?_, ?_, ?_, ?_, ?_, ?_⟩, hn', by rw [eh'], ?_, ?_⟩, eh', ?_, sizeV, sizeC, g2.trans sizeO, inv.keepV, inv.keepC, ?_⟩
  · simp only; rw [eh']; simp only; omega
  · intro s hs
    simp only [hn'] at hs
    rw [hnew, hnew, onew s (by omega), onew (s + 1) (by omega)]
    by_cases h3 : h.lastApp + 1 < s
    · rw [if_pos h3, if_pos (by omega)]
    · rw [if_neg h3]
      by_cases h4 : h.lastApp + 1 < s + 1
      · rw [if_pos h4, show s = h.lastApp + 1 by omega, otop]
      · rw [if_neg h4]; exact omono s (s + 1) (by omega) (by omega)
  · rw [hnew]; simp only [hn']; rw [wtop]; omega
  · rw [hnew]; simp only [hn']; rw [wtop]; omega
  · intro s p q hs h1 h2 h3
    simp only [hn'] at hs
    rw [hnew] at h1 h3
    obtain ⟨a1, a2, a3⟩ := rowpos s p hs h1 (by omega)
    obtain ⟨b1, b2, b3⟩ := rowpos s q hs (by omega) h3
    exact sorted s p q (by omega) a2 h2 b3
  · intro s p hs h1 h2
    simp only [hn'] at hs
    rw [hnew] at h1 h2
    obtain ⟨a1, a2, a3⟩ := rowpos s p hs h1 h2
    simp only; rw [eh']
    exact bound s p (by omega) a2 a3
  · intro s p hs h1 h2
    simp only at hs
    rw [hnew] at h1 h2
    obtain ⟨a1, a2, a3⟩ := rowpos s p hs h1 h2
    exact entry s p (by omega) a2 a3
  · intro s k hs hk hno
    simp only [hnew] at hs hno
    by_cases hsL : s ≤ h.lastApp
    · refine rest s k (by omega) hk fun p h1 h2 h3 => ?_
      refine hno p ?_ ?_ h3
      · rw [onew s (by omega), if_neg (by omega)]; exact h1
      · rw [onew (s + 1) (by omega), if_neg (by omega)]; exact h2
    · exact inv.zeroAbove s k (by simp only; omega)
  · have := onew 0 (by omega)
    simp only [Nat.add_zero] at this
    simp only
    rw [this, if_neg (by omega)]; exact inv.start
  · intro i hi
    simp only
    rw [g3, if_neg (by omega)]
    exact inv.keepO i hi

/-- **C13.** Build an `N × C` sparse matrix (`N ≥ 1`, freshly created with arbitrary array contents, enough room for the
non-zero values) by appending any cells in strictly increasing row-major order. Then `get` returns the appended value at each
appended cell and zero at every other cell. -/
theorem C13_append_in_order [DecidableEq α] (zero : α) (N C cap : Nat) (jv : Nat → α) (jc jo : Nat → Nat) (hN : 0 < N)
    (l : List (Nat × Nat × α)) (hin : ∀ t ∈ l, t.1 < N ∧ t.2.1 < C) (hord : l.Pairwise Before)
    (hcap : nonZeros zero l ≤ cap) :
    Res.Ok (buildByAppend zero (CM.create N C cap jv jc jo) l) (fun y => y.WF ∧
      (∀ r c v, (r, c, v) ∈ l → y.h.get zero y.mem r c = .ok v) ∧
      (∀ r c, r < N → c < C → (∀ v, (r, c, v) ∉ l) → y.h.get zero y.mem r c = .ok zero)) := by
  refine (append_general zero (CM.create N C cap jv jc jo) hN (by simp [CM.create, CHdr.new]) l hin hord 0
    (by simp [CM.create, CHdr.new]) (by simpa [CM.create] using hcap) (by simpa [CM.create] using hcap)).mono ?_
  rintro y ⟨f, cells, is, _⟩
  refine ⟨is.wf, fun r c v hm => ?_, fun r c hr hc hno => ?_⟩
  · have := hin _ hm
    rw [is.get this.1 this.2]; simp only; rw [cells.1 r c v hm]
  · rw [is.get (r := r) (c := c) hr hc]; simp only; rw [cells.2 r c hno]

/-- **C13 (views).** Let the first `rl` rows of an `N`-row sparse matrix be populated with the matrix `a` (`rl` may be 0; the
rest of the arrays is arbitrary). Appending through the view of rows `[rl, ru)` leaves these rows as they are and adds exactly
the appended cells, zero elsewhere, in rows `[rl, ru)`. -/
theorem C13_append_through_view [DecidableEq α] (zero : α) (N C : Nat) (m : CMem α) (rl ru : Nat) (a : Mat α)
    (hr : rl < ru) (hu : ru ≤ N) (is : CM.Is zero ⟨{ CHdr.new N C with numRows := rl }, m⟩ a) (hoffs : m.offs.size = N + 1)
    (h0 : m.offs.data 0 = 0)
    (l : List (Nat × Nat × α)) (hin : ∀ t ∈ l, t.1 < ru - rl ∧ t.2.1 < C) (hord : l.Pairwise Before)
    (capV : m.offs.data rl + nonZeros zero l ≤ m.vals.size) (capC : m.offs.data rl + nonZeros zero l ≤ m.cols.size) :
    Res.Ok (do
      let v ← (CHdr.new N C).sliceRow rl ru
      let y ← buildByAppend zero ⟨v, m⟩ l
      Except.ok (⟨{ CHdr.new N C with numRows := ru }, y.mem⟩ : CM α)) (fun z => z.WF ∧
        (∀ r c, r < rl → c < C → z.h.get zero z.mem r c = .ok (a.cell r c)) ∧
        (∀ r c v, (r, c, v) ∈ l → z.h.get zero z.mem (rl + r) c = .ok v) ∧
        (∀ r c, r < ru - rl → c < C → (∀ v, (r, c, v) ∉ l) → z.h.get zero z.mem (rl + r) c = .ok zero)) := by
  have ev : (CHdr.new N C).sliceRow rl ru = .ok ⟨ru - rl, C, N - rl, decide (0 < rl), rl, 0⟩ := by
    unfold CHdr.sliceRow CHdr.new
    rw [if_neg (by simp only; omega), if_neg (by simp only; omega), if_neg (by omega)]
    simp
  rw [ev]
  simp only [Res.ok_bind]
  refine (append_general zero ⟨⟨ru - rl, C, N - rl, decide (0 < rl), rl, 0⟩, m⟩ (by simp only; omega) (by simp only; omega) l hin hord
    (m.offs.data rl) (by
      by_cases h : 0 < rl
      · simp [h]
      · have : rl = 0 := by omega
        subst this; simp [h0]) capV capC).bind ?_
  rintro y ⟨f, cells, isY, ey, k1, k2, k3, k4, k5, k6, k7⟩
  simp only at isY ey k1 k2 k3 k4 k5 k6 k7
  have erows : rl = a.rows := is.rows
  have ecols : C = a.cols := is.cols
  have hoY : ∀ i, y.o i = y.mem.offs.data (rl + i) := by intro i; unfold CM.o; rw [ey]
  have hoA : ∀ i, CM.o ⟨{ CHdr.new N C with numRows := rl }, m⟩ i = m.offs.data i := by intro i; simp [CM.o, CHdr.new]
  have hoZ : ∀ i, CM.o ⟨{ CHdr.new N C with numRows := ru }, y.mem⟩ i = y.mem.offs.data i := by intro i; simp [CM.o, CHdr.new]
  have olow : ∀ i, i ≤ rl → y.mem.offs.data i = m.offs.data i := by
    intro i hi
    by_cases e : i = rl
    · subst e; exact k1
    · exact k7 i (by omega)
  have yn : y.h.numRows = ru - rl := by rw [ey]
  have amono : ∀ i j, i ≤ j → j ≤ rl → m.offs.data i ≤ m.offs.data j := by
    intro i j h1 h2
    have := is.wf.mono' (r := i) (r' := j) h1 h2
    rwa [hoA, hoA] at this
  have aS := is.wf.sorted; have aB := is.wf.bound; have aE := is.entry; have aR := is.rest
  simp only [hoA] at aS aB aE aR
  have yS := isY.wf.sorted; have yB := isY.wf.bound; have yE := isY.entry; have yR := isY.rest; have yM := isY.wf.mono
  simp only [hoY] at yS yB yE yR yM
  have isZ : CM.Is zero ⟨{ CHdr.new N C with numRows := ru }, y.mem⟩
      ⟨ru, C, fun r c => if r < rl then a.cell r c else f (r - rl) c⟩ := by
    -- positions of row `r`
    have low : ∀ r, r < rl → y.mem.offs.data r = m.offs.data r ∧ y.mem.offs.data (r + 1) = m.offs.data (r + 1) ∧
        ∀ p, p < m.offs.data (r + 1) → y.mem.vals.data p = m.vals.data p ∧ y.mem.cols.data p = m.cols.data p := by
      intro r hr
      refine ⟨olow r (by omega), olow (r + 1) (by omega), fun p hp => ?_⟩
      have := amono (r + 1) rl (by omega) (by omega)
      exact ⟨k5 p (by omega), k6 p (by omega)⟩
    have high : ∀ r, rl ≤ r → y.mem.offs.data r = y.mem.offs.data (rl + (r - rl)) ∧
        y.mem.offs.data (r + 1) = y.mem.offs.data (rl + (r - rl + 1)) := by
      intro r hr
      constructor <;> congr 1 <;> omega
    refine ⟨⟨?_, ?_, ?_, ?_, ?_, ?_⟩, rfl, rfl, ?_, ?_⟩
    · simp only [CHdr.new]; omega
    · intro r hr'
      simp only at hr'
      rw [hoZ, hoZ]
      by_cases h1 : r < rl
      · obtain ⟨e1, e2, _⟩ := low r h1
        rw [e1, e2]; exact amono r (r + 1) (by omega) (by omega)
      · obtain ⟨e1, e2⟩ := high r (by omega)
        rw [e1, e2]; exact yM (r - rl) (by omega)
    · rw [hoZ]; simp only
      have := isY.wf.topV
      rw [hoY, yn, show rl + (ru - rl) = ru by omega] at this
      exact this
    · rw [hoZ]; simp only
      have := isY.wf.topC
      rw [hoY, yn, show rl + (ru - rl) = ru by omega] at this
      exact this
    · intro r p q hr' h1 h2 h3
      simp only at hr'
      rw [hoZ] at h1 h3
      simp only
      by_cases h4 : r < rl
      · obtain ⟨e1, e2, e3⟩ := low r h4
        rw [e1] at h1; rw [e2] at h3
        rw [(e3 p (by omega)).2, (e3 q (by omega)).2]; exact aS r p q h4 h1 h2 h3
      · obtain ⟨e1, e2⟩ := high r (by omega)
        rw [e1] at h1; rw [e2] at h3
        exact yS (r - rl) p q (by omega) h1 h2 h3
    · intro r p hr' h1 h3
      simp only at hr'
      rw [hoZ] at h1 h3
      simp only [CHdr.new]
      by_cases h4 : r < rl
      · obtain ⟨e1, e2, e3⟩ := low r h4
        rw [e1] at h1; rw [e2] at h3
        rw [(e3 p (by omega)).2]; exact aB r p h4 h1 h3
      · obtain ⟨e1, e2⟩ := high r (by omega)
        rw [e1] at h1; rw [e2] at h3
        have := yB (r - rl) p (by omega) h1 h3
        rw [ey] at this; exact this
    · intro r p hr' h1 h3
      simp only at hr'
      rw [hoZ] at h1 h3
      simp only
      by_cases h4 : r < rl
      · obtain ⟨e1, e2, e3⟩ := low r h4
        rw [e1] at h1; rw [e2] at h3
        rw [if_pos h4, (e3 p (by omega)).2, (e3 p (by omega)).1]; exact aE r p (by omega) h1 h3
      · obtain ⟨e1, e2⟩ := high r (by omega)
        rw [e1] at h1; rw [e2] at h3
        rw [if_neg h4]; exact yE (r - rl) p (by omega) h1 h3
    · intro r c hr' hc hno
      simp only [hoZ] at hr' hc hno ⊢
      by_cases h4 : r < rl
      · obtain ⟨e1, e2, e3⟩ := low r h4
        rw [if_pos h4]
        refine aR r c (by omega) (by omega) fun p h1 h2 h3 => hno p (by omega) (by omega) (by rw [(e3 p h2).2]; exact h3)
      · obtain ⟨e1, e2⟩ := high r (by omega)
        rw [if_neg h4]
        exact yR (r - rl) c (by omega) hc fun p h1 h2 h3 => hno p (by omega) (by omega) h3
  refine Res.ok_iff.2 ⟨isZ.wf, fun r c hr' hc => ?_, fun r c v hm => ?_, fun r c hr' hc hno => ?_⟩
  · have := isZ.get (r := r) (c := c) (by simp only; omega) hc
    simp only at this ⊢
    rw [this, if_pos hr']
  · have hb := hin _ hm
    simp only at hb
    have := isZ.get (r := rl + r) (c := c) (by simp only; omega) hb.2
    simp only at this ⊢
    rw [this, if_neg (by omega), Nat.add_sub_cancel_left, cells.1 r c v hm]
  · have := isZ.get (r := rl + r) (c := c) (by simp only; omega) hc
    simp only at this ⊢
    rw [this, if_neg (by omega), Nat.add_sub_cancel_left, cells.2 r c hno]

/-- Non-trivial instance of C13: skipped rows and an explicit zero. -/
example : Res.Ok (buildByAppend 0 (CM.create 4 3 2 (fun _ => (9 : Int)) (fun _ => 9) (fun _ => 9)) [(0, 2, 5), (1, 0, 0), (3, 1, 7)]) (fun y =>
    y.h.get 0 y.mem 0 2 = .ok 5 ∧ y.h.get 0 y.mem 3 1 = .ok 7 ∧ y.h.get 0 y.mem 2 2 = .ok 0) := by
  refine (C13_append_in_order (0 : Int) 4 3 2 _ _ _ (by omega) _ (by simp) (by simp [Before]) (by decide)).mono ?_
  rintro y ⟨_, h1, h2⟩
  exact ⟨h1 _ _ _ (by simp), h1 _ _ _ (by simp), h2 2 2 (by omega) (by omega) (by simp)⟩

/-- **C43 (refuted).** Appending to a matrix with no rows: `prepareAppend` writes two row offsets, but only one is allocated. -/
theorem C43_append_zero_rows_undefined (C cap : Nat) (jv : Nat → α) (jc jo : Nat → Nat) [DecidableEq α] (zero : α) :
    Res.IsUB (buildByAppend zero (CM.create 0 C cap jv jc jo) []) := by
  exact ⟨_, rfl⟩

/-- **C44 (refuted).** A nested view: rows `[1, 3)` of a 3×1 matrix, and rows `[0, 1)` of that view. It counts as having no rows
before it, so `prepareAppend` resets its start offset to 0; what is then appended replaces the entry of row 0. -/
theorem C44_append_through_nested_view_corrupts :
    ∃ (m : CMem Nat) (v w : CHdr) (y : CM Nat),
      (CHdr.new 3 1).get 0 m 0 0 = .ok 5 ∧ (CHdr.new 3 1).sliceRow 1 3 = .ok v ∧ v.sliceRow 0 1 = .ok w ∧
      buildByAppend 0 ⟨w, m⟩ [(0, 0, 7)] = .ok y ∧
      -- row 0 of the whole matrix (outside the view) has changed
      (CHdr.new 3 1).get 0 y.mem 0 0 = .ok 0 := by
  refine ⟨⟨⟨3, fun _ => 5⟩, ⟨3, fun _ => 0⟩, ⟨4, fun i => if i = 0 then 0 else 1⟩⟩, _, _, _, rfl, rfl, rfl, rfl, rfl⟩

end Verif.Csr
