/-
  C82: column-wise aggregation of sparse matrices.
-/
import Verif.Agg.Cols

namespace Verif.Agg
open Verif Verif.Dense Verif.Csr
variable {α ρ : Type}

/-- The stored values of column `c` among the entries `[q, q + n)`, in the order of the entries. -/
def colVals (x : CM α) (c q n : Nat) : List α :=
  ((List.range' q n).filter fun p => decide (x.mem.cols.data p = c)).map x.mem.vals.data

theorem colVals_succ (x : CM α) (c q n : Nat) :
    colVals x c q (n + 1) = colVals x c q n ++ if x.mem.cols.data (q + n) = c then [x.mem.vals.data (q + n)] else [] := by
  unfold colVals
  rw [List.range'_concat, Nat.one_mul, List.filter_append, List.map_append]
  by_cases h : x.mem.cols.data (q + n) = c <;> simp [h]

theorem colVals_add (x : CM α) (c q n m : Nat) : colVals x c q (n + m) = colVals x c q n ++ colVals x c (q + n) m := by
  induction m with
  | zero => simp [colVals]
  | succ m ih => rw [← Nat.add_assoc, colVals_succ, ih, colVals_succ, List.append_assoc, Nat.add_assoc]

/-- A row stores at most one value for a column, and the cell is that value, or zero. -/
theorem colVals_row {zero : α} {x : CM α} {a : Mat α} (h : x.Is zero a) {r c : Nat} (hr : r < a.rows) (hc : c < a.cols) :
    (colVals x c (x.o r) (x.o (r + 1) - x.o r) = [] ∧ a.cell r c = zero) ∨
      colVals x c (x.o r) (x.o (r + 1) - x.o r) = [a.cell r c] := by
  have e1 := h.rows
  have hm := h.wf.mono r (by omega)
  by_cases hex : ∃ p, x.o r ≤ p ∧ p < x.o (r + 1) ∧ x.mem.cols.data p = c
  · right
    obtain ⟨p, h1, h2, h3⟩ := hex
    have hf : ((List.range' (x.o r) (x.o (r + 1) - x.o r)).filter fun p => decide (x.mem.cols.data p = c)) = [p] := by
      rw [← List.perm_singleton, List.perm_ext_iff_of_nodup ((List.nodup_range').filter _) (List.nodup_singleton _)]
      intro q
      simp only [List.mem_filter, List.mem_range'_1, decide_eq_true_eq, List.mem_singleton]
      constructor
      · rintro ⟨⟨q1, q2⟩, q3⟩
        rcases Nat.lt_trichotomy p q with hlt | heq | hlt
        · have := h.wf.sorted r p q (by omega) h1 hlt (by omega); omega
        · exact heq.symm
        · have := h.wf.sorted r q p (by omega) q1 hlt h2; omega
      · rintro rfl
        exact ⟨⟨h1, by omega⟩, h3⟩
    unfold colVals
    rw [hf, List.map_cons, List.map_nil, ← h3, h.entry r p hr h1 h2]
  · left
    refine ⟨?_, h.rest r c hr hc fun p h1 h2 h3 => hex ⟨p, h1, h2, h3⟩⟩
    unfold colVals
    rw [List.map_eq_nil_iff, List.filter_eq_nil_iff]
    intro q hq
    simp only [List.mem_range'_1] at hq
    simp only [decide_eq_true_eq]
    exact fun h3 => hex ⟨q, hq.1, by omega, h3⟩

/-- A stretch of a column: the stored values and zeros. -/
theorem colVals_perm {zero : α} {x : CM α} {a : Mat α} (h : x.Is zero a) {c : Nat} (hc : c < a.cols) (s : Nat) : ∀ k, s + k ≤ a.rows →
    (colVals x c (x.o s) (x.o (s + k) - x.o s)).length ≤ k ∧
    ((List.range' s k).map fun r => a.cell r c).Perm (colVals x c (x.o s) (x.o (s + k) - x.o s) ++
      List.replicate (k - (colVals x c (x.o s) (x.o (s + k) - x.o s)).length) zero)
  | 0, _ => by simp [colVals]
  | k + 1, hk => by
    have e1 := h.rows
    obtain ⟨ihl, ih⟩ := colVals_perm h hc s k (by omega)
    have m1 := h.wf.mono' (r := s) (r' := s + k) (by omega) (by omega)
    have m2 := h.wf.mono (s + k) (by omega)
    have en : x.o (s + (k + 1)) - x.o s = (x.o (s + k) - x.o s) + (x.o (s + k + 1) - x.o (s + k)) := by
      rw [← Nat.add_assoc]; omega
    have eo : x.o s + (x.o (s + k) - x.o s) = x.o (s + k) := by omega
    rw [en, colVals_add, eo, List.range'_concat, Nat.one_mul, List.map_append, List.map_cons, List.map_nil]
    rcases colVals_row h (r := s + k) (by omega) hc with ⟨h1, h2⟩ | h1
    · rw [h1, List.append_nil, h2]
      refine ⟨by omega, (ih.append_right _).trans ?_⟩
      rw [Nat.succ_sub ihl, List.replicate_succ', List.append_assoc]
    · rw [h1, List.length_append, List.length_singleton]
      refine ⟨by omega, (ih.append_right _).trans ?_⟩
      rw [Nat.add_sub_add_right]
      classical
      rw [List.perm_iff_count]
      intro w
      simp only [List.count_append]
      omega

/-- A loop over stored entries that updates the cell of the entry's column and (if `cnt`) counts the entries per column. -/
theorem scatterLoop {x : CM α} {C : Nat} (g : Nat → ρ → α → ρ) (cnt : Bool) (p lo hi H : Nat) (st0 : Buf ρ × Buf Nat)
    (hle : lo ≤ hi) (hs : st0.1.size = C) (hh : st0.2.size = H) (hH : cnt = true → H = C)
    (body : Nat → Buf ρ × Buf Nat → Res (Buf ρ × Buf Nat))
    (hb : ∀ i (st : Buf ρ × Buf Nat), lo ≤ i → i < hi → st.1.size = C → st.2.size = H → body i st = .ok
      (st.1.put (x.mem.cols.data (p + i)) (g (x.mem.cols.data (p + i)) (st.1.data (x.mem.cols.data (p + i))) (x.mem.vals.data (p + i))),
        if cnt then st.2.put (x.mem.cols.data (p + i)) (st.2.data (x.mem.cols.data (p + i)) + 1) else st.2)) :
    Res.Ok (forLoop lo hi st0 body) (fun st => st.1.size = C ∧ st.2.size = H ∧ ∀ c,
      st.1.data c = (colVals x c (p + lo) (hi - lo)).foldl (g c) (st0.1.data c) ∧
      (cnt = true → st.2.data c = st0.2.data c + (colVals x c (p + lo) (hi - lo)).length)) := by
  refine forLoop_post (fun i st => st.1.size = C ∧ st.2.size = H ∧ ∀ c,
      st.1.data c = (colVals x c (p + lo) (i - lo)).foldl (g c) (st0.1.data c) ∧
      (cnt = true → st.2.data c = st0.2.data c + (colVals x c (p + lo) (i - lo)).length)) lo hi st0 hle
    ⟨hs, hh, fun c => by simp [colVals]⟩ ?_ (fun st h => h)
  rintro i st h1 h2 ⟨g1, g2, g3⟩
  refine ⟨_, hb i st h1 h2 g1 g2, g1, ?_, ?_⟩
  · cases cnt
    · exact g2
    · exact g2
  · intro c
    have e : i + 1 - lo = (i - lo) + 1 := by omega
    have e' : p + lo + (i - lo) = p + i := by omega
    rw [e, colVals_succ, e']
    obtain ⟨a1, a2⟩ := g3 c
    by_cases hc : x.mem.cols.data (p + i) = c
    · subst hc
      simp only [Buf.put_data, if_true, List.foldl_append, List.foldl_cons, List.foldl_nil, List.length_append, List.length_singleton]
      refine ⟨by rw [a1], fun hcnt => ?_⟩
      subst hcnt
      simp only [if_true, Buf.put_data]
      rw [a2 rfl, Nat.add_assoc]
    · have hc' : ¬ c = x.mem.cols.data (p + i) := fun h => hc h.symm
      simp only [if_neg hc, List.append_nil, Buf.put_data, if_neg hc']
      refine ⟨a1, fun hcnt => ?_⟩
      subst hcnt
      simp only [if_true, Buf.put_data, if_neg hc']
      exact a2 rfl

theorem CM.WF.entryAt {x : CM α} (w : x.WF) {i : Nat} (h : x.o 0 + i < x.o x.h.numRows) :
    x.mem.cols.data (x.o 0 + i) < x.h.numCols ∧ x.o 0 + i < x.mem.cols.size ∧ x.o 0 + i < x.mem.vals.size := by
  have h1 := w.topC; have h2 := w.topV
  refine ⟨?_, by omega, by omega⟩
  obtain ⟨r, hr, ha, hb⟩ := w.findRow (j := x.o 0 + i) (by omega) _ (Nat.le_refl _) h
  exact w.bound r _ hr ha hb

theorem scatter_ok {A : VT ρ} {cast : α → ρ} {o : BinOp} {cnt : Bool} {x : CM α} (w : x.WF) {lo hi H : Nat} {st0 : Buf ρ × Buf Nat}
    (hle : lo ≤ hi) (hhi : hi ≤ x.o x.h.numRows - x.o 0) (hs : st0.1.size = x.h.numCols) (hh : st0.2.size = H)
    (hH : cnt = true → H = x.h.numCols) :
    Res.Ok (scatter A cast o cnt x (x.o 0) lo hi st0) (fun st => st.1.size = x.h.numCols ∧ st.2.size = H ∧ ∀ c,
      st.1.data c = (colVals x c (x.o 0 + lo) (hi - lo)).foldl (fun s v => A.ap o s (cast v)) (st0.1.data c) ∧
      (cnt = true → st.2.data c = st0.2.data c + (colVals x c (x.o 0 + lo) (hi - lo)).length)) := by
  unfold scatter
  refine scatterLoop (fun _ s v => A.ap o s (cast v)) cnt _ lo hi H st0 hle hs hh hH _ ?_
  intro i st h1 h2 g1 g2
  obtain ⟨b1, b2, b3⟩ := CM.WF.entryAt w (i := i) (by omega)
  rw [Buf.read_eq b2]
  simp only [Res.ok_bind]
  rw [Buf.read_eq (by omega), Buf.read_eq b3]
  simp only [Res.ok_bind]
  rw [Buf.write_eq (by omega)]
  simp only [Res.ok_bind]
  cases cnt with
  | false => rfl
  | true =>
    have := hH rfl
    simp only [if_true]
    rw [Buf.read_eq (by omega)]
    simp only [Res.ok_bind]
    rw [Buf.write_eq (by omega)]
    rfl

theorem scatterFirst_ok {cast : α → ρ} {x : CM α} (w : x.WF) {n : Nat} {st0 : Buf ρ × Buf Nat}
    (hn : n ≤ x.o x.h.numRows - x.o 0) (hs : st0.1.size = x.h.numCols) (hh : st0.2.size = x.h.numCols) :
    Res.Ok (scatterFirst cast x (x.o 0) n st0) (fun st => st.1.size = x.h.numCols ∧ st.2.size = x.h.numCols ∧ ∀ c,
      st.1.data c = (colVals x c (x.o 0) n).foldl (fun _ v => cast v) (st0.1.data c) ∧
      st.2.data c = st0.2.data c + (colVals x c (x.o 0) n).length) := by
  unfold scatterFirst
  refine (scatterLoop (x := x) (fun _ _ v => cast v) true (x.o 0) 0 n _ st0 (Nat.zero_le _) hs hh (fun _ => rfl) _ ?_).mono ?_
  · intro i st h1 h2 g1 g2
    obtain ⟨b1, b2, b3⟩ := CM.WF.entryAt w (i := i) (by omega)
    rw [Buf.read_eq b2, Buf.read_eq b3]
    simp only [Res.ok_bind]
    rw [Buf.write_eq (by omega), Buf.read_eq (by omega)]
    simp only [Res.ok_bind]
    rw [Buf.write_eq (by omega)]
    rfl
  · rintro st ⟨k1, k2, k3⟩
    refine ⟨k1, k2, fun c => ?_⟩
    have := k3 c
    simpa using this

theorem squaresColsSparse_ok {A : VT ρ} {cast : α → ρ} {x : CM α} (w : x.WF) {n : Nat} {m : Buf ρ} {st0 : Buf ρ × Buf Nat}
    (hn : n ≤ x.o x.h.numRows - x.o 0) (hm : m.size = x.h.numCols) (hs : st0.1.size = x.h.numCols) (hh : st0.2.size = x.h.numCols) :
    Res.Ok (squaresColsSparse A cast x (x.o 0) n m st0) (fun st => st.1.size = x.h.numCols ∧ st.2.size = x.h.numCols ∧ ∀ c,
      st.1.data c = (colVals x c (x.o 0) n).foldl
        (fun s v => A.ap .add s (A.ap .mul (A.sub (cast v) (m.data c)) (A.sub (cast v) (m.data c)))) (st0.1.data c) ∧
      st.2.data c = st0.2.data c + (colVals x c (x.o 0) n).length) := by
  unfold squaresColsSparse
  refine (scatterLoop (x := x) (fun c s v => A.ap .add s (A.ap .mul (A.sub (cast v) (m.data c)) (A.sub (cast v) (m.data c)))) true
    (x.o 0) 0 n _ st0 (Nat.zero_le _) hs hh (fun _ => rfl) _ ?_).mono ?_
  · intro i st h1 h2 g1 g2
    obtain ⟨b1, b2, b3⟩ := CM.WF.entryAt w (i := i) (by omega)
    rw [Buf.read_eq b2, Buf.read_eq b3]
    simp only [Res.ok_bind]
    rw [Buf.read_eq (by omega), Buf.read_eq (by omega)]
    simp only [Res.ok_bind]
    rw [Buf.write_eq (by omega), Buf.read_eq (by omega)]
    simp only [Res.ok_bind]
    rw [Buf.write_eq (by omega)]
    rfl
  · rintro st ⟨k1, k2, k3⟩
    refine ⟨k1, k2, fun c => ?_⟩
    have := k3 c
    simpa using this

/-- Updating some of the elements of a buffer. -/
theorem loop_some {β : Type} {n : Nat} {m0 : Buf β} (F : Nat → β) (body : Nat → Buf β → Res (Buf β))
    (hb : ∀ c (m : Buf β), c < n → m.size = m0.size → m.data c = m0.data c → Res.Ok (body c m) (fun m' => m'.size = m.size ∧
      m'.data c = F c ∧ ∀ p, p ≠ c → m'.data p = m.data p)) :
    Res.Ok (forLoop 0 n m0 body) (fun m => m.size = m0.size ∧ ∀ c, c < n → m.data c = F c) := by
  refine forLoop_post (fun i m => m.size = m0.size ∧ (∀ c, c < i → m.data c = F c) ∧ ∀ p, i ≤ p → m.data p = m0.data p) 0 n m0
    (Nat.zero_le _) ⟨rfl, fun c hc => by omega, fun p _ => rfl⟩ ?_ (fun m h => ⟨h.1, h.2.1⟩)
  rintro i m _ hi ⟨h1, h2, h3⟩
  refine (hb i m hi h1 (h3 i (Nat.le_refl _))).mono ?_
  rintro m' ⟨k1, k2, k3⟩
  refine ⟨by omega, ?_, ?_⟩
  · intro c hc
    by_cases e : c = i
    · subst e; exact k2
    · rw [k3 c e]; exact h2 c (by omega)
  · intro p hp
    rw [k3 p (by omega)]; exact h3 p (by omega)

theorem zeroCols_ok {A : VT ρ} {o : BinOp} {R C : Nat} {hist : Buf Nat} {m0 : Buf ρ} (hh : hist.size = C) (hs : m0.size = C) :
    Res.Ok (zeroCols A o R C hist m0) (fun m => m.size = C ∧ ∀ c, c < C → m.data c =
      if hist.data c < R then A.ap o (m0.data c) A.zero else m0.data c) := by
  unfold zeroCols
  refine (loop_some (fun c => if hist.data c < R then A.ap o (m0.data c) A.zero else m0.data c) _ ?_).mono ?_
  · intro c m hc hm hd
    rw [Buf.read_eq (by omega)]
    simp only [Res.ok_bind]
    by_cases hl : hist.data c < R
    · rw [if_pos hl, Buf.read_eq (by omega)]
      simp only [Res.ok_bind]
      rw [Buf.write_eq (by omega)]
      refine ⟨_, rfl, rfl, ?_, ?_⟩
      · rw [Buf.put_data, if_pos rfl, if_pos hl, hd]
      · intro p hp
        rw [Buf.put_data, if_neg hp]
    · rw [if_neg hl]
      exact ⟨_, rfl, rfl, by rw [if_neg hl, hd], fun _ _ => rfl⟩
  · rintro m ⟨h1, h2⟩
    exact ⟨by omega, h2⟩

/-- The reduction of the columns. -/
theorem reduceColsSparse_ok {A : VT ρ} {cast : α → ρ} {zero : α} (hz : cast zero = A.zero) {o : BinOp} {e : ρ}
    (hm : CMon (A.ap o) e) (h0 : A.ap o A.zero A.zero = A.zero) (safe : Bool) (hsafe : safe = true → o = .add ∧ e = A.zero)
    {x : CM α} {a : Mat α} (hx : x.Is zero a) (hr : safe = false → 0 < a.rows) :
    Res.Ok (reduceColsSparse A cast o safe x (x.o 0) (x.o x.h.numRows - x.o 0) ⟨x.h.numCols, fun _ => A.zero⟩) (fun m =>
      m.size = x.h.numCols ∧ ∀ c, c < x.h.numCols → m.data c = fold A o e ((a.colList c).map cast)) := by
  have e1 := hx.rows; have e2 := hx.cols
  have foldlEq : ∀ (l : List α) (s : ρ), l.foldl (fun s v => A.ap o s (cast v)) s = A.ap o s (fold A o e (l.map cast)) := by
    intro l s
    rw [← List.foldl_map (f := cast) (g := A.ap o), hm.foldl_eq]; rfl
  unfold reduceColsSparse
  cases safe with
  | true =>
    obtain ⟨rfl, rfl⟩ := hsafe rfl
    simp only [if_true]
    refine (scatter_ok hx.wf (H := 0) (Nat.zero_le _) (Nat.le_refl _) rfl rfl (by simp)).bind ?_
    rintro st ⟨g1, _, g3⟩
    refine ⟨_, rfl, g1, fun c hc => ?_⟩
    rw [(g3 c).1, foldlEq, hm.unit']
    have hp := (colVals_perm hx (c := c) (by omega) 0 a.rows (by omega)).2
    rw [← List.range_eq_range'] at hp
    have hp' := hp.map cast
    rw [List.map_append, List.map_replicate, hz] at hp'
    have := fold_safe hm hp'
    unfold sumOf at this
    rw [Mat.colList, this, Nat.zero_add, e1]; simp
  | false =>
    have hR := hr rfl
    simp only [Bool.false_eq_true, if_false]
    rw [hx.wf.rowNum (r := 0) (by omega)]
    simp only [Res.ok_bind]
    have m1 := hx.wf.mono 0 (by omega)
    have m2 := hx.wf.mono' (r := 0 + 1) (r' := x.h.numRows) (by omega) (Nat.le_refl _)
    refine (scatterFirst_ok hx.wf (by omega) rfl rfl).bind ?_
    rintro st ⟨g1, g2, g3⟩
    have first : ∀ c, c < a.cols → st.1.data c = cast (a.cell 0 c) ∧
        ((st.2.data c = 0 ∧ cast (a.cell 0 c) = A.zero) ∨ st.2.data c = 1) := by
      intro c hc
      obtain ⟨k1, k2⟩ := g3 c
      rcases colVals_row hx hR hc with ⟨h1, h2⟩ | h1
      · rw [h1] at k1 k2
        simp only [List.foldl_nil, List.length_nil] at k1 k2
        rw [k1, k2, h2, hz]
        exact ⟨rfl, .inl ⟨rfl, rfl⟩⟩
      · rw [h1] at k1 k2
        simp only [List.foldl_cons, List.foldl_nil, List.length_singleton] at k1 k2
        rw [k1, k2]
        exact ⟨rfl, .inr rfl⟩
    have split : ∀ c, (a.colList c).map cast = cast (a.cell 0 c) :: ((List.range' 1 (a.rows - 1)).map fun r => a.cell r c).map cast := by
      intro c
      unfold Mat.colList
      rw [range_cons hR]; rfl
    unfold restCols
    by_cases h1 : x.h.numRows > 1
    · rw [if_pos h1]
      refine (scatter_ok hx.wf (cnt := true) (H := x.h.numCols) (by omega) (Nat.le_refl _) g1 g2 (fun _ => rfl)).bind ?_
      rintro st' ⟨k1, k2, k3⟩
      refine (zeroCols_ok k2 k1).mono ?_
      rintro m ⟨q1, q2⟩
      refine ⟨q1, fun c hc => ?_⟩
      obtain ⟨f1, f2⟩ := first c (by omega)
      obtain ⟨s1, s2⟩ := k3 c
      have s2 := s2 rfl
      have eo : x.o 0 + (x.o (0 + 1) - x.o 0) = x.o 1 := by
        show x.o 0 + (x.o 1 - x.o 0) = x.o 1
        have : x.o 0 ≤ x.o 1 := m1
        omega
      have en : x.o x.h.numRows - x.o 0 - (x.o (0 + 1) - x.o 0) = x.o (1 + (a.rows - 1)) - x.o 1 := by
        have : 1 + (a.rows - 1) = x.h.numRows := by omega
        rw [this]
        have : x.o 0 ≤ x.o 1 := m1
        show _ - (x.o 1 - x.o 0) = _
        omega
      rw [eo, en, f1] at s1
      rw [eo, en] at s2
      obtain ⟨pl, pp⟩ := colVals_perm hx (c := c) (by omega) 1 (a.rows - 1) (by omega)
      generalize colVals x c (x.o 1) (x.o (1 + (a.rows - 1)) - x.o 1) = M at *
      have hp' := pp.map cast
      rw [List.map_append, List.map_replicate, hz] at hp'
      rw [q2 c hc, s1, foldlEq, split c]
      show _ = A.ap o (cast (a.cell 0 c)) (fold A o e _)
      rw [fold_zeros hm h0 hp']
      unfold fold
      rw [hm.foldr_append]
      by_cases hk : 0 < a.rows - 1 - M.length
      · rw [if_pos (by rcases f2 with f2 | f2 <;> omega)]
        simp only [hk, decide_true, if_true, List.foldr_cons, List.foldr_nil, hm.unit]
        rw [hm.assoc]
      · simp only [hk, decide_false, Bool.false_eq_true, if_false, List.foldr_nil, hm.unit]
        rcases f2 with ⟨f2, f3⟩ | f2
        · rw [if_pos (by omega), f3, hm.comm _ A.zero, ← hm.assoc, h0]
        · rw [if_neg (by omega)]
    · rw [if_neg h1]
      refine ⟨_, rfl, g1, fun c hc => ?_⟩
      rw [(first c (by omega)).1, split c]
      have : a.rows - 1 = 0 := by omega
      rw [this]
      simp [fold, hm.unit]

theorem finishColsSparse_ok {A : VT ρ} {op : AggOp} {R C : Nat} (hR : 0 < R) {m : Buf ρ} {hist : Buf Nat} {t0 : Buf ρ} (hm : m.size = C)
    (hh : hist.size = C) (hs : t0.size = C) :
    Res.Ok (finishColsSparse A op R C m hist t0) (fun t => t.size = C ∧ ∀ c, c < C → t.data c =
      if op = .stddev then A.sqrt (A.quot (A.ap .add (t0.data c) (A.times (R - hist.data c) (A.ap .mul (m.data c) (m.data c)))) R)
      else A.quot (A.ap .add (t0.data c) (A.times (R - hist.data c) (A.ap .mul (m.data c) (m.data c)))) R) := by
  unfold finishColsSparse
  refine (loop_some (fun c => if op = .stddev then
      A.sqrt (A.quot (A.ap .add (t0.data c) (A.times (R - hist.data c) (A.ap .mul (m.data c) (m.data c)))) R)
      else A.quot (A.ap .add (t0.data c) (A.times (R - hist.data c) (A.ap .mul (m.data c) (m.data c)))) R) _ ?_).mono ?_
  · intro c t hc ht hd
    rw [Buf.read_eq (by omega), Buf.read_eq (by omega), Buf.read_eq (by omega)]
    simp only [Res.ok_bind]
    rw [div_pos hR]
    simp only [Res.ok_bind]
    rw [Buf.write_eq (by omega)]
    refine ⟨_, rfl, rfl, ?_, ?_⟩
    · rw [Buf.put_data, if_pos rfl, hd]
    · intro p hp
      rw [Buf.put_data, if_neg hp]
  · rintro t ⟨h1, h2⟩
    exact ⟨by omega, h2⟩

/-- C82 (sparse): in lawful arithmetic column-wise aggregation of a sparse matrix (also a row-range view) gives, for each column,
the aggregate of all the column's cells, zeros included. At least one row is needed except for the sum. -/
theorem C82_col_sparse (A : VT ρ) (cast : α → ρ) (zero : α) (hz : cast zero = A.zero) (x : CM α) (a : Mat α)
    (hx : x.Is zero a) (op : AggOp) (hA : Lawful A op) (hop : op ≠ .idxmin ∧ op ≠ .idxmax) (hr : op ≠ .sum → 0 < a.rows) :
    Res.Ok (aggColSparse A cast op x) (fun z => ∃ b, z.Is b ∧ b.rows = 1 ∧ b.cols = a.cols ∧
      ∀ c, c < a.cols → aggOf A op ((a.colList c).map cast) = .ok (b.cell 0 c)) := by
  have e1 := hx.rows; have e2 := hx.cols
  have hlen : ∀ c, ((a.colList c).map cast).length = a.rows := fun c => by simp [Mat.colList]
  have hptr : x.h.rowPtr x.mem 0 = .ok (x.o 0) := hx.wf.rowPtr (Nat.zero_le _)
  have hcr : (DM.createZero 1 x.h.numCols A.zero).mem = ⟨x.h.numCols, fun _ => A.zero⟩ := by
    simp [DM.createZero]
  have pureCase : ∀ (safe : Bool) (o : BinOp) (e : ρ), CMon (A.ap o) e → A.ap o A.zero A.zero = A.zero →
      (safe = true → o = .add ∧ e = A.zero) → (safe = false → 0 < a.rows) → (∀ l, aggOf A op l = .ok (fold A o e l)) → Res.Ok (do
      let m ← reduceColsSparse A cast o safe x (x.o 0) (x.o x.h.numRows - x.o 0) ⟨x.h.numCols, fun _ => A.zero⟩
      (.ok ⟨(DM.createZero 1 x.h.numCols A.zero).h, m⟩ : Res (DM ρ))) (fun z => ∃ b, z.Is b ∧ b.rows = 1 ∧ b.cols = a.cols ∧
      ∀ c, c < a.cols → aggOf A op ((a.colList c).map cast) = .ok (b.cell 0 c)) := by
    intro safe o e hm h0 hs hr' hag
    refine (reduceColsSparse_ok hz hm h0 safe hs hx hr').bind ?_
    rintro m ⟨h1, h2⟩
    refine ⟨_, rfl, _, rowvec_is h1, rfl, e2, ?_⟩
    intro c hc
    show _ = Except.ok (m.data c)
    rw [hag, h2 c (by omega)]
  have statCase : op = .mean ∨ op = .var ∨ op = .stddev → Res.Ok (do
      let m ← reduceColsSparse A cast .add false x (x.o 0) (x.o x.h.numRows - x.o 0) ⟨x.h.numCols, fun _ => A.zero⟩
      let m ← divCols A x.h.numRows x.h.numCols m
      if op = .mean then (.ok ⟨(DM.createZero 1 x.h.numCols A.zero).h, m⟩ : Res (DM ρ))
      else do
        let st ← squaresColsSparse A cast x (x.o 0) (x.o x.h.numRows - x.o 0) m
          (⟨x.h.numCols, fun _ => A.zero⟩, ⟨x.h.numCols, fun _ => 0⟩)
        let t ← finishColsSparse A op x.h.numRows x.h.numCols m st.2 st.1
        let m ← t.copy 0 m 0 x.h.numCols
        .ok ⟨(DM.createZero 1 x.h.numCols A.zero).h, m⟩) (fun z => ∃ b, z.Is b ∧ b.rows = 1 ∧ b.cols = a.cols ∧
      ∀ c, c < a.cols → aggOf A op ((a.colList c).map cast) = .ok (b.cell 0 c)) := by
    intro ho
    have hadd : CMon (A.ap .add) A.zero := by rcases ho with rfl | rfl | rfl <;> exact hA.mon
    have hR : 0 < a.rows := hr (by rcases ho with rfl | rfl | rfl <;> simp)
    refine (reduceColsSparse_ok hz hadd (hadd.unit _) false (by simp) hx (fun _ => hR)).bind ?_
    rintro m ⟨h1, h2⟩
    refine (divCols_ok (A := A) (R := x.h.numRows) (by omega) h1).bind ?_
    rintro m' ⟨z2, z3⟩
    have hmean : ∀ c, c < a.cols → meanOf A ((a.colList c).map cast) = .ok (m'.data c) := by
      intro c hc
      unfold meanOf
      rw [hlen, div_pos hR, z3 c (by omega), h2 c (by omega), e1]; rfl
    by_cases hmn : op = .mean
    · rw [if_pos hmn]
      refine ⟨_, rfl, _, rowvec_is z2, rfl, e2, ?_⟩
      subst hmn
      exact hmean
    · rw [if_neg hmn]
      refine (squaresColsSparse_ok (A := A) (cast := cast) hx.wf (Nat.le_refl _) z2 rfl rfl).bind ?_
      rintro st ⟨t1, t2, t3⟩
      refine (finishColsSparse_ok (A := A) (op := op) (R := x.h.numRows) (by omega) z2 t2 t1).bind ?_
      rintro t' ⟨t4, t5⟩
      refine (copyAll_ok t4 z2).bind ?_
      rintro w ⟨w1, w2⟩
      refine ⟨_, rfl, _, rowvec_is w1, rfl, e2, ?_⟩
      intro c hc
      show _ = Except.ok (w.data c)
      obtain ⟨pl, pp⟩ := colVals_perm hx (c := c) (by omega) 0 a.rows (by omega)
      rw [← List.range_eq_range'] at pp
      obtain ⟨s1, s2⟩ := t3 c
      have er : x.o (0 + a.rows) = x.o x.h.numRows := by rw [e1, Nat.zero_add]
      rw [er] at pl pp
      generalize colVals x c (x.o 0) (x.o x.h.numRows - x.o 0) = M at *
      have hsum : A.ap .add (st.1.data c) (A.times (x.h.numRows - st.2.data c) (A.ap .mul (m'.data c) (m'.data c))) =
          sumOf A (((a.colList c).map cast).map fun y => A.ap .mul (A.sub y (m'.data c)) (A.sub y (m'.data c))) := by
        have hp' := (pp.map cast).map fun y => A.ap .mul (A.sub y (m'.data c)) (A.sub y (m'.data c))
        rw [List.map_append, List.map_append, List.map_replicate, List.map_replicate, hz] at hp'
        have hf : st.1.data c = sumOf A ((M.map cast).map fun y => A.ap .mul (A.sub y (m'.data c)) (A.sub y (m'.data c))) := by
          rw [s1, foldl_add_map hadd (fun v => A.ap .mul (A.sub (cast v) (m'.data c)) (A.sub (cast v) (m'.data c))), List.map_map]
          exact hadd.unit' _
        rw [hA.times' (ho.resolve_left hmn), hf, s2, e1]
        simp only [Nat.zero_add]
        unfold sumOf fold
        rw [Mat.colList, hadd.foldr_perm hp', hadd.foldr_append]
      have hvar : varOf A ((a.colList c).map cast) = .ok (A.quot
          (A.ap .add (st.1.data c) (A.times (x.h.numRows - st.2.data c) (A.ap .mul (m'.data c) (m'.data c)))) x.h.numRows) := by
        unfold varOf
        rw [hmean c hc]
        simp only [Res.ok_bind]
        rw [hlen, div_pos hR, hsum, e1]
      rw [w2 c (by omega), t5 c (by omega)]
      rcases ho with rfl | rfl | rfl
      · exact absurd rfl hmn
      · rw [if_neg (by simp)]; exact hvar
      · rw [if_pos rfl]
        simp only [aggOf, hvar, Res.ok_bind]
  unfold aggColSparse
  cases op with
  | sum =>
    simp only [funcOp, isPure, binaryOp, sparseSafe, hptr, numNonZeros_eq hx.wf, hcr, Res.ok_bind, Bool.not_true, Bool.false_eq_true,
      if_false, if_true]
    exact pureCase true _ _ (show CMon (A.ap .add) A.zero from hA.mon) ((show CMon (A.ap .add) A.zero from hA.mon).unit _) (fun _ => ⟨rfl, rfl⟩) (by simp) fun _ => rfl
  | prod =>
    simp only [funcOp, isPure, binaryOp, sparseSafe, hptr, numNonZeros_eq hx.wf, hcr, Res.ok_bind, Bool.not_true, Bool.false_eq_true,
      if_false, if_true]
    exact pureCase false _ _ (show CMon (A.ap .mul) A.one from hA.mon) hA.zeros (by simp) (fun _ => hr (by simp)) fun _ => rfl
  | min =>
    simp only [funcOp, isPure, binaryOp, sparseSafe, hptr, numNonZeros_eq hx.wf, hcr, Res.ok_bind, Bool.not_true, Bool.false_eq_true,
      if_false, if_true]
    exact pureCase false _ _ (show CMon (A.ap .min) A.top from hA.mon) hA.zeros (by simp) (fun _ => hr (by simp)) fun _ => rfl
  | max =>
    simp only [funcOp, isPure, binaryOp, sparseSafe, hptr, numNonZeros_eq hx.wf, hcr, Res.ok_bind, Bool.not_true, Bool.false_eq_true,
      if_false, if_true]
    exact pureCase false _ _ (show CMon (A.ap .max) A.bot from hA.mon) hA.zeros (by simp) (fun _ => hr (by simp)) fun _ => rfl
  | idxmin => exact absurd rfl hop.1
  | idxmax => exact absurd rfl hop.2
  | mean =>
    simp only [funcOp, isPure, binaryOp, sparseSafe, hptr, numNonZeros_eq hx.wf, hcr, Res.ok_bind, Bool.not_true, Bool.false_eq_true,
      if_false]
    exact statCase (.inl rfl)
  | stddev =>
    simp only [funcOp, isPure, binaryOp, sparseSafe, hptr, numNonZeros_eq hx.wf, hcr, Res.ok_bind, Bool.not_true, Bool.false_eq_true,
      if_false]
    exact statCase (.inr (.inr rfl))
  | var =>
    simp only [funcOp, isPure, binaryOp, sparseSafe, hptr, numNonZeros_eq hx.wf, hcr, Res.ok_bind, Bool.not_true, Bool.false_eq_true,
      if_false]
    exact statCase (.inr (.inl rfl))

/-- C83: positions of extreme values are not available for sparse matrices: rejected. -/
theorem C83_sparse_rejects_positions (A : VT ρ) (K : Conv α ρ) (cast : α → ρ) (junk : Nat → ρ) (x : CM α) (op : AggOp)
    (hop : op = .idxmin ∨ op = .idxmax) : Res.Throws (aggRowSparse A K junk op x) ∧ Res.Throws (aggColSparse A cast op x) := by
  rcases hop with rfl | rfl <;> exact ⟨⟨_, rfl⟩, ⟨_, rfl⟩⟩

end Verif.Agg
