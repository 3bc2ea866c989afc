/-
  C79, C80: full aggregation of dense and sparse matrices.
-/
import Verif.Agg.Lemmas

namespace Verif.Agg
open Verif Verif.Dense Verif.Csr
variable {α ρ : Type}

/-! ### Dense -/

theorem rowSeg {x : DM α} {a : Mat α} (h : x.Is a) {r : Nat} (hr : r < a.rows) :
    seg x.mem (x.h.start + r * x.h.rowSkip) x.numCols = a.rowList r := by
  have e : x.numCols = a.cols := h.cols
  unfold seg Mat.rowList
  rw [e, h.wf.start]
  refine List.map_congr_left fun c hc => ?_
  exact h.data hr (by simpa using hc)

theorem rowSeg_in {x : DM α} {a : Mat α} (h : x.Is a) {r : Nat} (hr : r < a.rows) :
    x.numCols = 0 ∨ x.h.start + r * x.h.rowSkip + x.numCols ≤ x.mem.size := by
  have e : x.numCols = a.cols := h.cols
  by_cases h0 : a.cols = 0
  · left; omega
  · right
    have := h.inb hr (c := a.cols - 1) (by omega)
    rw [h.wf.start]; omega

/-- The first `k` rows. -/
def topCells (a : Mat α) (k : Nat) : List α := (List.range k).flatMap fun r => a.rowList r

theorem topCells_succ (a : Mat α) (k : Nat) : topCells a (k + 1) = topCells a k ++ a.rowList k := by
  simp [topCells, List.range_succ]

theorem topCells_length (a : Mat α) (k : Nat) : (topCells a k).length = k * a.cols := by
  induction k with
  | zero => simp [topCells]
  | succ k ih => rw [topCells_succ, List.length_append, ih, Nat.succ_mul]; simp [Mat.rowList]

theorem cells_length (a : Mat α) : a.cells.length = a.rows * a.cols := topCells_length a a.rows

theorem contSeg {x : DM α} {a : Mat α} (h : x.Is a) (hc : x.numCols = x.h.rowSkip ∨ x.numRows = 1) : ∀ k, k ≤ a.rows →
    seg x.mem x.h.start (k * x.numCols) = topCells a k
  | 0, _ => by simp [seg, topCells]
  | k + 1, hk => by
    have e : x.numRows = a.rows := h.rows
    rw [Nat.succ_mul, seg_add, contSeg h hc k (by omega), topCells_succ, ← rowSeg h (r := k) (by omega)]
    have : x.h.start + k * x.numCols = x.h.start + k * x.h.rowSkip := by
      rcases hc with hc | hc
      · rw [hc]
      · have : k = 0 := by omega
        subst this; simp
    rw [this]

theorem contSeg_in {x : DM α} {a : Mat α} (h : x.Is a) (hc : x.numCols = x.h.rowSkip ∨ x.numRows = 1) :
    x.numRows * x.numCols = 0 ∨ x.h.start + x.numRows * x.numCols ≤ x.mem.size := by
  have e1 : x.numRows = a.rows := h.rows
  have e2 : x.numCols = a.cols := h.cols
  by_cases h0 : a.rows = 0
  · left; rw [e1, h0]; simp
  · rcases rowSeg_in h (r := a.rows - 1) (by omega) with h1 | h1
    · left; rw [h1]; simp
    · right
      obtain ⟨k, hk⟩ : ∃ k, a.rows = k + 1 := ⟨a.rows - 1, by omega⟩
      rw [hk] at h1
      rw [e1, hk, Nat.succ_mul]
      rcases hc with hc | hc
      · rw [← hc] at h1
        simp only [Nat.add_sub_cancel] at h1; omega
      · have : k = 0 := by omega
        subst this; simpa using h1

theorem reduceDense_ok {A : VT ρ} {K : Conv α ρ} {o : BinOp} {e : ρ} (hK : ExactOn A K o e) {x : DM α} {a : Mat α} (hx : x.Is a) :
    Res.Ok (reduceDense A K o e x) (fun v => ∃ k, Combines (A.ap o) (a.cells.map K.cast ++ List.replicate (k + 1) e) v) := by
  have e1 : x.numRows = a.rows := hx.rows
  unfold reduceDense
  by_cases hc : x.numCols = x.h.rowSkip ∨ x.numRows = 1
  · rw [if_pos hc]
    refine (aggAllArray_ok hK (contSeg_in hx hc)).mono ?_
    rintro v ⟨k, c⟩
    refine ⟨k, ?_⟩
    rw [e1, contSeg hx hc _ (Nat.le_refl _)] at c
    simp only [Bool.false_eq_true, if_false, List.append_nil] at c
    exact c
  · rw [if_neg hc]
    refine forLoop_post (fun r agg => ∃ k, Combines (A.ap o) ((topCells a r).map K.cast ++ List.replicate (k + 1) e) agg)
      0 x.numRows e (Nat.zero_le _) ⟨0, by simpa [topCells] using Combines.one e⟩ ?_ ?_
    · rintro r agg _ hr ⟨k, c⟩
      refine (aggAllArray_ok (A := A) (z := false) (e := e) (o := o) hK (rowSeg_in hx (r := r) (by omega))).bind ?_
      rintro y ⟨k', c'⟩
      refine ⟨_, hK.bin c c' ?_, k + k' + 1, (c.node c').perm ?_⟩
      · intro y hy
        simp only [Bool.false_eq_true, if_false, List.append_nil, List.mem_append] at hy
        rcases hy with (hy | hy) | hy | hy
        · obtain ⟨w, _, rfl⟩ := List.mem_map.1 hy
          exact .inr (.inr ⟨w, rfl⟩)
        · exact .inr (.inl (List.eq_of_mem_replicate hy))
        · obtain ⟨w, _, rfl⟩ := List.mem_map.1 hy
          exact .inr (.inr ⟨w, rfl⟩)
        · exact .inr (.inl (List.eq_of_mem_replicate hy))
      rw [rowSeg hx (by omega), topCells_succ]
      have er : List.replicate (k + k' + 1 + 1) e = List.replicate (k + 1) e ++ List.replicate (k' + 1) e := by
        rw [List.replicate_append_replicate]; congr 1; omega
      rw [er]
      classical
      rw [List.perm_iff_count]
      intro w
      simp only [List.map_append, List.count_append, Bool.false_eq_true, if_false, List.count_nil]
      omega
    · rw [e1]
      exact fun v h => h

theorem reduceDense_eq {A : VT ρ} {K : Conv α ρ} {o : BinOp} {e : ρ} (hK : ExactOn A K o e) (hm : CMon (A.ap o) e) {x : DM α}
    {a : Mat α} (hx : x.Is a) : reduceDense A K o e x = .ok (fold A o e (a.cells.map K.cast)) := by
  obtain ⟨v, hv, k, c⟩ := reduceDense_ok hK hx
  rw [hv, hm.combines c]
  unfold fold
  rw [hm.foldr_append, hm.foldr_replicate, hm.unit]

theorem forLoop_cells {σ : Type _} {x : DM α} {a : Mat α} (hx : x.Is a) (g : σ → α → σ) (s : σ) :
    (forLoop 0 x.numRows s fun r s => forLoop 0 x.numCols s fun c s => do
      let v ← x.mem.read (x.addr r c)
      .ok (g s v)) = .ok (a.cells.foldl g s) := by
  have e1 : x.numRows = a.rows := hx.rows
  have e2 : x.numCols = a.cols := hx.cols
  rw [forLoop_foldl0 (fun s r => (a.rowList r).foldl g s), e1]
  · unfold Mat.cells
    rw [List.foldl_flatMap]
  · intro r s hr
    rw [forLoop_foldl0 (fun s c => g s (a.cell r c)), e2]
    · rw [Mat.rowList, List.foldl_map]
    · intro c s hc
      rw [hx.read (by omega) (by omega)]; rfl

theorem foldl_add_map {A : VT ρ} (hm : CMon (A.ap .add) A.zero) {β : Type} (q : β → ρ) (l : List β) (s : ρ) :
    l.foldl (fun s v => A.ap .add s (q v)) s = A.ap .add s (sumOf A (l.map q)) := by
  rw [← List.foldl_map (f := q) (g := A.ap .add), hm.foldl_eq]; rfl

theorem squares_eq {A : VT ρ} {K : Conv α ρ} (hm : CMon (A.ap .add) A.zero) (m : ρ) {x : DM α} {a : Mat α} (hx : x.Is a) :
    squares A K m x = .ok (sumOf A ((a.cells.map K.cast).map fun y => A.ap .mul (A.sub y m) (A.sub y m))) := by
  unfold squares
  refine Eq.trans (forLoop_cells hx (fun s v => A.ap .add s (A.ap .mul (A.sub (K.cast v) m) (A.sub (K.cast v) m))) A.zero) ?_
  rw [foldl_add_map hm, hm.unit', List.map_map]; rfl

theorem finishDense_eq {A : VT ρ} {K : Conv α ρ} (hm : CMon (A.ap .add) A.zero) {op : AggOp} (ho : op = .mean ∨ op = .var ∨ op = .stddev)
    {x : DM α} {a : Mat α} (hx : x.Is a) :
    finishDense A K op (sumOf A (a.cells.map K.cast)) x = aggOf A op (a.cells.map K.cast) := by
  have e1 : x.numRows = a.rows := hx.rows
  have e2 : x.numCols = a.cols := hx.cols
  have el : x.numCols * x.numRows = (a.cells.map K.cast).length := by
    rw [List.length_map, cells_length, e1, e2, Nat.mul_comm]
  unfold finishDense
  rw [el]
  show (meanOf A (a.cells.map K.cast) >>= _) = _
  rcases ho with rfl | rfl | rfl
  · simp only [if_true, aggOf]
    cases meanOf A (a.cells.map K.cast) <;> rfl
  · simp only [aggOf, varOf]
    cases meanOf A (a.cells.map K.cast) with
    | error e => rfl
    | ok m =>
      simp only [Res.ok_bind, reduceCtorEq, if_false, if_true, squares_eq hm m hx]
      cases A.div _ (a.cells.map K.cast).length <;> rfl
  · simp only [aggOf, varOf]
    cases meanOf A (a.cells.map K.cast) with
    | error e => rfl
    | ok m =>
      simp only [Res.ok_bind, reduceCtorEq, if_false, squares_eq hm m hx]

/-- C79 (any arithmetic, e.g. floating point): the full sum, product, minimum or maximum of a dense matrix - new or a (strided)
view - combines every cell exactly once, in some order, with the operation's neutral element. -/
theorem C79_all_dense_uses_each_cell_once (A : VT ρ) (K : Conv α ρ) (x : DM α) (a : Mat α) (hx : x.Is a)
    (op : AggOp) (hK : Conv.Exact A K op) (o : BinOp) (e : ρ) (hop : reduction A op = some (o, e)) :
    Res.Ok (aggAllDense A K op x) (fun v => ∃ k, Combines (A.ap o) (a.cells.map K.cast ++ List.replicate k e) v) := by
  have h := reduceDense_ok (A := A) (K := K) (o := o) (e := e) (by have := hK; unfold Conv.Exact summation at this; rw [hop] at this; exact this) hx
  unfold aggAllDense
  cases op <;> simp only [reduction, Option.some.injEq, Prod.mk.injEq, reduceCtorEq] at hop
  all_goals
    obtain ⟨rfl, rfl⟩ := hop
    simp only [startValue, isPure, neutral, switchOp, Res.ok_bind, Bool.not_true, Bool.false_eq_true, if_false, if_true]
    refine h.bind ?_
    rintro v ⟨k, c⟩
    exact ⟨v, rfl, k + 1, c⟩

/-- C79: in lawful arithmetic the full aggregate of a dense matrix is the aggregate of the list of its cells (sum, product,
minimum, maximum, mean, variance, standard deviation), for new matrices and views alike. -/
theorem C79_all_dense (A : VT ρ) (K : Conv α ρ) (x : DM α) (a : Mat α) (hx : x.Is a)
    (op : AggOp) (hA : Lawful A op) (hK : Conv.Exact A K op) (hop : op ≠ .idxmin ∧ op ≠ .idxmax) : aggAllDense A K op x = aggOf A op (a.cells.map K.cast) := by
  unfold aggAllDense
  cases op with
  | sum =>
    simp only [startValue, isPure, neutral, switchOp, Res.ok_bind, Bool.not_true, Bool.false_eq_true, if_false, if_true,
      reduceDense_eq (show ExactOn A K .add A.zero from hK) (show CMon (A.ap .add) A.zero from hA.mon) hx]; rfl
  | prod =>
    simp only [startValue, isPure, neutral, switchOp, Res.ok_bind, Bool.not_true, Bool.false_eq_true, if_false, if_true,
      reduceDense_eq (show ExactOn A K .mul A.one from hK) (show CMon (A.ap .mul) A.one from hA.mon) hx]; rfl
  | min =>
    simp only [startValue, isPure, neutral, switchOp, Res.ok_bind, Bool.not_true, Bool.false_eq_true, if_false, if_true,
      reduceDense_eq (show ExactOn A K .min A.top from hK) (show CMon (A.ap .min) A.top from hA.mon) hx]; rfl
  | max =>
    simp only [startValue, isPure, neutral, switchOp, Res.ok_bind, Bool.not_true, Bool.false_eq_true, if_false, if_true,
      reduceDense_eq (show ExactOn A K .max A.bot from hK) (show CMon (A.ap .max) A.bot from hA.mon) hx]; rfl
  | idxmin => exact absurd rfl hop.1
  | idxmax => exact absurd rfl hop.2
  | mean =>
    simp only [startValue, isPure, switchOp, Res.ok_bind, Bool.false_eq_true, if_false, reduceDense_eq (show ExactOn A K .add A.zero from hK) (show CMon (A.ap .add) A.zero from hA.mon) hx]
    exact finishDense_eq (show CMon (A.ap .add) A.zero from hA.mon) (.inl rfl) hx
  | stddev =>
    simp only [startValue, isPure, switchOp, Res.ok_bind, Bool.false_eq_true, if_false, reduceDense_eq (show ExactOn A K .add A.zero from hK) (show CMon (A.ap .add) A.zero from hA.mon) hx]
    exact finishDense_eq (show CMon (A.ap .add) A.zero from hA.mon) (.inr (.inr rfl)) hx
  | var =>
    simp only [startValue, isPure, switchOp, Res.ok_bind, Bool.false_eq_true, if_false, reduceDense_eq (show ExactOn A K .add A.zero from hK) (show CMon (A.ap .add) A.zero from hA.mon) hx]
    exact finishDense_eq (show CMon (A.ap .add) A.zero from hA.mon) (.inr (.inl rfl)) hx

/-- C79: positions of extreme values are not a full aggregate: rejected. -/
theorem C79_all_rejects_positions (A : VT ρ) (K : Conv α ρ) (x : DM α) (y : CM α) (op : AggOp) (hop : op = .idxmin ∨ op = .idxmax) :
    Res.Throws (aggAllDense A K op x) ∧ Res.Throws (aggAllSparse A K op y) := by
  rcases hop with rfl | rfl <;> exact ⟨⟨_, rfl⟩, ⟨_, rfl⟩⟩

/-! ### Sparse -/

/-- Stored values of row `r`. -/
def stored (x : CM α) (r : Nat) : List α := seg x.mem.vals (x.o r) (x.o (r + 1) - x.o r)

/-- A row consists of its stored values and zeros. -/
theorem row_perm {zero : α} {x : CM α} {a : Mat α} (h : x.Is zero a) {r : Nat} (hr : r < a.rows) :
    (a.rowList r).Perm (stored x r ++ List.replicate (a.cols - (x.o (r + 1) - x.o r)) zero) ∧
      x.o (r + 1) - x.o r ≤ a.cols := by
  have e1 := h.rows; have e2 := h.cols
  have sorted := h.wf.rowCols_sorted (r := r) (by omega)
  have nodup : (x.rowCols r).Nodup := sorted.imp fun h => Nat.ne_of_lt h
  have hsub : ∀ c, c ∈ x.rowCols r → c < a.cols := by
    intro c hc
    obtain ⟨p, h1, h2, h3⟩ := CM.mem_rowCols.1 hc
    have := h.wf.bound r p (by omega) h1 h2
    omega
  have hin : ((List.range a.cols).filter fun c => decide (c ∈ x.rowCols r)).Perm (x.rowCols r) := by
    rw [List.perm_ext_iff_of_nodup (List.nodup_range.filter _) nodup]
    intro c
    simp only [List.mem_filter, List.mem_range, decide_eq_true_eq]
    exact ⟨fun h => h.2, fun h => ⟨hsub c h, h⟩⟩
  have hall := List.filter_append_perm (fun c => decide (c ∈ x.rowCols r)) (List.range a.cols)
  have hlen : (x.rowCols r).length = x.o (r + 1) - x.o r := by simp [CM.rowCols]
  have hl2 := hall.length_eq
  rw [List.length_append, hin.length_eq, hlen, List.length_range] at hl2
  refine ⟨?_, by omega⟩
  have h1 : (a.rowList r).Perm (((x.rowCols r) ++ (List.range a.cols).filter fun c => !decide (c ∈ x.rowCols r)).map fun c => a.cell r c) :=
    (hall.symm.trans (hin.append_right _)).map _
  refine h1.trans (List.Perm.of_eq ?_)
  rw [List.map_append]
  congr 1
  · unfold CM.rowCols stored seg
    rw [List.map_map]
    refine List.map_congr_left fun k hk => ?_
    simp only [List.mem_range] at hk
    exact h.entry r _ hr (by omega) (by omega)
  · rw [List.eq_replicate_iff]
    refine ⟨by rw [List.length_map]; omega, ?_⟩
    intro b hb
    simp only [List.mem_map, List.mem_filter, List.mem_range, Bool.not_eq_true', decide_eq_false_iff_not] at hb
    obtain ⟨c, ⟨hc, hn⟩, rfl⟩ := hb
    exact h.rest r c hr hc fun p h1 h2 h3 => hn (CM.mem_rowCols.2 ⟨p, h1, h2, h3⟩)

/-- All cells are the stored values and zeros. -/
theorem cells_perm {zero : α} {x : CM α} {a : Mat α} (h : x.Is zero a) : ∀ k, k ≤ a.rows →
    (topCells a k).Perm (seg x.mem.vals (x.o 0) (x.o k - x.o 0) ++ List.replicate (k * a.cols - (x.o k - x.o 0)) zero) ∧
      x.o k - x.o 0 ≤ k * a.cols
  | 0, _ => by simp [topCells, seg]
  | k + 1, hk => by
    have e1 := h.rows
    obtain ⟨ih, ihl⟩ := cells_perm h k (by omega)
    obtain ⟨hp, hl⟩ := row_perm h (r := k) (by omega)
    have m1 := h.wf.mono' (r := 0) (r' := k) (by omega) (by omega)
    have m2 := h.wf.mono k (by omega)
    have es : (k + 1) * a.cols = k * a.cols + a.cols := Nat.succ_mul _ _
    refine ⟨?_, by omega⟩
    rw [topCells_succ]
    refine (ih.append hp).trans ?_
    have en : x.o (k + 1) - x.o 0 = (x.o k - x.o 0) + (x.o (k + 1) - x.o k) := by omega
    have ez : (k + 1) * a.cols - (x.o (k + 1) - x.o 0) = (k * a.cols - (x.o k - x.o 0)) + (a.cols - (x.o (k + 1) - x.o k)) := by
      omega
    rw [ez, en, seg_add, ← List.replicate_append_replicate]
    have eo : x.o 0 + (x.o k - x.o 0) = x.o k := by omega
    rw [eo]
    unfold stored
    classical
    rw [List.perm_iff_count]
    intro w
    simp only [List.count_append]
    omega

theorem numNonZeros_eq {x : CM α} (w : x.WF) : x.h.numNonZeros x.mem = .ok (x.o x.h.numRows - x.o 0) := by
  unfold CHdr.numNonZeros
  rw [w.off (Nat.le_refl _), w.off (Nat.zero_le _)]; rfl

/-- Folding stored values plus a representative zero is folding all cells. -/
theorem fold_zeros {A : VT ρ} {o : BinOp} {e : ρ} (hm : CMon (A.ap o) e) (hz : A.ap o A.zero A.zero = A.zero) {l s : List ρ} {k : Nat}
    (hp : l.Perm (s ++ List.replicate k A.zero)) : fold A o e l = fold A o e (s ++ if decide (0 < k) then [A.zero] else []) := by
  unfold fold
  rw [hm.foldr_perm hp, hm.foldr_append, hm.foldr_append]
  cases k with
  | zero => simp
  | succ k => rw [hm.zeros hz]; simp [hm.unit]

theorem fold_safe {A : VT ρ} (hm : CMon (A.ap .add) A.zero) {l s : List ρ} {k : Nat}
    (hp : l.Perm (s ++ List.replicate k A.zero)) : sumOf A l = sumOf A s := by
  unfold sumOf fold
  rw [hm.foldr_perm hp, hm.foldr_append, hm.foldr_replicate, hm.unit]

/-- Cells of the sparse matrix, cast. -/
theorem cells_perm_cast {zero : α} {K : Conv α ρ} {A : VT ρ} (hz : K.cast zero = A.zero) {x : CM α} {a : Mat α} (h : x.Is zero a) :
    (a.cells.map K.cast).Perm ((seg x.mem.vals (x.o 0) (x.o x.h.numRows - x.o 0)).map K.cast ++
      List.replicate (a.rows * a.cols - (x.o x.h.numRows - x.o 0)) A.zero) := by
  have := ((cells_perm h a.rows (Nat.le_refl _)).1).map K.cast
  rw [List.map_append, List.map_replicate, hz] at this
  rw [h.rows]
  exact this

theorem squaresSparse_eq {A : VT ρ} {K : Conv α ρ} (hm : CMon (A.ap .add) A.zero) (m : ρ) {v : Buf α} {p n : Nat}
    (hv : n = 0 ∨ p + n ≤ v.size) : squaresSparse A K m v p n A.zero =
      .ok (sumOf A (((seg v p n).map K.cast).map fun y => A.ap .mul (A.sub y m) (A.sub y m))) := by
  unfold squaresSparse
  rw [forLoop_foldl0 (fun s i => A.ap .add s (A.ap .mul (A.sub (K.cast (v.data (p + i))) m) (A.sub (K.cast (v.data (p + i))) m)))]
  · rw [foldl_add_map hm (fun i => A.ap .mul (A.sub (K.cast (v.data (p + i))) m) (A.sub (K.cast (v.data (p + i))) m)), hm.unit', seg,
      List.map_map, List.map_map]; rfl
  · intro i s hi
    rw [Buf.read_eq (by omega)]; rfl

/-- Sum of squared differences over all cells from the stored ones. -/
theorem squares_all {A : VT ρ} (hm : CMon (A.ap .add) A.zero)
    (ht : ∀ n m, A.ap .mul (A.times n m) m = sumOf A (List.replicate n (A.ap .mul (A.sub A.zero m) (A.sub A.zero m)))) {l s : List ρ} {k : Nat} (hp : l.Perm (s ++ List.replicate k A.zero)) (m : ρ) :
    A.ap .add (sumOf A (s.map fun y => A.ap .mul (A.sub y m) (A.sub y m))) (A.ap .mul (A.times k m) m) =
      sumOf A (l.map fun y => A.ap .mul (A.sub y m) (A.sub y m)) := by
  have hp' := hp.map fun y => A.ap .mul (A.sub y m) (A.sub y m)
  rw [List.map_append, List.map_replicate] at hp'
  unfold sumOf fold
  rw [hm.foldr_perm hp', hm.foldr_append, ht]; rfl

/-- C80: in lawful arithmetic the full aggregate of a sparse matrix (also a row-range view) is the aggregate of the list of all
its cells, zeros included; hence the same as that of the dense matrix with the same cells. -/
theorem C80_all_sparse (A : VT ρ) (K : Conv α ρ) (zero : α) (hz : K.cast zero = A.zero)
    (x : CM α) (a : Mat α) (hx : x.Is zero a) (op : AggOp) (hA : Lawful A op) (hK : Conv.Exact A K op) (hop : op ≠ .idxmin ∧ op ≠ .idxmax) :
    aggAllSparse A K op x = aggOf A op (a.cells.map K.cast) := by
  have e1 := hx.rows; have e2 := hx.cols
  have hv : x.o x.h.numRows - x.o 0 = 0 ∨ x.o 0 + (x.o x.h.numRows - x.o 0) ≤ x.mem.vals.size := by
    have := hx.wf.topV
    have := hx.wf.mono' (r := 0) (r' := x.h.numRows) (by omega) (Nat.le_refl _)
    right; omega
  have hperm := cells_perm_cast hz hx
  have hnn := numNonZeros_eq hx.wf
  have hptr : x.h.rowPtr x.mem 0 = .ok (x.o 0) := hx.wf.rowPtr (Nat.zero_le _)
  have hlen : (a.cells.map K.cast).length = a.rows * a.cols := by rw [List.length_map, cells_length]
  have hdec : decide (x.o x.h.numRows - x.o 0 < x.h.numRows * x.h.numCols) =
      decide (0 < a.rows * a.cols - (x.o x.h.numRows - x.o 0)) := by
    rw [e1, e2]; congr 1; apply propext; omega
  have hext : ∀ z, sparseSafe op = .ok z → extraZero op (x.o x.h.numRows - x.o 0) (x.h.numRows * x.h.numCols) =
      .ok (!z && decide (0 < a.rows * a.cols - (x.o x.h.numRows - x.o 0))) := by
    intro z hz'
    unfold extraZero
    rw [hz', ← hdec]; rfl
  unfold aggAllSparse
  generalize hN : x.o x.h.numRows - x.o 0 = N at *
  have pureCase : ∀ o e, ExactOn A K o e → CMon (A.ap o) e → A.ap o A.zero A.zero = A.zero →
      aggAllArray A K o x.mem.vals (x.o 0) N (!false && decide (0 < a.rows * a.cols - N)) e = .ok (fold A o e (a.cells.map K.cast)) := by
    intro o e hK hm h0
    rw [aggAllArray_eq hK hv hm, fold_zeros hm h0 hperm]; rfl
  have statCase : op = .mean ∨ op = .var ∨ op = .stddev → (do
      let agg ← aggAllArray A K .add x.mem.vals (x.o 0) N (!false && decide (0 < a.rows * a.cols - N)) A.zero
      finishSparse A K op agg x N (x.o 0)) = aggOf A op (a.cells.map K.cast) := by
    intro ho
    have hadd : CMon (A.ap .add) A.zero := by rcases ho with rfl | rfl | rfl <;> exact hA.mon
    rw [pureCase .add A.zero (by rcases ho with rfl | rfl | rfl <;> exact hK) hadd (hadd.unit _)]
    simp only [Res.ok_bind]
    unfold finishSparse
    rw [e1, e2, ← hlen]
    show (meanOf A (a.cells.map K.cast) >>= _) = _
    have hsq := fun ho' m => squares_all hadd (hA.times ho') hperm m
    rcases ho with rfl | rfl | rfl
    · simp only [if_true, aggOf]
      cases meanOf A (a.cells.map K.cast) <;> rfl
    · simp only [aggOf, varOf]
      cases meanOf A (a.cells.map K.cast) with
      | error e => rfl
      | ok m =>
        simp only [Res.ok_bind, reduceCtorEq, if_false, if_true, squaresSparse_eq hadd m hv]
        rw [hlen, hsq (.inl rfl)]
        cases A.div _ (a.rows * a.cols) <;> rfl
    · simp only [aggOf, varOf]
      cases meanOf A (a.cells.map K.cast) with
      | error e => rfl
      | ok m =>
        simp only [Res.ok_bind, reduceCtorEq, if_false, squaresSparse_eq hadd m hv]
        rw [hlen, hsq (.inr rfl)]
  cases op with
  | sum =>
    simp only [isPure, Res.ok_bind, hnn, hptr, hext true rfl, switchOp, neutral, if_true, Bool.not_true, Bool.false_eq_true, if_false,
      Bool.false_and, aggAllArray_eq (show ExactOn A K .add A.zero from hK) hv (show CMon (A.ap .add) A.zero from hA.mon), List.append_nil]
    have := fold_safe (show CMon (A.ap .add) A.zero from hA.mon) hperm
    unfold sumOf at this
    simp only [aggOf, sumOf, this]
  | prod =>
    simp only [isPure, Res.ok_bind, hnn, hptr, hext false rfl, switchOp, neutral, if_true, Bool.not_true, Bool.false_eq_true, if_false]
    exact pureCase _ _ hK (show CMon (A.ap .mul) A.one from hA.mon) hA.zeros
  | min =>
    simp only [isPure, Res.ok_bind, hnn, hptr, hext false rfl, switchOp, neutral, if_true, Bool.not_true, Bool.false_eq_true, if_false]
    exact pureCase _ _ hK (show CMon (A.ap .min) A.top from hA.mon) hA.zeros
  | max =>
    simp only [isPure, Res.ok_bind, hnn, hptr, hext false rfl, switchOp, neutral, if_true, Bool.not_true, Bool.false_eq_true, if_false]
    exact pureCase _ _ hK (show CMon (A.ap .max) A.bot from hA.mon) hA.zeros
  | idxmin => exact absurd rfl hop.1
  | idxmax => exact absurd rfl hop.2
  | mean =>
    simp only [isPure, Res.ok_bind, hnn, hptr, hext false rfl, Bool.false_eq_true, if_false]
    exact statCase (.inl rfl)
  | stddev =>
    simp only [isPure, Res.ok_bind, hnn, hptr, hext false rfl, Bool.false_eq_true, if_false]
    exact statCase (.inr (.inr rfl))
  | var =>
    simp only [isPure, Res.ok_bind, hnn, hptr, hext false rfl, Bool.false_eq_true, if_false]
    exact statCase (.inr (.inl rfl))

end Verif.Agg
