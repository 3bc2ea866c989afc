/-
  C82, C83, C84: column-wise aggregation of dense and sparse matrices, positions of extreme values per column, and cumulative
  aggregation.
-/
import Verif.Agg.Rows

namespace Verif.Agg
open Verif Verif.Dense Verif.Csr
variable {α ρ : Type}

/-- Reading off a `1 x n` matrix. -/
theorem rowvec_is {n : Nat} {m : Buf ρ} (hs : m.size = n) : DM.Is ⟨Hdr.new 1 n, m⟩ ⟨1, n, fun _ c => m.data c⟩ := by
  refine is_new (by omega) ?_
  intro r c hr _
  have : r = 0 := by omega
  subst this
  simp

/-- The first `k` values of column `c`. -/
def colTop (a : Mat α) (c k : Nat) : List α := (List.range k).map fun r => a.cell r c

theorem colTop_succ (a : Mat α) (c k : Nat) : colTop a c (k + 1) = colTop a c k ++ [a.cell k c] := by
  simp [colTop, List.range_succ]

theorem foldLeft_snoc (f : ρ → ρ → ρ) (d : ρ) {l : List ρ} (h : l ≠ []) (v : ρ) : foldLeft f d (l ++ [v]) = f (foldLeft f d l) v := by
  cases l with
  | nil => exact absurd rfl h
  | cons x l => simp [foldLeft]

theorem colTop_ne {a : Mat α} {c k : Nat} (h : 0 < k) (cast : α → ρ) : (colTop a c k).map cast ≠ [] := by
  intro e
  have := congrArg List.length e
  simp [colTop] at this
  omega

/-! ### Dense -/

theorem foldCols_ok {A : VT ρ} {cast : α → ρ} {o : BinOp} (d : ρ) {x : DM α} {a : Mat α} (hx : x.Is a) (hr0 : 0 < a.rows) {m0 : Buf ρ}
    (hs : m0.size = x.numCols) : Res.Ok (foldCols A cast o x m0) (fun m => m.size = x.numCols ∧
      ∀ c, c < x.numCols → m.data c = foldLeft (A.ap o) d ((a.colList c).map cast)) := by
  have e1 : x.numRows = a.rows := hx.rows
  have e2 : x.numCols = a.cols := hx.cols
  unfold foldCols
  refine (loop_update (s := 0) (fun c => cast (a.cell 0 c)) _ ?_).bind ?_
  · intro c m hc hm _
    rw [hx.read hr0 (by omega)]
    simp only [Res.ok_bind, Nat.zero_add]
    rw [Buf.write_eq (by omega)]
  rintro m ⟨h1, h2, _⟩
  refine forLoop_post (fun r m => m.size = x.numCols ∧ ∀ c, c < x.numCols → m.data c = foldLeft (A.ap o) d ((colTop a c r).map cast))
    1 x.numRows m (by omega) ⟨by omega, ?_⟩ ?_ ?_
  · intro c hc
    have := h2 c hc
    rw [Nat.zero_add] at this
    rw [this]; rfl
  · rintro r m h1 hr ⟨g1, g2⟩
    refine (loop_update (s := 0) (fun c => foldLeft (A.ap o) d ((colTop a c (r + 1)).map cast)) _ ?_).mono ?_
    · intro c m' hc hm' hd
      simp only [Nat.zero_add] at hd ⊢
      rw [Buf.read_eq (by omega), hx.read (by omega) (by omega)]
      simp only [Res.ok_bind]
      rw [Buf.write_eq (by omega), hd, g2 c hc, colTop_succ, List.map_append, List.map_cons, List.map_nil, foldLeft_snoc _ _ (colTop_ne (by omega) cast)]
    · rintro m' ⟨k1, k2, _⟩
      refine ⟨by omega, fun c hc => ?_⟩
      have := k2 c hc
      rw [Nat.zero_add] at this
      exact this
  · rintro m ⟨g1, g2⟩
    refine ⟨g1, fun c hc => ?_⟩
    rw [g2 c hc, e1]; rfl

theorem divCols_ok {A : VT ρ} {R C : Nat} (hR : 0 < R) {m0 : Buf ρ} (hs : m0.size = C) :
    Res.Ok (divCols A R C m0) (fun m => m.size = C ∧ ∀ c, c < C → m.data c = A.quot (m0.data c) R) := by
  unfold divCols
  refine (loop_update (s := 0) (fun c => A.quot (m0.data c) R) _ ?_).mono ?_
  · intro c m hc hm hd
    simp only [Nat.zero_add] at hd ⊢
    rw [Buf.read_eq (by omega)]
    simp only [Res.ok_bind]
    rw [div_pos hR, hd]
    simp only [Res.ok_bind]
    rw [Buf.write_eq (by omega)]
  · rintro m ⟨h1, h2, _⟩
    refine ⟨by omega, fun c hc => ?_⟩
    have := h2 c hc
    rw [Nat.zero_add] at this
    exact this

theorem squaresCols_ok {A : VT ρ} {cast : α → ρ} (hm : CMon (A.ap .add) A.zero) {x : DM α} {a : Mat α} (hx : x.Is a) {m : Buf ρ}
    (hs : m.size = x.numCols) : Res.Ok (squaresCols A cast x m ⟨x.numCols, fun _ => A.zero⟩) (fun t => t.size = x.numCols ∧
      ∀ c, c < x.numCols → t.data c = sumOf A (((a.colList c).map cast).map fun y =>
        A.ap .mul (A.sub y (m.data c)) (A.sub y (m.data c)))) := by
  have e1 : x.numRows = a.rows := hx.rows
  have e2 : x.numCols = a.cols := hx.cols
  unfold squaresCols
  refine forLoop_post (fun r t => t.size = x.numCols ∧ ∀ c, c < x.numCols → t.data c = sumOf A (((colTop a c r).map cast).map fun y =>
        A.ap .mul (A.sub y (m.data c)) (A.sub y (m.data c)))) 0 x.numRows _ (Nat.zero_le _)
    ⟨rfl, fun c _ => rfl⟩ ?_ ?_
  · rintro r t _ hr ⟨g1, g2⟩
    refine (loop_update (s := 0) (fun c => sumOf A (((colTop a c (r + 1)).map cast).map fun y =>
        A.ap .mul (A.sub y (m.data c)) (A.sub y (m.data c)))) _ ?_).mono ?_
    · intro c t' hc ht' hd
      simp only [Nat.zero_add] at hd ⊢
      rw [hx.read (by omega) (by omega), Buf.read_eq (by omega), Buf.read_eq (by omega)]
      simp only [Res.ok_bind]
      rw [Buf.write_eq (by omega), hd, g2 c hc, colTop_succ]
      simp only [List.map_append, List.map_cons, List.map_nil, sumOf, fold]
      rw [hm.foldr_append]
      simp only [List.foldr_cons, List.foldr_nil, hm.unit]
    · rintro t' ⟨k1, k2, _⟩
      refine ⟨by omega, fun c hc => ?_⟩
      have := k2 c hc
      rw [Nat.zero_add] at this
      exact this
  · rintro t ⟨g1, g2⟩
    refine ⟨g1, fun c hc => ?_⟩
    rw [g2 c hc, e1]; rfl

theorem finishCols_ok {A : VT ρ} {op : AggOp} {R C : Nat} (hR : 0 < R) {t0 : Buf ρ} (hs : t0.size = C) :
    Res.Ok (finishCols A op R C t0) (fun t => t.size = C ∧ ∀ c, c < C → t.data c =
      if op = .stddev then A.sqrt (A.quot (t0.data c) R) else A.quot (t0.data c) R) := by
  unfold finishCols
  refine (loop_update (s := 0) (fun c => if op = .stddev then A.sqrt (A.quot (t0.data c) R) else A.quot (t0.data c) R) _ ?_).mono ?_
  · intro c m hc hm hd
    simp only [Nat.zero_add] at hd ⊢
    rw [Buf.read_eq (by omega)]
    simp only [Res.ok_bind]
    rw [div_pos hR, hd]
    simp only [Res.ok_bind]
    rw [Buf.write_eq (by omega)]
  · rintro m ⟨h1, h2, _⟩
    refine ⟨by omega, fun c hc => ?_⟩
    have := h2 c hc
    rw [Nat.zero_add] at this
    exact this

theorem copyAll_ok {C : Nat} {t m : Buf ρ} (ht : t.size = C) (hm : m.size = C) :
    Res.Ok (t.copy 0 m 0 C) (fun w => w.size = C ∧ ∀ c, c < C → w.data c = t.data c) := by
  refine (Buf.copy_ok (.inr (by omega)) (.inr (by omega))).mono ?_
  rintro w ⟨h1, h2⟩
  refine ⟨by omega, fun c hc => ?_⟩
  rw [h2, if_pos (by omega)]
  simp

/-- C82 (any arithmetic): column-wise sum, product, minimum and maximum of a dense matrix fold each column from top to bottom. -/
theorem C82_col_dense_top_to_bottom (A : VT ρ) (cast : α → ρ) (less : α → α → Bool) (ofIdx junk : Nat → ρ) (junk' : Nat → α) (x : DM α)
    (a : Mat α) (hx : x.Is a) (hr : 0 < a.rows) (op : AggOp) (o : BinOp) (e : ρ) (hop : reduction A op = some (o, e)) :
    Res.Ok (aggColDense A cast less ofIdx junk junk' op x) (fun z => ∃ b, z.Is b ∧ b.rows = 1 ∧ b.cols = a.cols ∧
      ∀ c v l, c < a.cols → (a.colList c).map cast = v :: l → b.cell 0 c = l.foldl (A.ap o) v) := by
  have e2 : x.numCols = a.cols := hx.cols
  unfold aggColDense
  cases op <;> simp only [reduction, Option.some.injEq, Prod.mk.injEq, reduceCtorEq] at hop
  all_goals
    obtain ⟨rfl, rfl⟩ := hop
    simp only [funcOp, isPure, binaryOp, Res.ok_bind, Bool.not_true, Bool.false_eq_true, if_false, if_true, reduceCtorEq]
    refine (foldCols_ok A.zero hx hr (by rw [create_size]; omega)).bind ?_
    rintro m ⟨h1, h2⟩
    refine ⟨_, rfl, _, rowvec_is h1, rfl, e2, ?_⟩
    intro c v l hc hl
    have := h2 c (by omega)
    rw [hl] at this
    exact this

/-- C82: in lawful arithmetic column-wise aggregation of a dense matrix with at least one row gives, for each column, the
aggregate of the column's cells. -/
theorem C82_col_dense (A : VT ρ) (cast : α → ρ) (less : α → α → Bool) (ofIdx junk : Nat → ρ) (junk' : Nat → α) (x : DM α)
    (a : Mat α) (hx : x.Is a) (hr : 0 < a.rows) (op : AggOp) (hA : Lawful A op) (hop : op ≠ .idxmin ∧ op ≠ .idxmax) :
    Res.Ok (aggColDense A cast less ofIdx junk junk' op x) (fun z => ∃ b, z.Is b ∧ b.rows = 1 ∧ b.cols = a.cols ∧
      ∀ c, c < a.cols → aggOf A op ((a.colList c).map cast) = .ok (b.cell 0 c)) := by
  have e1 : x.numRows = a.rows := hx.rows
  have e2 : x.numCols = a.cols := hx.cols
  have hlen : ∀ c, ((a.colList c).map cast).length = a.rows := fun c => by simp [Mat.colList]
  have pureCase : ∀ (o : BinOp) (e : ρ), CMon (A.ap o) e → (∀ l, aggOf A op l = .ok (fold A o e l)) → Res.Ok (do
      let m ← foldCols A cast o x (DM.create 1 x.numCols junk).mem
      (.ok ⟨(DM.create 1 x.numCols junk).h, m⟩ : Res (DM ρ))) (fun z => ∃ b, z.Is b ∧ b.rows = 1 ∧ b.cols = a.cols ∧
      ∀ c, c < a.cols → aggOf A op ((a.colList c).map cast) = .ok (b.cell 0 c)) := by
    intro o e hm hag
    refine (foldCols_ok e hx hr (by rw [create_size]; omega)).bind ?_
    rintro m ⟨h1, h2⟩
    refine ⟨_, rfl, _, rowvec_is h1, rfl, e2, ?_⟩
    intro c hc
    show _ = Except.ok (m.data c)
    rw [hag, h2 c (by omega), foldLeft_eq hm]
  have statCase : op = .mean ∨ op = .var ∨ op = .stddev → Res.Ok (do
      let m ← foldCols A cast .add x (DM.create 1 x.numCols junk).mem
      let m ← divCols A x.numRows x.numCols m
      if op = .mean then (.ok ⟨(DM.create 1 x.numCols junk).h, m⟩ : Res (DM ρ))
      else do
        let t ← squaresCols A cast x m ⟨x.numCols, fun _ => A.zero⟩
        let t ← finishCols A op x.numRows x.numCols t
        let m ← t.copy 0 m 0 x.numCols
        .ok ⟨(DM.create 1 x.numCols junk).h, m⟩) (fun z => ∃ b, z.Is b ∧ b.rows = 1 ∧ b.cols = a.cols ∧
      ∀ c, c < a.cols → aggOf A op ((a.colList c).map cast) = .ok (b.cell 0 c)) := by
    intro ho
    have hadd : CMon (A.ap .add) A.zero := by rcases ho with rfl | rfl | rfl <;> exact hA.mon
    refine (foldCols_ok A.zero hx hr (by rw [create_size]; omega)).bind ?_
    rintro m ⟨h1, h2⟩
    refine (divCols_ok (A := A) (R := x.numRows) (by omega) h1).bind ?_
    rintro m' ⟨z2, z3⟩
    have hmean : ∀ c, c < a.cols → meanOf A ((a.colList c).map cast) = .ok (m'.data c) := by
      intro c hc
      unfold meanOf
      rw [hlen, div_pos hr, z3 c (by omega), h2 c (by omega), foldLeft_eq hadd, e1]; rfl
    by_cases hmn : op = .mean
    · rw [if_pos hmn]
      refine ⟨_, rfl, _, rowvec_is z2, rfl, e2, ?_⟩
      subst hmn
      exact hmean
    · rw [if_neg hmn]
      refine (squaresCols_ok (cast := cast) hadd hx z2).bind ?_
      rintro t ⟨t1, t2⟩
      refine (finishCols_ok (A := A) (op := op) (R := x.numRows) (by omega) t1).bind ?_
      rintro t' ⟨t3, t4⟩
      refine (copyAll_ok t3 z2).bind ?_
      rintro w ⟨w1, w2⟩
      refine ⟨_, rfl, _, rowvec_is w1, rfl, e2, ?_⟩
      intro c hc
      show _ = Except.ok (w.data c)
      have hvar : varOf A ((a.colList c).map cast) = .ok (A.quot (t.data c) x.numRows) := by
        unfold varOf
        rw [hmean c hc]
        simp only [Res.ok_bind]
        rw [hlen, div_pos hr, t2 c (by omega), e1]
      rw [w2 c (by omega), t4 c (by omega)]
      rcases ho with rfl | rfl | rfl
      · exact absurd rfl hmn
      · rw [if_neg (by simp)]; exact hvar
      · rw [if_pos rfl]
        simp only [aggOf, hvar, Res.ok_bind]
  unfold aggColDense
  cases op with
  | sum =>
    simp only [funcOp, isPure, binaryOp, Res.ok_bind, Bool.not_true, Bool.false_eq_true, if_false, if_true, reduceCtorEq]
    exact pureCase _ _ (show CMon (A.ap .add) A.zero from hA.mon) fun _ => rfl
  | prod =>
    simp only [funcOp, isPure, binaryOp, Res.ok_bind, Bool.not_true, Bool.false_eq_true, if_false, if_true, reduceCtorEq]
    exact pureCase _ _ (show CMon (A.ap .mul) A.one from hA.mon) fun _ => rfl
  | min =>
    simp only [funcOp, isPure, binaryOp, Res.ok_bind, Bool.not_true, Bool.false_eq_true, if_false, if_true, reduceCtorEq]
    exact pureCase _ _ (show CMon (A.ap .min) A.top from hA.mon) fun _ => rfl
  | max =>
    simp only [funcOp, isPure, binaryOp, Res.ok_bind, Bool.not_true, Bool.false_eq_true, if_false, if_true, reduceCtorEq]
    exact pureCase _ _ (show CMon (A.ap .max) A.bot from hA.mon) fun _ => rfl
  | idxmin => exact absurd rfl hop.1
  | idxmax => exact absurd rfl hop.2
  | mean =>
    have := statCase (.inl rfl)
    simp only [funcOp, isPure, binaryOp, Res.ok_bind, Bool.not_true, Bool.false_eq_true, if_false, reduceCtorEq] at this ⊢
    exact this
  | stddev =>
    have := statCase (.inr (.inr rfl))
    simp only [funcOp, isPure, binaryOp, Res.ok_bind, Bool.not_true, Bool.false_eq_true, if_false, reduceCtorEq] at this ⊢
    exact this
  | var =>
    have := statCase (.inr (.inl rfl))
    simp only [funcOp, isPure, binaryOp, Res.ok_bind, Bool.not_true, Bool.false_eq_true, if_false, reduceCtorEq] at this ⊢
    exact this

theorem idxCols_ok {less : α → α → Bool} (h : StrictWeak less) (ofIdx : Nat → ρ) {x : DM α} {a : Mat α} (hx : x.Is a) (hr : 0 < a.rows)
    {tmp : Buf α} {res : Buf ρ} (ht : tmp.size = x.numCols) (hs : res.size = x.numCols) :
    Res.Ok (idxCols less ofIdx x tmp res) (fun st => st.2.size = x.numCols ∧ ∀ c, c < x.numCols → ∃ i, st.2.data c = ofIdx i ∧
      FirstLeast less (a.colList c) i) := by
  have e1 : x.numRows = a.rows := hx.rows
  have e2 : x.numCols = a.cols := hx.cols
  unfold idxCols
  have hin := rowSeg_in hx (r := 0) hr
  refine (Buf.copy_ok (by simpa using hin) (.inr (by omega))).bind ?_
  rintro t0 ⟨t1, t2⟩
  refine (loop_update (s := 0) (fun _ => ofIdx 0) _ ?_).bind ?_
  · intro c m hc hm _
    simp only [Nat.zero_add]
    rw [Buf.write_eq (by omega)]
  rintro r0 ⟨r1, r2, _⟩
  refine forLoop_post (fun r st => st.1.size = x.numCols ∧ st.2.size = x.numCols ∧ ∀ c, c < x.numCols →
      ∃ i, st.2.data c = ofIdx i ∧ Scan less (fun r => a.cell r c) r (st.1.data c, i)) 1 x.numRows _ (by omega)
    ⟨t1.trans ht, r1.trans hs, ?_⟩ ?_ ?_
  · intro c hc
    refine ⟨0, ?_, ?_⟩
    · have := r2 c hc
      rw [Nat.zero_add] at this
      exact this
    · have : t0.data c = a.cell 0 c := by
        rw [t2, if_pos (by omega), ← hx.data hr (c := c) (by omega), hx.wf.start]; simp
      simp only [this]
      exact Scan.start h _
  · rintro r st hr1 hrr ⟨g1, g2, g3⟩
    refine forLoop_post (fun c st => st.1.size = x.numCols ∧ st.2.size = x.numCols ∧ ∀ c', c' < x.numCols →
        ∃ i, st.2.data c' = ofIdx i ∧ Scan less (fun r => a.cell r c') (if c' < c then r + 1 else r) (st.1.data c', i))
      0 x.numCols st (Nat.zero_le _) ⟨g1, g2, fun c' hc' => by simpa using g3 c' hc'⟩ ?_ ?_
    · rintro c st' _ hc ⟨k1, k2, k3⟩
      rw [hx.read (by omega) (by omega), Buf.read_eq (by omega)]
      simp only [Res.ok_bind]
      obtain ⟨i, hi1, hi2⟩ := k3 c hc
      rw [if_neg (by omega)] at hi2
      have hst := hi2.step h
      simp only at hst
      by_cases hl : less (a.cell r c) (st'.1.data c) = true
      · rw [if_pos hl] at hst ⊢
        rw [Buf.write_eq (by omega), Buf.write_eq (by omega)]
        refine ⟨_, rfl, k1, k2, ?_⟩
        intro c' hc'
        simp only [Buf.put_data]
        by_cases e : c' = c
        · subst e
          refine ⟨r, by simp, ?_⟩
          rw [if_pos (by omega), if_pos rfl]
          exact hst
        · obtain ⟨i', a1, a2⟩ := k3 c' hc'
          refine ⟨i', by rw [if_neg e]; exact a1, ?_⟩
          rw [if_neg e]
          have : (c' < c + 1) = (c' < c) := propext (by omega)
          simp only [this]
          exact a2
      · rw [if_neg hl] at hst ⊢
        refine ⟨_, rfl, k1, k2, ?_⟩
        intro c' hc'
        by_cases e : c' = c
        · subst e
          refine ⟨i, hi1, ?_⟩
          rw [if_pos (by omega)]
          exact hst
        · obtain ⟨i', a1, a2⟩ := k3 c' hc'
          refine ⟨i', a1, ?_⟩
          have : (c' < c + 1) = (c' < c) := propext (by omega)
          simp only [this]
          exact a2
    · rintro st' ⟨k1, k2, k3⟩
      refine ⟨k1, k2, fun c hc => ?_⟩
      obtain ⟨i, a1, a2⟩ := k3 c hc
      rw [if_pos hc] at a2
      exact ⟨i, a1, a2⟩
  · rintro st ⟨g1, g2, g3⟩
    refine ⟨g2, fun c hc => ?_⟩
    obtain ⟨i, a1, a2⟩ := g3 c hc
    rw [e1] at a2
    exact ⟨i, a1, a2.firstLeast⟩

/-- C83 (columns): IDXMIN / IDXMAX give, for each column of a dense matrix with at least one row, the first position of the
column's smallest / greatest value. -/
theorem C83_col_positions (A : VT ρ) (cast : α → ρ) (less : α → α → Bool) (hl : StrictWeak less) (ofIdx junk : Nat → ρ)
    (junk' : Nat → α) (x : DM α) (a : Mat α) (hx : x.Is a) (hr : 0 < a.rows) :
    Res.Ok (aggColDense A cast less ofIdx junk junk' .idxmin x) (fun z => ∃ (b : Mat ρ) (pos : Nat → Nat), z.Is b ∧ b.rows = 1 ∧
      b.cols = a.cols ∧ ∀ c, c < a.cols → b.cell 0 c = ofIdx (pos c) ∧ FirstLeast less (a.colList c) (pos c)) ∧
    Res.Ok (aggColDense A cast less ofIdx junk junk' .idxmax x) (fun z => ∃ (b : Mat ρ) (pos : Nat → Nat), z.Is b ∧ b.rows = 1 ∧
      b.cols = a.cols ∧ ∀ c, c < a.cols → b.cell 0 c = ofIdx (pos c) ∧ FirstLeast (fun v w => less w v) (a.colList c) (pos c)) := by
  have e2 : x.numCols = a.cols := hx.cols
  have main : ∀ lt : α → α → Bool, StrictWeak lt → Res.Ok (do
      let st ← idxCols lt ofIdx x ⟨x.numCols, junk'⟩ (DM.create 1 x.numCols junk).mem
      (.ok ⟨(DM.create 1 x.numCols junk).h, st.2⟩ : Res (DM ρ))) (fun z => ∃ (b : Mat ρ) (pos : Nat → Nat), z.Is b ∧ b.rows = 1 ∧
      b.cols = a.cols ∧ ∀ c, c < a.cols → b.cell 0 c = ofIdx (pos c) ∧ FirstLeast lt (a.colList c) (pos c)) := by
    intro lt hlt
    refine (idxCols_ok hlt ofIdx hx hr rfl (by rw [create_size]; omega)).bind ?_
    rintro ⟨t, m⟩ ⟨h1, h2⟩
    have hch : ∀ c, ∃ i, c < a.cols → m.data c = ofIdx i ∧ FirstLeast lt (a.colList c) i := by
      intro c
      by_cases hc : c < a.cols
      · obtain ⟨i, h⟩ := h2 c (by omega)
        exact ⟨i, fun _ => h⟩
      · exact ⟨0, fun h => absurd h hc⟩
    obtain ⟨pos, hpos⟩ := Classical.axiomOfChoice hch
    exact ⟨_, rfl, _, pos, rowvec_is h1, rfl, e2, hpos⟩
  unfold aggColDense
  exact ⟨by simpa using main less hl, by simpa using main _ hl.swap⟩

/-! ### Cumulative -/

/-- C84: cumulative sum, product, minimum, maximum of a dense matrix with at least one row: the cell in row `r` is the fold,
from top to bottom, of the column's first `r + 1` values; other op-codes are rejected. -/
theorem C84_cumulative (A : VT ρ) (f : BinOp → ρ → α → ρ) (cast : α → ρ) (junk : Nat → ρ) (x : DM α) (a : Mat α) (hx : x.Is a)
    (hr : 0 < a.rows) (op : AggOp) :
    (∀ o e, reduction A op = some (o, e) → Res.Ok (aggCum f cast junk op x) (fun z => z.Is ⟨a.rows, a.cols, fun r c =>
      ((List.range r).map fun k => a.cell (k + 1) c).foldl (f o) (cast (a.cell 0 c))⟩)) ∧
    (reduction A op = none → Res.Throws (aggCum f cast junk op x)) := by
  have e1 : x.numRows = a.rows := hx.rows
  have e2 : x.numCols = a.cols := hx.cols
  have main : ∀ o, Res.Ok (do
      let m ← forLoop 0 x.numCols (DM.create x.numRows x.numCols junk).mem fun c m => do
        let v ← x.mem.read (x.addr 0 c)
        m.write ((DM.create x.numRows x.numCols junk).addr 0 c) (cast v)
      let m ← forLoop 1 x.numRows m fun r m => forLoop 0 x.numCols m fun c m => do
        let a ← m.read ((DM.create x.numRows x.numCols junk).addr (r - 1) c)
        let v ← x.mem.read (x.addr r c)
        m.write ((DM.create x.numRows x.numCols junk).addr r c) (f o a v)
      (.ok ⟨(DM.create x.numRows x.numCols junk).h, m⟩ : Res (DM ρ))) (fun z => z.Is ⟨a.rows, a.cols, fun r c =>
      ((List.range r).map fun k => a.cell (k + 1) c).foldl (f o) (cast (a.cell 0 c))⟩) := by
    intro o
    simp only [create_addr]
    refine (loop_update (s := 0) (fun c => cast (a.cell 0 c)) _ ?_).bind ?_
    · intro c m hc hm _
      rw [hx.read hr (by omega)]
      simp only [Res.ok_bind, Nat.zero_add, Nat.zero_mul]
      rw [Buf.write_eq]
      rw [hm, create_size]
      have := rm_lt (R := x.numRows) (r := 0) (s := x.numCols) (by omega) hc (Nat.le_refl _)
      omega
    rintro m ⟨h1, h2, _⟩
    rw [create_size] at h1
    refine (forLoop_post (fun i m => m.size = x.numRows * x.numCols ∧ ∀ r c, r < i → c < x.numCols → m.data (r * x.numCols + c) =
        ((List.range r).map fun k => a.cell (k + 1) c).foldl (f o) (cast (a.cell 0 c))) 1 x.numRows m (by omega) ⟨h1, ?_⟩ ?_
        (fun m h => h)).bind ?_
    · intro r c hr' hc
      have : r = 0 := by omega
      subst this
      have := h2 c hc
      simpa using this
    · rintro i m hi1 hi ⟨g1, g2⟩
      refine (loop_update' (s := i * x.numCols) (fun c => ((List.range i).map fun k => a.cell (k + 1) c).foldl (f o) (cast (a.cell 0 c)))
        _ ?_).mono ?_
      · intro c m' hc hm' hd
        have hb1 := rm_lt (R := x.numRows) (r := i) (s := x.numCols) hi hc (Nat.le_refl _)
        have hb2 := rm_lt (R := x.numRows) (r := i - 1) (s := x.numCols) (by omega) hc (Nat.le_refl _)
        rw [Buf.read_eq (by omega), hx.read (by omega) (by omega)]
        simp only [Res.ok_bind]
        rw [Buf.write_eq (by omega)]
        have hlt : (i - 1) * x.numCols + c < i * x.numCols := rm_lt (by omega) hc (Nat.le_refl _)
        rw [hd _ (.inl hlt), g2 (i - 1) c (by omega) hc]
        obtain ⟨k, rfl⟩ : ∃ k, i = k + 1 := ⟨i - 1, by omega⟩
        simp [List.range_succ]
      · rintro m' ⟨k1, k2, k3⟩
        refine ⟨by omega, ?_⟩
        intro r c hr' hc
        by_cases e : r = i
        · subst e; exact k2 c hc
        · have hlt : r * x.numCols + c < i * x.numCols := rm_lt (by omega) hc (Nat.le_refl _)
          rw [k3 _ (.inl hlt)]
          exact g2 r c (by omega) hc
    · rintro m' ⟨g1, g2⟩
      refine ⟨_, rfl, ?_⟩
      rw [create_h, e1, e2] at *
      exact is_new g1 fun r c h1 h2 => g2 r c h1 h2
  unfold aggCum
  cases op with
  | sum =>
    refine ⟨fun o e h => ?_, fun h => by simp [reduction] at h⟩
    simp only [reduction, Option.some.injEq, Prod.mk.injEq] at h
    obtain ⟨rfl, rfl⟩ := h
    exact main _
  | prod =>
    refine ⟨fun o e h => ?_, fun h => by simp [reduction] at h⟩
    simp only [reduction, Option.some.injEq, Prod.mk.injEq] at h
    obtain ⟨rfl, rfl⟩ := h
    exact main _
  | min =>
    refine ⟨fun o e h => ?_, fun h => by simp [reduction] at h⟩
    simp only [reduction, Option.some.injEq, Prod.mk.injEq] at h
    obtain ⟨rfl, rfl⟩ := h
    exact main _
  | max =>
    refine ⟨fun o e h => ?_, fun h => by simp [reduction] at h⟩
    simp only [reduction, Option.some.injEq, Prod.mk.injEq] at h
    obtain ⟨rfl, rfl⟩ := h
    exact main _
  | idxmin => exact ⟨fun o e h => by simp [reduction] at h, fun _ => ⟨_, rfl⟩⟩
  | idxmax => exact ⟨fun o e h => by simp [reduction] at h, fun _ => ⟨_, rfl⟩⟩
  | mean => exact ⟨fun o e h => by simp [reduction] at h, fun _ => ⟨_, rfl⟩⟩
  | stddev => exact ⟨fun o e h => by simp [reduction] at h, fun _ => ⟨_, rfl⟩⟩
  | var => exact ⟨fun o e h => by simp [reduction] at h, fun _ => ⟨_, rfl⟩⟩

end Verif.Agg
