/-
  C81, C83: row-wise aggregation of dense and sparse matrices, and positions of extreme values per row.
-/
import Verif.Agg.All
import Verif.Dense.KernelProps

namespace Verif.Agg
open Verif Verif.Dense Verif.Csr
variable {α ρ : Type}

/-! ### Scanning for the first least value -/

theorem StrictWeak.swap {less : α → α → Bool} (h : StrictWeak less) : StrictWeak fun a b => less b a :=
  ⟨h.irrefl, fun a b c h1 h2 => h.trans c b a h2 h1, fun a b c h1 h2 => h.negTrans c b a h2 h1⟩

/-- State of the scan after the first `n` values: `s` is the least one and its first position. -/
structure Scan (less : α → α → Bool) (f : Nat → α) (n : Nat) (s : α × Nat) : Prop where
  lt : s.2 < n
  val : s.1 = f s.2
  least : ∀ j, j < n → less (f j) s.1 = false
  first : ∀ j, j < s.2 → less s.1 (f j) = true

theorem Scan.start {less : α → α → Bool} (h : StrictWeak less) (f : Nat → α) : Scan less f 1 (f 0, 0) :=
  ⟨by simp, rfl, fun j hj => by have : j = 0 := by omega
                                subst this; exact h.irrefl _, fun j hj => by simp at hj⟩

theorem Scan.step {less : α → α → Bool} (h : StrictWeak less) {f : Nat → α} {n : Nat} {s : α × Nat} (hs : Scan less f n s) :
    Scan less f (n + 1) (if less (f n) s.1 then (f n, n) else s) := by
  by_cases hl : less (f n) s.1 = true
  · rw [if_pos hl]
    refine ⟨by simp, rfl, ?_, ?_⟩
    · intro j hj
      by_cases e : j = n
      · subst e; exact h.irrefl _
      · simp only
        cases hc : less (f j) (f n) with
        | false => rfl
        | true =>
          have := h.trans _ _ _ hc hl
          rw [hs.least j (by omega)] at this; cases this
    · intro j hj
      simp only at *
      cases hc : less (f n) (f j) with
      | true => rfl
      | false =>
        have := h.negTrans _ _ _ hc (hs.least j (by omega))
        rw [hl] at this; cases this
  · rw [if_neg hl]
    refine ⟨by have := hs.lt; omega, hs.val, ?_, hs.first⟩
    intro j hj
    by_cases e : j = n
    · subst e; simpa using hl
    · exact hs.least j (by omega)

theorem Scan.firstLeast {less : α → α → Bool} {f : Nat → α} {n : Nat} {s : α × Nat} (hs : Scan less f n s) :
    FirstLeast less ((List.range n).map f) s.2 := by
  refine ⟨s.1, ?_, ?_, ?_⟩
  · rw [List.getElem?_map, List.getElem?_range hs.lt]; simp [hs.val]
  · intro w hw
    simp only [List.mem_map, List.mem_range] at hw
    obtain ⟨j, hj, rfl⟩ := hw
    exact hs.least j hj
  · intro j w hj hw
    have := hs.lt
    rw [List.getElem?_map, List.getElem?_range (by omega)] at hw
    simp only [Option.map_some, Option.some.injEq] at hw
    subst hw
    exact hs.first j hj

theorem idxRow_ok {less : α → α → Bool} (h : StrictWeak less) {x : DM α} {a : Mat α} (hx : x.Is a) {r : Nat} (hr : r < a.rows)
    (hc : 0 < a.cols) : Res.Ok (idxRow less x r) (FirstLeast less (a.rowList r)) := by
  have e2 : x.numCols = a.cols := hx.cols
  unfold idxRow
  rw [hx.read hr hc]
  simp only [Res.ok_bind]
  have : Res.Ok (forLoop 1 x.numCols (a.cell r 0, 0) fun c s => do
      let v ← x.mem.read (x.addr r c)
      if less v s.1 then .ok (v, c) else .ok s) (Scan less (fun c => a.cell r c) a.cols) := by
    refine forLoop_post (fun c s => Scan less (fun c => a.cell r c) c s) 1 x.numCols _ (by omega) (Scan.start h _) ?_
      (by rw [e2]; exact fun s h => h)
    intro c s h1 h2 hs
    rw [hx.read hr (by omega)]
    simp only [Res.ok_bind]
    have := hs.step h
    by_cases hl : less (a.cell r c) s.1 = true
    · rw [if_pos hl] at this ⊢; exact ⟨_, rfl, this⟩
    · rw [if_neg hl] at this ⊢; exact ⟨_, rfl, this⟩
  refine this.bind ?_
  intro s hs
  exact ⟨_, rfl, hs.firstLeast⟩

/-! ### Dense -/

theorem range_cons {n : Nat} (h : 0 < n) : List.range n = 0 :: List.range' 1 (n - 1) := by
  rw [List.range_eq_range']
  obtain ⟨k, rfl⟩ : ∃ k, n = k + 1 := ⟨n - 1, by omega⟩
  rw [List.range'_succ]; rfl

/-- Left-to-right reduction. -/
def foldLeft (f : ρ → ρ → ρ) (dflt : ρ) : List ρ → ρ
  | [] => dflt
  | v :: l => l.foldl f v

theorem foldLeft_eq {A : VT ρ} {o : BinOp} {e : ρ} (hm : CMon (A.ap o) e) (l : List ρ) : foldLeft (A.ap o) e l = fold A o e l := by
  cases l with
  | nil => rfl
  | cons v l => exact hm.foldl_eq l v

theorem foldLeft_dflt (f : ρ → ρ → ρ) (d d' : ρ) {l : List ρ} (h : l ≠ []) : foldLeft f d l = foldLeft f d' l := by
  cases l with
  | nil => exact absurd rfl h
  | cons _ _ => rfl

theorem foldRow_eq {A : VT ρ} {cast : α → ρ} {o : BinOp} {x : DM α} {a : Mat α} (hx : x.Is a) {r : Nat} (hr : r < a.rows)
    (hc : 0 < a.cols) (d : ρ) : foldRow A cast o x r = .ok (foldLeft (A.ap o) d ((a.rowList r).map cast)) := by
  have e2 : x.numCols = a.cols := hx.cols
  unfold foldRow
  rw [hx.read hr hc]
  simp only [Res.ok_bind]
  rw [forLoop_foldl (fun agg c => A.ap o agg (cast (a.cell r c)))]
  · rw [Mat.rowList, range_cons hc, e2]
    simp only [List.map_cons, foldLeft, List.foldl_map]
  · intro c agg h1 h2
    rw [hx.read hr (by omega)]; rfl

theorem squaresRow_eq {A : VT ρ} {cast : α → ρ} (hm : CMon (A.ap .add) A.zero) {x : DM α} {a : Mat α} (hx : x.Is a) {r : Nat}
    (hr : r < a.rows) (m : ρ) : squaresRow A cast x r m =
      .ok (sumOf A (((a.rowList r).map cast).map fun y => A.ap .mul (A.sub y m) (A.sub y m))) := by
  have e2 : x.numCols = a.cols := hx.cols
  unfold squaresRow
  rw [forLoop_foldl0 (fun s c => A.ap .add s (A.ap .mul (A.sub (cast (a.cell r c)) m) (A.sub (cast (a.cell r c)) m)))]
  · rw [foldl_add_map hm (fun c => A.ap .mul (A.sub (cast (a.cell r c)) m) (A.sub (cast (a.cell r c)) m)), hm.unit', Mat.rowList,
      List.map_map, List.map_map, e2]; rfl
  · intro c s hc
    rw [hx.read hr (by omega)]; rfl

/-- Writing the rows of an `n x 1` result. -/
theorem writeRows {n : Nat} {m0 : Buf ρ} (hs : m0.size = n) (P : Nat → ρ → Prop) (body : Nat → Buf ρ → Res (Buf ρ))
    (hb : ∀ r (m : Buf ρ), r < n → m.size = n → m.data r = m0.data r → ∃ v, P r v ∧ body r m = .ok (m.put r v)) :
    Res.Ok (forLoop 0 n m0 body) (fun m => m.size = n ∧ ∀ r, r < n → P r (m.data r)) := by
  refine forLoop_post (fun i m => m.size = n ∧ (∀ r, r < i → P r (m.data r)) ∧ ∀ r, i ≤ r → m.data r = m0.data r)
    0 n m0 (Nat.zero_le _) ⟨hs, fun r h => by omega, fun _ _ => rfl⟩ ?_ (fun m h => ⟨h.1, h.2.1⟩)
  rintro i m _ hi ⟨h1, h2, h3⟩
  obtain ⟨v, hv, e⟩ := hb i m hi h1 (h3 i (Nat.le_refl _))
  refine ⟨_, e, h1, ?_, ?_⟩
  · intro r hr
    rw [Buf.put_data]
    by_cases er : r = i
    · rw [if_pos er, er]; exact hv
    · rw [if_neg er]; exact h2 r (by omega)
  · intro r hr
    rw [Buf.put_data, if_neg (by omega)]
    exact h3 r (by omega)

/-- Reading off an `n x 1` matrix. -/
theorem column_is {n : Nat} {m : Buf ρ} (hs : m.size = n) : DM.Is ⟨Hdr.new n 1, m⟩ ⟨n, 1, fun r _ => m.data r⟩ := by
  refine is_new (by omega) ?_
  intro r c _ hc
  have : r * 1 + c = r := by omega
  rw [this]

theorem addr_col (n : Nat) (junk : Nat → ρ) (r : Nat) : (DM.create n 1 junk).addr r 0 = r := by
  rw [create_addr]; omega

theorem div_pos {A : VT ρ} {n : Nat} (h : 0 < n) (v : ρ) : A.div v n = .ok (A.quot v n) := by
  unfold VT.div
  have : (n == 0) = false := by simp; omega
  rw [this]; simp

theorem divRows_ok {A : VT ρ} {n C : Nat} (hC : 0 < C) {junk : Nat → ρ} {m0 : Buf ρ} (hs : m0.size = n) :
    Res.Ok (divRows A n C ⟨(DM.create n 1 junk).h, m0⟩) (fun z => z.h = Hdr.new n 1 ∧ z.mem.size = n ∧
      ∀ r, r < n → z.mem.data r = A.quot (m0.data r) C) := by
  unfold divRows
  have ha : ∀ r, (DM.addr ⟨(DM.create n 1 junk).h, m0⟩ r 0) = r := fun r => addr_col n junk r
  refine (writeRows hs (fun r v => v = A.quot (m0.data r) C) _ ?_).bind ?_
  · intro r m hr hm hd
    refine ⟨_, rfl, ?_⟩
    simp only [ha]
    rw [Buf.read_eq (by omega)]
    simp only [Res.ok_bind]
    rw [div_pos hC, hd]
    simp only [Res.ok_bind]
    rw [Buf.write_eq (by omega)]
  · rintro m ⟨h1, h2⟩
    exact ⟨_, rfl, rfl, h1, h2⟩

theorem varRows_ok {A : VT ρ} {cast : α → ρ} (hm : CMon (A.ap .add) A.zero) {op : AggOp} {x : DM α} {a : Mat α} (hx : x.Is a)
    (hc : 0 < a.cols) {z : DM ρ} (hz : z.h = Hdr.new x.numRows 1) (hs : z.mem.size = x.numRows) :
    Res.Ok (varRows A cast op x z) (fun w => w.h = Hdr.new x.numRows 1 ∧ w.mem.size = x.numRows ∧ ∀ r, r < x.numRows →
      w.mem.data r = (if op = .stddev then A.sqrt else id) (A.quot (sumOf A (((a.rowList r).map cast).map fun y =>
        A.ap .mul (A.sub y (z.mem.data r)) (A.sub y (z.mem.data r)))) a.cols)) := by
  have e1 : x.numRows = a.rows := hx.rows
  have e2 : x.numCols = a.cols := hx.cols
  have ha : ∀ r, z.addr r 0 = r := by
    intro r
    unfold DM.addr
    rw [hz]
    simp [Hdr.new, Hdr.start, Hdr.isPartial]
  have ht : ∀ r, (DM.createZero x.numRows 1 A.zero).addr r 0 = r := by
    intro r
    simp [DM.addr, DM.createZero, Hdr.new, Hdr.start, Hdr.isPartial]
  unfold varRows
  have l1 := writeRows (n := x.numRows) (m0 := (DM.createZero x.numRows 1 A.zero).mem) (by simp [DM.createZero])
    (fun r v => v = sumOf A (((a.rowList r).map cast).map fun y => A.ap .mul (A.sub y (z.mem.data r)) (A.sub y (z.mem.data r))))
    (fun r t => do
      let m ← z.mem.read (z.addr r 0)
      let s ← squaresRow A cast x r m
      t.write ((DM.createZero x.numRows 1 A.zero).addr r 0) s) (by
      intro r t hr hsz _
      refine ⟨_, rfl, ?_⟩
      simp only [ha, ht]
      rw [Buf.read_eq (by omega)]
      simp only [Res.ok_bind]
      rw [squaresRow_eq hm hx (by omega)]
      simp only [Res.ok_bind]
      rw [Buf.write_eq (by omega)])
  refine l1.bind ?_
  rintro t ⟨t1, t2⟩
  refine (writeRows hs (fun r v => v = (if op = .stddev then A.sqrt else id) (A.quot (sumOf A (((a.rowList r).map cast).map fun y =>
        A.ap .mul (A.sub y (z.mem.data r)) (A.sub y (z.mem.data r)))) a.cols)) _ ?_).bind ?_
  · intro r m hr hsz _
    refine ⟨_, rfl, ?_⟩
    simp only [ha, ht]
    rw [Buf.read_eq (by omega)]
    simp only [Res.ok_bind]
    rw [div_pos (by omega), t2 r hr, e2]
    simp only [Res.ok_bind]
    by_cases ho : op = .stddev
    · rw [if_pos ho, if_pos ho, Buf.write_eq (by omega)]
    · rw [if_neg ho, if_neg ho, Buf.write_eq (by omega)]; rfl
  · rintro m ⟨h1, h2⟩
    exact ⟨_, rfl, hz, h1, h2⟩

/-- The first phase: rows folded left to right. -/
theorem foldRows_ok {A : VT ρ} {cast : α → ρ} {junk : Nat → ρ} {o : BinOp} (d : ρ) {x : DM α} {a : Mat α} (hx : x.Is a)
    (hc : 0 < a.cols) : Res.Ok (forLoop 0 x.numRows (DM.create x.numRows 1 junk).mem fun r m => do
      let v ← foldRow A cast o x r
      m.write ((DM.create x.numRows 1 junk).addr r 0) v) (fun m => m.size = x.numRows ∧
        ∀ r, r < x.numRows → m.data r = foldLeft (A.ap o) d ((a.rowList r).map cast)) := by
  have e1 : x.numRows = a.rows := hx.rows
  refine writeRows (n := x.numRows) (by rw [create_size]; omega) (fun r v => v = foldLeft (A.ap o) d ((a.rowList r).map cast)) _ ?_
  intro r m hr hsz _
  refine ⟨_, rfl, ?_⟩
  simp only [addr_col]
  rw [foldRow_eq hx (by omega) hc d]
  simp only [Res.ok_bind]
  rw [Buf.write_eq (by omega)]

/-- C81 (any arithmetic): row-wise sum, product, minimum and maximum of a dense matrix fold each row from left to right. -/
theorem C81_row_dense_left_to_right (A : VT ρ) (cast : α → ρ) (less : α → α → Bool) (ofIdx junk : Nat → ρ) (x : DM α) (a : Mat α)
    (hx : x.Is a) (hc : 0 < a.cols) (op : AggOp) (o : BinOp) (e : ρ) (hop : reduction A op = some (o, e)) :
    Res.Ok (aggRowDense A cast less ofIdx junk op x) (fun z => ∃ b, z.Is b ∧ b.rows = a.rows ∧ b.cols = 1 ∧
      ∀ r v l, r < a.rows → (a.rowList r).map cast = v :: l → b.cell r 0 = l.foldl (A.ap o) v) := by
  have e1 : x.numRows = a.rows := hx.rows
  unfold aggRowDense
  cases op <;> simp only [reduction, Option.some.injEq, Prod.mk.injEq, reduceCtorEq] at hop
  all_goals
    obtain ⟨rfl, rfl⟩ := hop
    simp only [funcOp, isPure, binaryOp, Res.ok_bind, Bool.not_true, Bool.false_eq_true, if_false, if_true, reduceCtorEq]
    refine (foldRows_ok A.zero hx hc).bind ?_
    rintro m ⟨h1, h2⟩
    refine ⟨_, rfl, _, column_is h1, e1, rfl, ?_⟩
    intro r v l hr hl
    have := h2 r (by omega)
    rw [hl] at this
    exact this

/-- C81: in lawful arithmetic row-wise aggregation of a dense matrix with at least one column gives, for each row, the aggregate
of the row's cells. -/
theorem C81_row_dense (A : VT ρ) (cast : α → ρ) (less : α → α → Bool) (ofIdx junk : Nat → ρ) (x : DM α) (a : Mat α)
    (hx : x.Is a) (hc : 0 < a.cols) (op : AggOp) (hA : Lawful A op) (hop : op ≠ .idxmin ∧ op ≠ .idxmax) :
    Res.Ok (aggRowDense A cast less ofIdx junk op x) (fun z => ∃ b, z.Is b ∧ b.rows = a.rows ∧ b.cols = 1 ∧
      ∀ r, r < a.rows → aggOf A op ((a.rowList r).map cast) = .ok (b.cell r 0)) := by
  have e1 : x.numRows = a.rows := hx.rows
  have hlen : ∀ r, ((a.rowList r).map cast).length = a.cols := fun r => by simp [Mat.rowList]
  have e2 : x.numCols = a.cols := hx.cols
  have pureCase : ∀ (o : BinOp) (e : ρ), CMon (A.ap o) e → Res.Ok (do
      let m ← forLoop 0 x.numRows (DM.create x.numRows 1 junk).mem fun r m => do
        let v ← foldRow A cast o x r
        m.write ((DM.create x.numRows 1 junk).addr r 0) v
      (.ok ⟨(DM.create x.numRows 1 junk).h, m⟩ : Res (DM ρ))) (fun z => ∃ b, z.Is b ∧ b.rows = a.rows ∧ b.cols = 1 ∧
      ∀ r, r < a.rows → fold A o e ((a.rowList r).map cast) = b.cell r 0) := by
    intro o e hm
    refine (foldRows_ok e hx hc).bind ?_
    rintro m ⟨h1, h2⟩
    refine ⟨_, rfl, _, column_is h1, e1, rfl, ?_⟩
    intro r hr
    show _ = m.data r
    rw [h2 r (by omega), foldLeft_eq hm]
  have statCase : op = .mean ∨ op = .var ∨ op = .stddev → Res.Ok (do
      let m ← forLoop 0 x.numRows (DM.create x.numRows 1 junk).mem fun r m => do
        let v ← foldRow A cast .add x r
        m.write ((DM.create x.numRows 1 junk).addr r 0) v
      let res ← divRows A x.numRows x.numCols ⟨(DM.create x.numRows 1 junk).h, m⟩
      if op = .mean then .ok res else varRows A cast op x res) (fun z => ∃ b, z.Is b ∧ b.rows = a.rows ∧ b.cols = 1 ∧
      ∀ r, r < a.rows → aggOf A op ((a.rowList r).map cast) = .ok (b.cell r 0)) := by
    intro ho
    have hadd : CMon (A.ap .add) A.zero := by rcases ho with rfl | rfl | rfl <;> exact hA.mon
    refine (foldRows_ok A.zero hx hc).bind ?_
    rintro m ⟨h1, h2⟩
    refine (divRows_ok (A := A) (junk := junk) (C := x.numCols) (by omega) h1).bind ?_
    rintro ⟨zh, zm⟩ ⟨z1, z2, z3⟩
    simp only at z1 z2 z3
    subst z1
    have hmean : ∀ r, r < a.rows → meanOf A ((a.rowList r).map cast) = .ok (zm.data r) := by
      intro r hr
      unfold meanOf
      rw [hlen, div_pos hc, z3 r (by omega), h2 r (by omega), foldLeft_eq hadd, e2]; rfl
    by_cases hmn : op = .mean
    · rw [if_pos hmn]
      refine ⟨_, rfl, _, column_is z2, e1, rfl, ?_⟩
      subst hmn
      exact hmean
    · rw [if_neg hmn]
      refine (varRows_ok (cast := cast) (op := op) hadd hx hc rfl z2).mono ?_
      rintro ⟨wh, wm⟩ ⟨w1, w2, w3⟩
      simp only at w1 w2 w3
      subst w1
      refine ⟨_, column_is w2, e1, rfl, ?_⟩
      intro r hr
      show _ = Except.ok (wm.data r)
      rw [w3 r (by omega)]
      have hvar : varOf A ((a.rowList r).map cast) = .ok (A.quot (sumOf A (((a.rowList r).map cast).map fun y =>
        A.ap .mul (A.sub y (zm.data r)) (A.sub y (zm.data r)))) a.cols) := by
        unfold varOf
        rw [hmean r hr]
        simp only [Res.ok_bind]
        rw [hlen, div_pos hc]
      rcases ho with rfl | rfl | rfl
      · exact absurd rfl hmn
      · rw [if_neg (by simp)]; exact hvar
      · rw [if_pos rfl]
        simp only [aggOf, hvar, Res.ok_bind]
  unfold aggRowDense
  cases op with
  | sum =>
    simp only [funcOp, isPure, binaryOp, Res.ok_bind, Bool.not_true, Bool.false_eq_true, if_false, if_true, reduceCtorEq]
    refine (pureCase _ _ (show CMon (A.ap .add) A.zero from hA.mon)).mono ?_
    rintro z ⟨b, h1, h2, h3, h4⟩
    exact ⟨b, h1, h2, h3, fun r hr => congrArg _ (h4 r hr)⟩
  | prod =>
    simp only [funcOp, isPure, binaryOp, Res.ok_bind, Bool.not_true, Bool.false_eq_true, if_false, if_true, reduceCtorEq]
    refine (pureCase _ _ (show CMon (A.ap .mul) A.one from hA.mon)).mono ?_
    rintro z ⟨b, h1, h2, h3, h4⟩
    exact ⟨b, h1, h2, h3, fun r hr => congrArg _ (h4 r hr)⟩
  | min =>
    simp only [funcOp, isPure, binaryOp, Res.ok_bind, Bool.not_true, Bool.false_eq_true, if_false, if_true, reduceCtorEq]
    refine (pureCase _ _ (show CMon (A.ap .min) A.top from hA.mon)).mono ?_
    rintro z ⟨b, h1, h2, h3, h4⟩
    exact ⟨b, h1, h2, h3, fun r hr => congrArg _ (h4 r hr)⟩
  | max =>
    simp only [funcOp, isPure, binaryOp, Res.ok_bind, Bool.not_true, Bool.false_eq_true, if_false, if_true, reduceCtorEq]
    refine (pureCase _ _ (show CMon (A.ap .max) A.bot from hA.mon)).mono ?_
    rintro z ⟨b, h1, h2, h3, h4⟩
    exact ⟨b, h1, h2, h3, fun r hr => congrArg _ (h4 r hr)⟩
  | idxmin => exact absurd rfl hop.1
  | idxmax => exact absurd rfl hop.2
  | mean =>
    have := statCase (.inl rfl)
    simp only [funcOp, isPure, binaryOp, Res.ok_bind, Bool.not_true, Bool.false_eq_true, if_false, reduceCtorEq] at this ⊢
    exact this
  | stddev =>
    have := statCase (.inr (.inr rfl))
    simp only [funcOp, isPure, binaryOp, Res.ok_bind, Bool.not_true, Bool.false_eq_true, if_false, reduceCtorEq] at this ⊢
    exact this
  | var =>
    have := statCase (.inr (.inl rfl))
    simp only [funcOp, isPure, binaryOp, Res.ok_bind, Bool.not_true, Bool.false_eq_true, if_false, reduceCtorEq] at this ⊢
    exact this

/-- C83 (rows): IDXMIN / IDXMAX give, for each row of a dense matrix with at least one column, the first position of the row's
smallest / greatest value. -/
theorem C83_row_positions (A : VT ρ) (cast : α → ρ) (less : α → α → Bool) (hl : StrictWeak less) (ofIdx junk : Nat → ρ) (x : DM α)
    (a : Mat α) (hx : x.Is a) (hc : 0 < a.cols) :
    Res.Ok (aggRowDense A cast less ofIdx junk .idxmin x) (fun z => ∃ (b : Mat ρ) (pos : Nat → Nat), z.Is b ∧ b.rows = a.rows ∧ b.cols = 1 ∧
      ∀ r, r < a.rows → b.cell r 0 = ofIdx (pos r) ∧ FirstLeast less (a.rowList r) (pos r)) ∧
    Res.Ok (aggRowDense A cast less ofIdx junk .idxmax x) (fun z => ∃ (b : Mat ρ) (pos : Nat → Nat), z.Is b ∧ b.rows = a.rows ∧ b.cols = 1 ∧
      ∀ r, r < a.rows → b.cell r 0 = ofIdx (pos r) ∧ FirstLeast (fun v w => less w v) (a.rowList r) (pos r)) := by
  have e1 : x.numRows = a.rows := hx.rows
  have main : ∀ lt : α → α → Bool, StrictWeak lt → Res.Ok (do
      let m ← forLoop 0 x.numRows (DM.create x.numRows 1 junk).mem fun r m => do
        let i ← idxRow lt x r
        m.write ((DM.create x.numRows 1 junk).addr r 0) (ofIdx i)
      (.ok ⟨(DM.create x.numRows 1 junk).h, m⟩ : Res (DM ρ))) (fun z => ∃ (b : Mat ρ) (pos : Nat → Nat), z.Is b ∧ b.rows = a.rows ∧ b.cols = 1 ∧
      ∀ r, r < a.rows → b.cell r 0 = ofIdx (pos r) ∧ FirstLeast lt (a.rowList r) (pos r)) := by
    intro lt hlt
    refine (writeRows (n := x.numRows) (by rw [create_size]; omega) (fun r v => ∃ i, v = ofIdx i ∧ FirstLeast lt (a.rowList r) i) _ ?_).bind ?_
    · intro r m hr hsz _
      obtain ⟨i, hi, hf⟩ := idxRow_ok hlt hx (r := r) (by omega) hc
      refine ⟨_, ⟨i, rfl, hf⟩, ?_⟩
      simp only [addr_col, hi, Res.ok_bind]
      rw [Buf.write_eq (by omega)]
    · rintro m ⟨h1, h2⟩
      have hch : ∀ r, ∃ i, r < a.rows → m.data r = ofIdx i ∧ FirstLeast lt (a.rowList r) i := by
        intro r
        by_cases hr : r < a.rows
        · obtain ⟨i, h⟩ := h2 r (by omega)
          exact ⟨i, fun _ => h⟩
        · exact ⟨0, fun h => absurd h hr⟩
      obtain ⟨pos, hpos⟩ := Classical.axiomOfChoice hch
      exact ⟨_, rfl, _, pos, column_is h1, e1, rfl, hpos⟩
  unfold aggRowDense
  exact ⟨by simpa using main less hl, by simpa using main _ hl.swap⟩

/-! ### Sparse -/

theorem row_perm_cast {zero : α} {K : Conv α ρ} {A : VT ρ} (hz : K.cast zero = A.zero) {x : CM α} {a : Mat α} (h : x.Is zero a) {r : Nat}
    (hr : r < a.rows) : ((a.rowList r).map K.cast).Perm ((seg x.mem.vals (x.o r) (x.o (r + 1) - x.o r)).map K.cast ++
      List.replicate (a.cols - (x.o (r + 1) - x.o r)) A.zero) := by
  have := (row_perm h hr).1.map K.cast
  rw [List.map_append, List.map_replicate, hz] at this
  exact this

theorem stored_in {x : CM α} (w : x.WF) {r : Nat} (hr : r < x.h.numRows) :
    x.o (r + 1) - x.o r = 0 ∨ x.o r + (x.o (r + 1) - x.o r) ≤ x.mem.vals.size := by
  have := w.rowTop hr
  have := w.mono r hr
  right; omega

theorem rowsSparse_ok {A : VT ρ} {K : Conv α ρ} {zero : α} (hz : K.cast zero = A.zero) {o : BinOp} {e : ρ} (hK : ExactOn A K o e)
    (hm : CMon (A.ap o) e) (hzz : A.ap o A.zero A.zero = A.zero) {safe : Bool} (hs : safe = true → o = .add ∧ e = A.zero) {junk : Nat → ρ}
    {x : CM α} {a : Mat α} (hx : x.Is zero a) :
    Res.Ok (rowsSparse A K o safe e x (DM.create x.h.numRows 1 junk)) (fun z => ∃ b, z.Is b ∧ b.rows = a.rows ∧ b.cols = 1 ∧
      ∀ r, r < a.rows → fold A o e ((a.rowList r).map K.cast) = b.cell r 0) := by
  have e1 := hx.rows; have e2 := hx.cols
  unfold rowsSparse
  refine (writeRows (n := x.h.numRows) (by rw [create_size]; omega) (fun r v => fold A o e ((a.rowList r).map K.cast) = v) _ ?_).bind ?_
  · intro r m hr hsz _
    refine ⟨_, rfl, ?_⟩
    simp only [addr_col]
    rw [hx.wf.rowNum hr, hx.wf.rowPtr (by omega)]
    simp only [Res.ok_bind]
    rw [aggAllArray_eq hK (stored_in hx.wf hr) hm]
    simp only [Res.ok_bind]
    rw [Buf.write_eq (by omega)]
    have hp := row_perm_cast hz hx (r := r) (by omega)
    congr 2
    cases safe with
    | false =>
      rw [fold_zeros hm hzz hp]
      have : decide (x.o (r + 1) - x.o r < x.h.numCols) = decide (0 < a.cols - (x.o (r + 1) - x.o r)) := by
        rw [e2]; congr 1; apply propext; omega
      rw [this]; rfl
    | true =>
      obtain ⟨rfl, rfl⟩ := hs rfl
      have := fold_safe hm hp
      unfold sumOf at this
      rw [this]; simp
  · rintro m ⟨h1, h2⟩
    exact ⟨_, rfl, _, column_is h1, e1, rfl, fun r hr => h2 r (by omega)⟩

/-- C81: in lawful arithmetic row-wise aggregation of a sparse matrix gives, for each row, the aggregate of all the row's cells
(zeros included). Mean, variance and standard deviation need at least one column. -/
theorem C81_row_sparse (A : VT ρ) (K : Conv α ρ) (zero : α) (hz : K.cast zero = A.zero)
    (junk : Nat → ρ) (x : CM α) (a : Mat α) (hx : x.Is zero a) (op : AggOp) (hA : Lawful A op) (hK : Conv.Exact A K op) (hop : op ≠ .idxmin ∧ op ≠ .idxmax)
    (hc : (op = .mean ∨ op = .var ∨ op = .stddev) → 0 < a.cols) :
    Res.Ok (aggRowSparse A K junk op x) (fun z => ∃ b, z.Is b ∧ b.rows = a.rows ∧ b.cols = 1 ∧
      ∀ r, r < a.rows → aggOf A op ((a.rowList r).map K.cast) = .ok (b.cell r 0)) := by
  have e1 := hx.rows; have e2 := hx.cols
  have hlen : ∀ r, ((a.rowList r).map K.cast).length = a.cols := fun r => by simp [Mat.rowList]
  have pureCase : ∀ (safe : Bool) (o : BinOp) (e : ρ), ExactOn A K o e → CMon (A.ap o) e → A.ap o A.zero A.zero = A.zero →
      (safe = true → o = .add ∧ e = A.zero) → (∀ l, aggOf A op l = .ok (fold A o e l)) →
      Res.Ok (rowsSparse A K o safe e x (DM.create x.h.numRows 1 junk)) (fun z => ∃ b, z.Is b ∧ b.rows = a.rows ∧ b.cols = 1 ∧
      ∀ r, r < a.rows → aggOf A op ((a.rowList r).map K.cast) = .ok (b.cell r 0)) := by
    intro safe o e hK h1 h2 h3 h4
    refine (rowsSparse_ok hz hK h1 h2 h3 hx).mono ?_
    rintro z ⟨b, g1, g2, g3, g4⟩
    exact ⟨b, g1, g2, g3, fun r hr => by rw [h4, g4 r hr]⟩
  have statCase : op = .mean ∨ op = .var ∨ op = .stddev → Res.Ok (do
      let st ← forLoop 0 x.h.numRows (0, (DM.create x.h.numRows 1 junk).mem) fun r st =>
        statRowSparse A K op x (DM.create x.h.numRows 1 junk) r st
      (.ok ⟨(DM.create x.h.numRows 1 junk).h, st.2⟩ : Res (DM ρ))) (fun z => ∃ b, z.Is b ∧ b.rows = a.rows ∧ b.cols = 1 ∧
      ∀ r, r < a.rows → aggOf A op ((a.rowList r).map K.cast) = .ok (b.cell r 0)) := by
    intro ho
    have hadd : CMon (A.ap .add) A.zero := by rcases ho with rfl | rfl | rfl <;> exact hA.mon
    have hpos := hc ho
    have l1 : Res.Ok (forLoop 0 x.h.numRows (0, (DM.create x.h.numRows 1 junk).mem) fun r st =>
        statRowSparse A K op x (DM.create x.h.numRows 1 junk) r st) (fun st => st.2.size = x.h.numRows ∧
          ∀ r, r < x.h.numRows → aggOf A op ((a.rowList r).map K.cast) = .ok (st.2.data r)) := by
      refine forLoop_post (fun i st => (op ≠ .mean → st.1 = x.o i - x.o 0) ∧ st.2.size = x.h.numRows ∧
          ∀ r, r < i → aggOf A op ((a.rowList r).map K.cast) = .ok (st.2.data r)) 0 x.h.numRows _ (Nat.zero_le _)
        ⟨fun _ => by simp, by rw [create_size]; omega, fun r h => by omega⟩ ?_ (fun st h => ⟨h.2.1, h.2.2⟩)
      rintro i ⟨ctr, m⟩ _ hi ⟨h1, h2, h3⟩
      simp only at h1 h2 h3
      have hp := row_perm_cast hz hx (r := i) (by omega)
      have hsum := fold_safe hadd hp
      unfold statRowSparse
      rw [hx.wf.rowNum hi, hx.wf.rowPtr (by omega), hx.wf.rowPtr (Nat.zero_le _)]
      simp only [Res.ok_bind]
      rw [aggAllArray_eq (show ExactOn A K .add A.zero by rcases ho with rfl | rfl | rfl <;> exact hK) (stored_in hx.wf hi) hadd]
      simp only [Res.ok_bind, Bool.not_true, Bool.false_and, Bool.false_eq_true, if_false, List.append_nil]
      have hmean : A.div (fold A .add A.zero ((seg x.mem.vals (x.o i) (x.o (i + 1) - x.o i)).map K.cast)) x.h.numCols =
          meanOf A ((a.rowList i).map K.cast) := by
        unfold meanOf
        rw [hlen, e2, hsum]; rfl
      have hmean' : meanOf A ((a.rowList i).map K.cast) = .ok (A.quot (sumOf A ((a.rowList i).map K.cast)) a.cols) := by
        unfold meanOf
        rw [hlen, div_pos hpos]
      rw [hmean, hmean']
      simp only [Res.ok_bind, addr_col]
      generalize hmv : A.quot (sumOf A ((a.rowList i).map K.cast)) a.cols = mv at *
      have fin : ∀ (ctr' : Nat) (v : ρ), (op ≠ .mean → ctr' = x.o (i + 1) - x.o 0) →
          aggOf A op ((a.rowList i).map K.cast) = .ok v →
          (op ≠ .mean → (ctr', m.put i v).1 = x.o (i + 1) - x.o 0) ∧ (ctr', m.put i v).2.size = x.h.numRows ∧
            ∀ r, r < i + 1 → aggOf A op ((a.rowList r).map K.cast) = .ok ((ctr', m.put i v).2.data r) := by
        intro ctr' v hct hv
        refine ⟨hct, h2, ?_⟩
        intro r hr
        simp only [Buf.put_data]
        by_cases e : r = i
        · rw [if_pos e, e]; exact hv
        · rw [if_neg e]; exact h3 r (by omega)
      by_cases hmn : op = .mean
      · rw [if_neg (by simpa using hmn), Buf.write_eq (by omega)]
        simp only [Res.ok_bind]
        exact ⟨_, rfl, fin _ _ (fun h => absurd hmn h) (by rw [hmn]; exact hmean')⟩
      · rw [if_pos hmn]
        have hctr := h1 hmn
        have hm1 := hx.wf.mono' (r := 0) (r' := i) (by omega) (by omega)
        have hm2 := hx.wf.mono i hi
        have hp0 : x.o 0 + ctr = x.o i := by omega
        unfold varRowSparse
        rw [hp0, squaresSparse_eq hadd mv (stored_in hx.wf hi)]
        simp only [Res.ok_bind, e2]
        rw [squares_all hadd (hA.times (ho.resolve_left hmn)) hp mv, div_pos hpos]
        simp only [Res.ok_bind]
        have hvar : varOf A ((a.rowList i).map K.cast) = .ok (A.quot (sumOf A (((a.rowList i).map K.cast).map fun y =>
            A.ap .mul (A.sub y mv) (A.sub y mv))) a.cols) := by
          unfold varOf
          rw [hmean']
          simp only [Res.ok_bind]
          rw [hlen, div_pos hpos]
        rcases ho with rfl | rfl | rfl
        · exact absurd rfl hmn
        · simp only [reduceCtorEq, if_false, Res.ok_bind]
          rw [Buf.write_eq (by omega)]
          simp only [Res.ok_bind]
          exact ⟨_, rfl, fin _ _ (fun _ => by omega) hvar⟩
        · simp only [if_true, Res.ok_bind]
          rw [Buf.write_eq (by omega)]
          simp only [Res.ok_bind]
          refine ⟨_, rfl, fin _ _ (fun _ => by omega) ?_⟩
          simp only [aggOf, hvar, Res.ok_bind]
    refine l1.bind ?_
    rintro ⟨c, m⟩ ⟨h1, h2⟩
    exact ⟨_, rfl, _, column_is h1, e1, rfl, fun r hr => h2 r (by omega)⟩
  unfold aggRowSparse
  cases op with
  | sum =>
    simp only [isPure, sparseSafe, neutral, switchOp, Res.ok_bind, Bool.not_true, Bool.false_eq_true, if_false, if_true]
    exact pureCase _ _ _ hK (show CMon (A.ap .add) A.zero from hA.mon) ((show CMon (A.ap .add) A.zero from hA.mon).unit _) (fun _ => ⟨rfl, rfl⟩) (fun _ => rfl)
  | prod =>
    simp only [isPure, sparseSafe, neutral, switchOp, Res.ok_bind, Bool.not_true, Bool.false_eq_true, if_false, if_true]
    exact pureCase _ _ _ hK (show CMon (A.ap .mul) A.one from hA.mon) hA.zeros (fun h => absurd h (by simp)) (fun _ => rfl)
  | min =>
    simp only [isPure, sparseSafe, neutral, switchOp, Res.ok_bind, Bool.not_true, Bool.false_eq_true, if_false, if_true]
    exact pureCase _ _ _ hK (show CMon (A.ap .min) A.top from hA.mon) hA.zeros (fun h => absurd h (by simp)) (fun _ => rfl)
  | max =>
    simp only [isPure, sparseSafe, neutral, switchOp, Res.ok_bind, Bool.not_true, Bool.false_eq_true, if_false, if_true]
    exact pureCase _ _ _ hK (show CMon (A.ap .max) A.bot from hA.mon) hA.zeros (fun h => absurd h (by simp)) (fun _ => rfl)
  | idxmin => exact absurd rfl hop.1
  | idxmax => exact absurd rfl hop.2
  | mean =>
    simp only [isPure, Res.ok_bind, Bool.false_eq_true, if_false]
    exact statCase (.inl rfl)
  | stddev =>
    simp only [isPure, Res.ok_bind, Bool.false_eq_true, if_false]
    exact statCase (.inr (.inr rfl))
  | var =>
    simp only [isPure, Res.ok_bind, Bool.false_eq_true, if_false]
    exact statCase (.inr (.inl rfl))

end Verif.Agg
