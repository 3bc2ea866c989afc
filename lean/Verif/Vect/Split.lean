/-
  C164: the declared splits and combines of the vectorizable operations are right: each operation, applied to blocks of rows of its
  operands, yields the corresponding rows (columns) of its result, or partial aggregates that add up to it.
-/
import Verif.Vect.Ops

namespace Verif.Vect
open Verif Verif.Dense
variable {α : Type}

theorem Same.refl (a : Mat α) : a.Same a := ⟨rfl, rfl, fun _ _ _ _ => rfl⟩

theorem Same.symm {a b : Mat α} (h : a.Same b) : b.Same a :=
  ⟨h.1.symm, h.2.1.symm, fun r c hr hc => (h.2.2 r c (by rw [h.1]; exact hr) (by rw [h.2.1]; exact hc)).symm⟩

theorem Same.trans {a b c : Mat α} (h : a.Same b) (g : b.Same c) : a.Same c :=
  ⟨h.1.trans g.1, h.2.1.trans g.2.1, fun r q hr hq => (h.2.2 r q hr hq).trans (g.2.2 r q (by rw [← h.1]; exact hr) (by rw [← h.2.1]; exact hq))⟩

/-- The rows `[r, r2)`. -/
def rowsOf (a : Mat α) (r r2 : Nat) : Mat α := ⟨r2 - r, a.cols, fun i c => a.cell (r + i) c⟩

theorem rowsOf_window (a : Mat α) (r r2 : Nat) : (rowsOf a r r2).Same (a.window r r2 0 a.cols) :=
  ⟨rfl, by simp [rowsOf, Mat.window], fun i c _ _ => by simp [rowsOf, Mat.window]⟩

/-- Which operands may be row vectors that are used for every row. -/
def VOp.broadcasts : VOp α → Nat → Bool
  | .ewBin _, 1 => true
  | _, _ => false

theorem part_rows {w : Mat α} {len r r2 : Nat} (hw : w.rows = len) (h1 : r < r2) (h2 : r2 ≤ len) :
    ((⟨w, .rows⟩ : Inp α).part r r2).Same (rowsOf w r r2) := by
  unfold Inp.part
  by_cases h : w.rows = 1
  · rw [if_pos (.inr h)]
    refine ⟨by simp [rowsOf]; omega, rfl, fun i c hi _ => ?_⟩
    have : r = 0 := by omega
    subst this
    simp [rowsOf]
  · rw [if_neg (by simp [h])]
    exact Same.symm (rowsOf_window w r r2)

theorem part_none (w : Mat α) (r r2 : Nat) : (⟨w, .none⟩ : Inp α).part r r2 = w := by unfold Inp.part; simp

theorem part_one {w : Mat α} (h : w.rows = 1) (s : Split) (r r2 : Nat) : (⟨w, s⟩ : Inp α).part r r2 = w := by unfold Inp.part; simp [h]

/-! ### Operations respect equality of matrices -/

theorem fold_congr {A : Agg.VT α} {o : Agg.BinOp} {e : α} {l l' : List α} (h : l = l') : Agg.fold A o e l = Agg.fold A o e l' := by rw [h]

theorem rowList_congr {a b : Mat α} (h : a.Same b) {r : Nat} (hr : r < a.rows) : a.rowList r = b.rowList r := by
  unfold Mat.rowList
  rw [← h.2.1]
  exact List.map_congr_left fun c hc => h.2.2 r c hr (List.mem_range.1 hc)

theorem colList_congr {a b : Mat α} (h : a.Same b) {c : Nat} (hc : c < a.cols) : a.colList c = b.colList c := by
  unfold Mat.colList
  rw [← h.1]
  exact List.map_congr_left fun r hr => h.2.2 r c (List.mem_range.1 hr) hc

theorem cells_congr {a b : Mat α} (h : a.Same b) : a.cells = b.cells := by
  unfold Mat.cells
  rw [← h.1]
  unfold List.flatMap
  congr 1
  exact List.map_congr_left fun r hr => rowList_congr h (List.mem_range.1 hr)

theorem flip_same {a b : Mat α} (h : a.Same b) (t : Bool) : (Mm.flip t a).Same (Mm.flip t b) := by
  cases t
  · exact h
  · exact ⟨h.2.1, h.1, fun r c hr hc => h.2.2 c r hc hr⟩

theorem matProd_same (A : Mm.Arith α) {a a' b b' : Mat α} (ha : a.Same a') (hb : b.Same b') (hd : a.cols = b.rows) :
    (Mm.matProd A a b).Same (Mm.matProd A a' b') := by
  refine ⟨ha.1, hb.2.1, fun r c hr hc => ?_⟩
  show Mm.dot A a.cols _ _ = Mm.dot A a'.cols _ _
  rw [← ha.2.1]
  exact Mm.dot_congr A _ (fun k hk => ha.2.2 r k hr hk) (fun k hk => hb.2.2 k c (by rw [← hd]; exact hk) hc)

theorem value_same (A : Agg.VT α) (op : VOp α) {As Bs : List (Mat α)} (h : List.Forall₂ Mat.Same As Bs) (hf : op.Fits As) :
    op.Fits Bs ∧ (op.value A As).Same (op.value A Bs) := by
  have un : ∀ {Bs : List (Mat α)} {a : Mat α}, List.Forall₂ Mat.Same [a] Bs → ∃ b, Bs = [b] ∧ a.Same b := by
    intro Bs a h
    match Bs, h with | [b], .cons h .nil => exact ⟨b, rfl, h⟩
  have bi : ∀ {Bs : List (Mat α)} {a a' : Mat α}, List.Forall₂ Mat.Same [a, a'] Bs → ∃ b b', Bs = [b, b'] ∧ a.Same b ∧ a'.Same b' := by
    intro Bs a a' h
    match Bs, h with | [b, b'], .cons h (.cons h' .nil) => exact ⟨b, b', rfl, h, h'⟩
  revert Bs h
  refine hf.cases (P := fun op As => ∀ {Bs : List (Mat α)}, List.Forall₂ Mat.Same As Bs → op.Fits Bs ∧ (op.value A As).Same (op.value A Bs))
    ?_ ?_ ?_ ?_ ?_ ?_ ?_ ?_ ?_ ?_ ?_ ?_ ?_
  · intro f a Bs h; obtain ⟨b, rfl, e⟩ := un h
    exact ⟨trivial, e.1, e.2.1, fun r c hr hc => congrArg f (e.2.2 r c hr hc)⟩
  · intro f a a' hs Bs h; obtain ⟨b, b', rfl, e, e'⟩ := bi h
    refine ⟨⟨by rw [← e'.1]; exact hs.1, by rw [← e'.2.1]; exact hs.2⟩, e.1, e.2.1, fun r c hr hc => ?_⟩
    show f (a.cell r c) (a'.cell 0 0) = f (b.cell r c) (b'.cell 0 0)
    rw [e.2.2 r c hr hc, e'.2.2 0 0 (by omega) (by omega)]
  · intro f a a' hb Bs h; obtain ⟨b, b', rfl, e, e'⟩ := bi h
    obtain ⟨e1, e2, e3⟩ := e
    obtain ⟨e1', e2', e3'⟩ := e'
    refine ⟨by show Broadcastable b b'; unfold Broadcastable at *; rw [← e1, ← e2, ← e1', ← e2']; exact hb, e1, e2, fun r c hr hc => ?_⟩
    show f (a.cell r c) (a'.cell _ _) = f (b.cell r c) (b'.cell _ _)
    change r < a.rows at hr; change c < a.cols at hc
    rw [e3 r c hr hc, ← e1', ← e2', e3' _ _ ?_ ?_]
    · unfold Broadcastable at hb; split <;> omega
    · unfold Broadcastable at hb; split <;> omega
  · intro f a a' hb Bs h; obtain ⟨b, b', rfl, e, e'⟩ := bi h
    refine ⟨⟨by rw [← e.2.1]; exact hb.1, by rw [← e'.1]; exact hb.2⟩, e.1, e'.2.1, fun r c hr hc => ?_⟩
    show f (a.cell r 0) (a'.cell 0 c) = f (b.cell r 0) (b'.cell 0 c)
    rw [e.2.2 r 0 hr (by omega), e'.2.2 0 c (by omega) hc]
  · intro k a hf Bs h; obtain ⟨b, rfl, e⟩ := un h
    exact ⟨by show 0 < b.cols; rw [← e.2.1]; exact hf, e.1, rfl, fun r c hr _ => fold_congr (rowList_congr e hr)⟩
  · intro k a hf Bs h; obtain ⟨b, rfl, e⟩ := un h
    exact ⟨by show 0 < b.rows; rw [← e.1]; exact hf, rfl, e.2.1, fun r c _ hc => fold_congr (colList_congr e hc)⟩
  · intro k a Bs h; obtain ⟨b, rfl, e⟩ := un h
    exact ⟨trivial, rfl, rfl, fun r c _ _ => fold_congr (cells_congr e)⟩
  · intro tb a a' hf Bs h; obtain ⟨b, b', rfl, e, e'⟩ := bi h
    have ef := flip_same e' tb
    exact ⟨⟨by rw [← e.2.1, ← ef.1]; exact hf.1, by rw [← e.2.1]; exact hf.2⟩, matProd_same _ e ef hf.1⟩
  · intro s a hf Bs h; obtain ⟨b, rfl, e⟩ := un h
    refine ⟨by show ∀ v ∈ s, Addresses v b.cols _; rw [← e.2.1]; exact hf, e.1, by simp [VOp.value, Mat.pickCols], fun r c hr hc => ?_⟩
    show a.cell r _ = b.cell r _
    rw [← e.2.1]
    have hc' : c < s.length := by simpa [VOp.value, Mat.pickCols] using hc
    refine e.2.2 _ _ hr ?_
    rw [List.getD_eq_getElem _ _ (by simpa using hc')]
    simp only [List.getElem_map]
    exact (hf _ (List.getElem_mem hc')).1
  · intro a Bs h; obtain ⟨b, rfl, e⟩ := un h
    exact ⟨trivial, flip_same e true⟩
  · intro a a' hf Bs h; obtain ⟨b, b', rfl, e, e'⟩ := bi h
    refine ⟨by show b.rows = b'.rows; rw [← e.1, ← e'.1]; exact hf, e.1, by simp [VOp.value, Mat.hcat, e.2.1, e'.2.1], fun r c hr hc => ?_⟩
    show (if c < a.cols then _ else _) = (if c < b.cols then _ else _)
    change r < a.rows at hr; change c < a.cols + a'.cols at hc
    rw [← e.2.1]
    split
    · exact e.2.2 _ _ hr (by assumption)
    · exact e'.2.2 _ _ (by omega) (by omega)
  · intro tl a hf Bs h; obtain ⟨b, rfl, e⟩ := un h
    have ef := flip_same e tl
    exact ⟨by show 0 < (Mm.flip tl b).cols; rw [← ef.2.1]; exact hf, matProd_same _ ef (flip_same ef true) rfl⟩
  · intro a a' hf Bs h; obtain ⟨b, b', rfl, e, e'⟩ := bi h
    exact ⟨⟨by rw [← e.1, ← e'.1]; exact hf.1, by rw [← e'.2.1]; exact hf.2.1, by rw [← e.1]; exact hf.2.2⟩,
      matProd_same _ (flip_same e true) e' hf.1.symm⟩

/-! ### Blocks of rows -/

/-- The operands of an operation on the rows `[r, r2)`. -/
def blocks (ss : List Split) (len : Nat) (ws : List (Mat α)) (r r2 : Nat) : List (Mat α) :=
  List.zipWith (fun s w => if s = .rows ∧ w.rows = len then rowsOf w r r2 else w) ss ws

/-- What is required of the operands: row-split ones have `len` rows, or one row where the operation repeats it. -/
def RowsOk (op : VOp α) (len : Nat) (ws : List (Mat α)) : Prop :=
  ∀ i s w, op.splits[i]? = some s → ws[i]? = some w → s = .rows → w.rows = len ∨ (op.broadcasts i = true ∧ w.rows = 1)

theorem dot_split {A : Agg.VT α} (hm : Agg.CMon (A.ap .add) A.zero) (k m : Nat) (f g : Nat → α) :
    Mm.dot (arith A) (k + m) f g = A.ap .add (Mm.dot (arith A) k f g) (Mm.dot (arith A) m (fun i => f (k + i)) (fun i => g (k + i))) := by
  induction m with
  | zero => exact (hm.unit _).symm
  | succ m ih =>
    show A.ap .add (Mm.dot (arith A) (k + m) f g) _ = A.ap .add _ (A.ap .add _ _)
    rw [ih, hm.assoc]; rfl

theorem colList_split (a : Mat α) {r r2 r3 : Nat} (h1 : r ≤ r2) (h2 : r2 ≤ r3) (c : Nat) :
    (rowsOf a r r3).colList c = (rowsOf a r r2).colList c ++ (rowsOf a r2 r3).colList c := by
  obtain ⟨k, rfl⟩ : ∃ k, r2 = r + k := ⟨r2 - r, by omega⟩
  obtain ⟨m, rfl⟩ : ∃ m, r3 = r + k + m := ⟨r3 - (r + k), by omega⟩
  unfold Mat.colList rowsOf
  simp only
  rw [show r + k + m - r = k + m by omega, show r + k - r = k by omega, show r + k + m - (r + k) = m by omega, List.range_add, List.map_append,
    List.map_map]
  congr 1
  refine List.map_congr_left fun i _ => ?_
  simp [Nat.add_assoc]

theorem cells_split (a : Mat α) {r r2 r3 : Nat} (h1 : r ≤ r2) (h2 : r2 ≤ r3) :
    (rowsOf a r r3).cells = (rowsOf a r r2).cells ++ (rowsOf a r2 r3).cells := by
  obtain ⟨k, rfl⟩ : ∃ k, r2 = r + k := ⟨r2 - r, by omega⟩
  obtain ⟨m, rfl⟩ : ∃ m, r3 = r + k + m := ⟨r3 - (r + k), by omega⟩
  unfold Mat.cells rowsOf Mat.rowList
  simp only
  rw [show r + k + m - r = k + m by omega, show r + k - r = k by omega, show r + k + m - (r + k) = m by omega, List.range_add,
    List.flatMap_append, List.flatMap_map]
  simp only [Nat.add_assoc]

/-- The binary operation of an aggregating combine. -/
def combOp (A : Agg.VT α) : Combine → α → α → α
  | .add => A.ap .add
  | .min => A.ap .min
  | _ => A.ap .max

theorem combOp_agg (A : Agg.VT α) (k : AggK) : combOp A k.combine = A.ap k.bin := by cases k <;> rfl

/-- What a combine promises, for the results `v` on the whole and `p r r2` on the rows `[r, r2)`. -/
def Promise (A : Agg.VT α) (c : Combine) (len : Nat) (v : Mat α) (p : Nat → Nat → Mat α) : Prop :=
  match c with
  | .rows => v.rows = len ∧ ∀ r r2, r < r2 → r2 ≤ len → (p r r2).Same (rowsOf v r r2)
  | .cols => v.cols = len ∧ ∀ r r2, r < r2 → r2 ≤ len → (p r r2).Same (v.window 0 v.rows r r2)
  | c => (p 0 len).Same v ∧ (∀ r r2, r < r2 → r2 ≤ len → (p r r2).rows = v.rows ∧ (p r r2).cols = v.cols) ∧
    ∀ r r2 r3, r < r2 → r2 < r3 → r3 ≤ len → (p r r3).Same (Mat.zip (combOp A c) (p r r2) (p r2 r3))

theorem promise_agg (A : Agg.VT α) {c : Combine} (hc : c.isAgg) {len : Nat} {v : Mat α} {p : Nat → Nat → Mat α}
    (h1 : (p 0 len).Same v) (h2 : ∀ r r2, r < r2 → r2 ≤ len → (p r r2).rows = v.rows ∧ (p r r2).cols = v.cols)
    (h3 : ∀ r r2 r3, r < r2 → r2 < r3 → r3 ≤ len → (p r r3).Same (Mat.zip (combOp A c) (p r r2) (p r2 r3))) : Promise A c len v p := by
  cases c
  · exact hc.elim
  · exact hc.elim
  all_goals exact ⟨h1, h2, h3⟩

theorem rowsOf_all {a : Mat α} {len : Nat} (h : a.rows = len) : (rowsOf a 0 len).Same a :=
  ⟨by simp [rowsOf, h], rfl, fun r c _ _ => by simp [rowsOf]⟩

theorem blocks_all (ss : List Split) (len : Nat) : ∀ (ws : List (Mat α)), ss.length = ws.length →
    List.Forall₂ Mat.Same ws (blocks ss len ws 0 len) := by
  induction ss with
  | nil => intro ws h; cases ws with
    | nil => exact .nil
    | cons => simp at h
  | cons s ss ih => intro ws h; cases ws with
    | nil => simp at h
    | cons w ws =>
      refine .cons ?_ (ih ws (by simpa using h))
      show w.Same (if _ then _ else _)
      split
      · rename_i hh; exact Same.symm (rowsOf_all hh.2)
      · exact Same.refl _

theorem blocks_one (w : Mat α) (r r2 : Nat) : blocks [.rows] w.rows [w] r r2 = [rowsOf w r r2] := by simp [blocks]

theorem blocks_two {w u : Mat α} (h : u.rows = w.rows) (r r2 : Nat) : blocks [.rows, .rows] w.rows [w, u] r r2 = [rowsOf w r r2, rowsOf u r r2] := by
  simp [blocks, h]

theorem blocks_left (w u : Mat α) (r r2 : Nat) : blocks [.rows, .none] w.rows [w, u] r r2 = [rowsOf w r r2, u] := by simp [blocks]

theorem blocks_vec {w u : Mat α} (h : u.rows ≠ w.rows) (r r2 : Nat) : blocks [.rows, .rows] w.rows [w, u] r r2 = [rowsOf w r r2, u] := by
  simp [blocks, h]

theorem fits_length {op : VOp α} {ws : List (Mat α)} (hf : op.Fits ws) : op.splits.length = ws.length :=
  hf.cases (P := fun op ws => op.splits.length = ws.length) (fun _ _ => rfl) (fun _ _ _ _ => rfl) (fun _ _ _ _ => rfl) (fun _ _ _ _ => rfl)
    (fun _ _ _ => rfl) (fun _ _ _ => rfl) (fun _ _ => rfl) (fun _ _ _ _ => rfl) (fun _ _ _ => rfl) (fun _ => rfl) (fun _ _ _ => rfl)
    (fun _ _ _ => rfl) (fun _ _ _ => rfl)

/-- `X @ t(X)` is declared to be summed up over blocks of rows of `X`; this is wrong, see C166. -/
def VOp.isXXt : VOp α → Prop
  | .syrk false => True
  | _ => False

theorem blocks_promise {A : Agg.VT α} (hA : Laws A) (op : VOp α) {len : Nat} {ws : List (Mat α)} (hf : op.Fits ws) (hr : RowsOk op len ws)
    (hs : ¬ op.isXXt) : (∀ r r2, r < r2 → r2 ≤ len → op.Fits (blocks op.splits len ws r r2)) ∧
      (0 < len → Promise A op.combine len (op.value A ws) fun r r2 => op.value A (blocks op.splits len ws r r2)) := by
  have hall : (op.value A (blocks op.splits len ws 0 len)).Same (op.value A ws) :=
    Same.symm (value_same A op (blocks_all _ len ws (fits_length hf)) hf).2
  revert hr hs hall
  refine hf.cases (P := fun op ws => RowsOk op len ws → ¬ op.isXXt → (op.value A (blocks op.splits len ws 0 len)).Same (op.value A ws) →
    (∀ r r2, r < r2 → r2 ≤ len → op.Fits (blocks op.splits len ws r r2)) ∧
      (0 < len → Promise A op.combine len (op.value A ws) fun r r2 => op.value A (blocks op.splits len ws r r2)))
    ?_ ?_ ?_ ?_ ?_ ?_ ?_ ?_ ?_ ?_ ?_ ?_ ?_
  · intro f a hr _ _
    obtain rfl : a.rows = len := by simpa [VOp.broadcasts] using hr 0 .rows a rfl rfl rfl
    simp only [VOp.splits, blocks_one]
    exact ⟨fun _ _ _ _ => trivial, fun _ => ⟨rfl, fun r r2 _ _ => ⟨rfl, rfl, fun _ _ _ _ => rfl⟩⟩⟩
  · intro f a s hs hr _ _
    obtain rfl : a.rows = len := by simpa [VOp.broadcasts] using hr 0 .rows a rfl rfl rfl
    simp only [VOp.splits, blocks_left]
    exact ⟨fun _ _ _ _ => hs, fun _ => ⟨rfl, fun r r2 _ _ => ⟨rfl, rfl, fun _ _ _ _ => rfl⟩⟩⟩
  · intro f a b hb hr _ _
    obtain rfl : a.rows = len := by simpa [VOp.broadcasts] using hr 0 .rows a rfl rfl rfl
    simp only [VOp.splits]
    by_cases he : b.rows = a.rows
    · simp only [blocks_two he]
      refine ⟨fun r r2 h1 h2 => ?_, fun hp => ⟨rfl, fun r r2 h1 h2 => ⟨rfl, rfl, fun i c hi hc => ?_⟩⟩⟩
      · show Broadcastable (rowsOf a r r2) (rowsOf b r r2)
        unfold Broadcastable at hb ⊢
        simp only [rowsOf, true_and]
        omega
      · show f (a.cell (r + i) c) (b.cell (r + if r2 - r = 1 then 0 else i) (if b.cols = 1 then 0 else c)) =
          f (a.cell (r + i) c) (b.cell (if b.rows = 1 then 0 else r + i) (if b.cols = 1 then 0 else c))
        change i < r2 - r at hi
        have e : (r + if r2 - r = 1 then 0 else i) = (if b.rows = 1 then 0 else r + i) := by split <;> split <;> omega
        rw [e]
    · have hb1 : b.rows = 1 := by unfold Broadcastable at hb; omega
      simp only [blocks_vec he]
      refine ⟨fun r r2 h1 h2 => ?_, fun hp => ⟨rfl, fun r r2 h1 h2 => ⟨rfl, rfl, fun i c hi hc => ?_⟩⟩⟩
      · show Broadcastable (rowsOf a r r2) b
        unfold Broadcastable at hb ⊢
        simp only [rowsOf]
        omega
      · show f (a.cell (r + i) c) (b.cell (if b.rows = 1 then 0 else i) _) = f (a.cell (r + i) c) (b.cell (if b.rows = 1 then 0 else r + i) _)
        rw [hb1]; rfl
  · intro f a b hb hr _ _
    obtain rfl : a.rows = len := by simpa [VOp.broadcasts] using hr 0 .rows a rfl rfl rfl
    simp only [VOp.splits, blocks_left]
    exact ⟨fun _ _ _ _ => hb, fun _ => ⟨rfl, fun r r2 _ _ => ⟨rfl, rfl, fun _ _ _ _ => rfl⟩⟩⟩
  · intro k a hc hr _ _
    obtain rfl : a.rows = len := by simpa [VOp.broadcasts] using hr 0 .rows a rfl rfl rfl
    simp only [VOp.splits, blocks_one]
    exact ⟨fun _ _ _ _ => hc, fun _ => ⟨rfl, fun r r2 _ _ => ⟨rfl, rfl, fun _ _ _ _ => rfl⟩⟩⟩
  · intro k a hc hr _ hall
    obtain rfl : a.rows = len := by simpa [VOp.broadcasts] using hr 0 .rows a rfl rfl rfl
    simp only [VOp.splits, blocks_one] at hall ⊢
    refine ⟨fun r r2 _ _ => by show 0 < r2 - r; omega, fun _ => promise_agg A (by cases k <;> trivial) hall (fun r r2 _ _ => ⟨rfl, rfl⟩)
      fun r r2 r3 h1 h2 h3 => ⟨rfl, rfl, fun i c _ _ => ?_⟩⟩
    show Agg.fold A k.bin (k.unit A) ((rowsOf a r r3).colList c) = combOp A k.combine _ _
    rw [combOp_agg, colList_split a (Nat.le_of_lt h1) (Nat.le_of_lt h2)]
    exact (hA.mon k).foldr_append _ _
  · intro k a hr _ hall
    obtain rfl : a.rows = len := by simpa [VOp.broadcasts] using hr 0 .rows a rfl rfl rfl
    simp only [VOp.splits, blocks_one] at hall ⊢
    refine ⟨fun r r2 _ _ => trivial, fun _ => promise_agg A (by cases k <;> trivial) hall (fun r r2 _ _ => ⟨rfl, rfl⟩)
      fun r r2 r3 h1 h2 h3 => ⟨rfl, rfl, fun i c _ _ => ?_⟩⟩
    show Agg.fold A k.bin (k.unit A) (rowsOf a r r3).cells = combOp A k.combine _ _
    rw [combOp_agg, cells_split a (Nat.le_of_lt h1) (Nat.le_of_lt h2)]
    exact (hA.mon k).foldr_append _ _
  · intro tb a b hf hr _ _
    obtain rfl : a.rows = len := by simpa [VOp.broadcasts] using hr 0 .rows a rfl rfl rfl
    simp only [VOp.splits, blocks_left]
    exact ⟨fun _ _ _ _ => hf, fun _ => ⟨rfl, fun r r2 _ _ => ⟨rfl, rfl, fun _ _ _ _ => rfl⟩⟩⟩
  · intro s a hf hr _ _
    obtain rfl : a.rows = len := by simpa [VOp.broadcasts] using hr 0 .rows a rfl rfl rfl
    simp only [VOp.splits, blocks_one]
    exact ⟨fun _ _ _ _ => hf, fun _ => ⟨rfl, fun r r2 _ _ => ⟨rfl, rfl, fun _ _ _ _ => rfl⟩⟩⟩
  · intro a hr _ _
    obtain rfl : a.rows = len := by simpa [VOp.broadcasts] using hr 0 .rows a rfl rfl rfl
    simp only [VOp.splits, blocks_one]
    exact ⟨fun _ _ _ _ => trivial, fun _ => ⟨rfl, fun r r2 _ _ => ⟨rfl, rfl, fun i c _ _ => by
      show a.cell (r + c) i = a.cell (r + c) (0 + i); rw [Nat.zero_add]⟩⟩⟩
  · intro a b hf hr _ _
    obtain rfl : a.rows = len := by simpa [VOp.broadcasts] using hr 0 .rows a rfl rfl rfl
    simp only [VOp.splits, blocks_two hf.symm]
    exact ⟨fun _ _ _ _ => rfl, fun _ => ⟨rfl, fun r r2 _ _ => ⟨rfl, rfl, fun _ _ _ _ => rfl⟩⟩⟩
  · intro tl a hf hr hs hall
    obtain rfl : a.rows = len := by simpa [VOp.broadcasts] using hr 0 .rows a rfl rfl rfl
    cases tl with
    | false => exact absurd trivial hs
    | true =>
    simp only [VOp.splits, blocks_one] at hall ⊢
    refine ⟨fun r r2 _ _ => by show 0 < r2 - r; omega, fun _ => promise_agg A (c := .add) trivial hall (fun r r2 _ _ => ⟨rfl, rfl⟩)
      fun r r2 r3 h1 h2 h3 => ⟨rfl, rfl, fun i c _ _ => ?_⟩⟩
    show Mm.dot (arith A) (r3 - r) (fun k => a.cell (r + k) i) (fun k => a.cell (r + k) c) =
      A.ap .add (Mm.dot (arith A) (r2 - r) (fun k => a.cell (r + k) i) (fun k => a.cell (r + k) c))
        (Mm.dot (arith A) (r3 - r2) (fun k => a.cell (r2 + k) i) (fun k => a.cell (r2 + k) c))
    rw [show r3 - r = (r2 - r) + (r3 - r2) by omega, dot_split hA.sum.mon]
    congr 1
    refine Mm.dot_congr _ _ (fun k _ => ?_) (fun k _ => ?_) <;> rw [show r + (r2 - r + k) = r2 + k by omega]
  · intro a b hf hr _ hall
    obtain rfl : a.rows = len := by simpa [VOp.broadcasts] using hr 0 .rows a rfl rfl rfl
    simp only [VOp.splits, blocks_two hf.1] at hall ⊢
    refine ⟨fun r r2 _ _ => ⟨rfl, hf.2.1, by show 0 < r2 - r; omega⟩, fun _ => promise_agg A (c := .add) trivial hall (fun r r2 _ _ => ⟨rfl, rfl⟩)
      fun r r2 r3 h1 h2 h3 => ⟨rfl, rfl, fun i c _ _ => ?_⟩⟩
    show Mm.dot (arith A) (r3 - r) (fun k => a.cell (r + k) i) (fun k => b.cell (r + k) c) =
      A.ap .add (Mm.dot (arith A) (r2 - r) (fun k => a.cell (r + k) i) (fun k => b.cell (r + k) c))
        (Mm.dot (arith A) (r3 - r2) (fun k => a.cell (r2 + k) i) (fun k => b.cell (r2 + k) c))
    rw [show r3 - r = (r2 - r) + (r3 - r2) by omega, dot_split hA.sum.mon]
    congr 1
    refine Mm.dot_congr _ _ (fun k _ => ?_) (fun k _ => ?_) <;> rw [show r + (r2 - r + k) = r2 + k by omega]

theorem forall₂_symm {l m : List (Mat α)} (h : List.Forall₂ Mat.Same l m) : List.Forall₂ Mat.Same m l := by
  induction h with
  | nil => exact .nil
  | cons h _ ih => exact .cons (Same.symm h) ih

theorem promise_congr {A : Agg.VT α} {c : Combine} {len : Nat} {v : Mat α} {p q : Nat → Nat → Mat α} (h : Promise A c len v p) (hl : 0 < len)
    (hq : ∀ r r2, r < r2 → r2 ≤ len → (q r r2).Same (p r r2)) : Promise A c len v q := by
  have zs : ∀ (f : α → α → α) {a a' b b' : Mat α}, a.Same a' → b.Same b' → b.rows = a.rows → b.cols = a.cols → (Mat.zip f a b).Same (Mat.zip f a' b') := by
    intro f a a' b b' h1 h2 e1 e2
    exact ⟨h1.1, h1.2.1, fun r c hr hc => by
      show f _ _ = f _ _
      rw [h1.2.2 r c hr hc, h2.2.2 r c (by rw [e1]; exact hr) (by rw [e2]; exact hc)]⟩
  have agg : c.isAgg → (p 0 len).Same v → (∀ r r2, r < r2 → r2 ≤ len → (p r r2).rows = v.rows ∧ (p r r2).cols = v.cols) →
      (∀ r r2 r3, r < r2 → r2 < r3 → r3 ≤ len → (p r r3).Same (Mat.zip (combOp A c) (p r r2) (p r2 r3))) → Promise A c len v q := by
    intro hc h1 h2 h3
    refine promise_agg A hc (Same.trans (hq 0 len hl (Nat.le_refl _)) h1) (fun r r2 h4 h5 => ?_) fun r r2 r3 h4 h5 h6 => ?_
    · have := hq r r2 h4 h5
      rw [this.1, this.2.1]; exact h2 r r2 h4 h5
    · have d1 := h2 r r2 h4 (by omega)
      have d2 := h2 r2 r3 h5 h6
      refine Same.trans (Same.trans (hq r r3 (by omega) h6) (h3 r r2 r3 h4 h5 h6)) (zs _ (Same.symm (hq r r2 h4 (by omega))) (Same.symm (hq r2 r3 h5 h6)) ?_ ?_)
      · rw [d1.1, d2.1]
      · rw [d1.2, d2.2]
  cases c with
  | rows => exact ⟨h.1, fun r r2 h1 h2 => Same.trans (hq r r2 h1 h2) (h.2 r r2 h1 h2)⟩
  | cols => exact ⟨h.1, fun r r2 h1 h2 => Same.trans (hq r r2 h1 h2) (h.2 r r2 h1 h2)⟩
  | add => exact agg trivial h.1 h.2.1 h.2.2
  | min => exact agg trivial h.1 h.2.1 h.2.2
  | max => exact agg trivial h.1 h.2.1 h.2.2

/-! ### C164 -/

/-- The operands as inputs of a pipeline, split as the operation declares. -/
def VOp.inputs (op : VOp α) (ws : List (Mat α)) : List (Inp α) := List.zipWith Inp.mk ws op.splits

/-- What a combine means for the result of one operation. -/
def CombineRight (A : Agg.VT α) (op : VOp α) (len : Nat) (ws : List (Mat α)) : Prop :=
  match op.combine with
  | .rows => RowWise (fun ms _ => op.value A ms) (op.inputs ws) len 0
  | .cols => ColWise (fun ms _ => op.value A ms) (op.inputs ws) len 0
  | .add => Aggregates (fun ms _ => op.value A ms) (op.inputs ws) len 0 (A.ap .add)
  | .min => Aggregates (fun ms _ => op.value A ms) (op.inputs ws) len 0 (A.ap .min)
  | .max => Aggregates (fun ms _ => op.value A ms) (op.inputs ws) len 0 (A.ap .max)

theorem parts_blocks {len r r2 : Nat} (h1 : r < r2) (h2 : r2 ≤ len) : ∀ (ss : List Split) (ws : List (Mat α)),
    (∀ (i : Nat) (s : Split) (w : Mat α), ss[i]? = some s → ws[i]? = some w → s = .rows → w.rows = len ∨ w.rows = 1) →
    List.Forall₂ Mat.Same ((List.zipWith Inp.mk ws ss).map (·.part r r2)) (blocks ss len ws r r2)
  | [], ws, _ => by simp [blocks]
  | _ :: _, [], _ => by simp [blocks]
  | s :: ss, w :: ws, h => by
    refine .cons ?_ (parts_blocks h1 h2 ss ws fun i s w hi hw => h (i + 1) s w (by simpa using hi) (by simpa using hw))
    have h0 := h 0 s w rfl rfl
    show ((⟨w, s⟩ : Inp α).part r r2).Same (if s = .rows ∧ w.rows = len then rowsOf w r r2 else w)
    by_cases hs : s = .rows
    · subst hs
      by_cases hl : w.rows = len
      · rw [if_pos ⟨rfl, hl⟩]; exact part_rows hl h1 h2
      · rw [if_neg (by simp [hl]), part_one (by have := h0 rfl; omega)]; exact Same.refl _
    · have : s = .none := by cases s; rfl; exact absurd rfl hs
      subst this
      rw [if_neg (by simp), part_none]; exact Same.refl _

theorem inputs_mats : ∀ (ss : List Split) (ws : List (Mat α)), ss.length = ws.length → (List.zipWith Inp.mk ws ss).map (·.mat) = ws
  | [], [], _ => rfl
  | s :: ss, w :: ws, h => by simp [inputs_mats ss ws (by simpa using h)]
  | [], _ :: _, h => by simp at h
  | _ :: _, [], h => by simp at h

/-- C164. The declared splits, combines and output sizes are right: for each vectorizable operation (except `X @ t(X)`, C166) and all
operands of suitable shapes, the operation applied to a block of rows of its split operands yields these rows (columns) of the whole
result, or partial aggregates from which the whole result is obtained by the declared combination; the kernel, called on any such block,
computes this; and the declared output size is that of the whole result. -/
theorem C164_declared_splits_and_combines {A : Agg.VT α} (hA : Laws A) (less : α → α → Bool) (ofIdx : Nat → α) (blas : Bool) (junk : Nat → α)
    (op : VOp α) {len : Nat} (hlen : 0 < len) {ws : List (Mat α)} (hf : op.Fits ws) (hr : RowsOk op len ws) (hs : ¬ op.isXXt) :
    CombineRight A op len ws ∧
    (∀ r r2, r < r2 → r2 ≤ len → ∀ xs, List.Forall₂ DM.Is xs ((op.inputs ws).map (·.part r r2)) →
      Res.Ok (op.exec A less ofIdx blas junk xs) fun z => z.Is (op.value A ((op.inputs ws).map (·.part r r2)))) ∧
    op.outSize (ws.map fun a => (a.rows, a.cols)) = ((op.value A ws).rows, (op.value A ws).cols) := by
  obtain ⟨b1, b2⟩ := blocks_promise hA op hf hr hs
  have hrw : ∀ (i : Nat) (s : Split) (w : Mat α), op.splits[i]? = some s → ws[i]? = some w → s = .rows → w.rows = len ∨ w.rows = 1 :=
    fun i s w h1 h2 h3 => (hr i s w h1 h2 h3).imp id And.right
  have hpb := fun r r2 (h1 : r < r2) (h2 : r2 ≤ len) => parts_blocks h1 h2 op.splits ws hrw
  have hfit : ∀ r r2, r < r2 → r2 ≤ len → op.Fits ((op.inputs ws).map (·.part r r2)) := fun r r2 h1 h2 =>
    (value_same A op (forall₂_symm (hpb r r2 h1 h2)) (b1 r r2 h1 h2)).1
  have hp := promise_congr (b2 hlen) hlen (q := fun r r2 => op.value A ((op.inputs ws).map (·.part r r2))) fun r r2 h1 h2 =>
    Same.symm (value_same A op (forall₂_symm (hpb r r2 h1 h2)) (b1 r r2 h1 h2)).2
  refine ⟨?_, fun r r2 h1 h2 xs hx => exec_ok hA less ofIdx blas junk op hx (hfit r r2 h1 h2), outSize_ok A op hf⟩
  have hm : (op.inputs ws).map (·.mat) = ws := inputs_mats _ _ (fits_length hf)
  unfold CombineRight RowWise ColWise Aggregates onRows
  simp only [hm]
  revert hp
  cases op.combine with
  | rows => intro hp; exact ⟨hp.1, fun r r2 h1 h2 => Same.trans (hp.2 r r2 h1 h2) (rowsOf_window _ _ _)⟩
  | cols => intro hp; exact hp
  | add => intro hp; exact hp
  | min => intro hp; exact hp
  | max => intro hp; exact hp

end Verif.Vect
