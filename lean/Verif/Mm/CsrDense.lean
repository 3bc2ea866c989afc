/-
  Model of the sparse × dense matrix multiplication, src/runtime/local/kernels/MatMul.h:57-250 (three variants, two of them
  multi-threaded through OpenMP), and the proof that every execution of every variant yields the matrix product.
  Simplifications: the result is allocated by the kernel (`res == nullptr`); one multiply-add (read two inputs, read and write one result
  cell) is one step of a thread (see `C154_no_races` for why this granularity suffices).
-/
import Verif.Mm.Spec
import Verif.Csr.EwProps
import Verif.Dense.Lemmas

namespace Verif.Mm
open Verif Verif.Csr
variable {α : Type}

/-- `enum class SpMatMulVariant`, MatMul.h:57. -/
inductive Variant
  | rowWise | parallel | blocked
  deriving DecidableEq

/-- One execution of the innermost statement `valuesRes[rowIdxRes + j] += rowValues[i] * valuesRhs[rowIdxRhs + j]`, MatMul.h:83, 115, 153:
row `r` of the result, stored entry number `i` of the left-hand side, column `j`. -/
structure Step where
  r : Nat
  i : Nat
  j : Nat
  deriving DecidableEq

/-- MatMul.h:78-84: the effect of one step. -/
def mulAddStep (A : Arith α) (x : CM α) (y res : Dense.DM α) (s : Step) (m : Buf α) : Res (Buf α) := do
  let c ← x.mem.cols.read s.i
  let v ← x.mem.vals.read s.i
  let w ← y.mem.read (y.addr c s.j)
  let old ← m.read (res.addr s.r s.j)
  m.write (res.addr s.r s.j) (A.add old (A.mul v w))

/-- MatMul.h:72-86: the steps for row `r`, in order. -/
def rowSteps (x : CM α) (n r : Nat) : Res (List Step) := do
  let k ← x.h.rowNumNonZeros x.mem r
  let b ← x.h.rowPtr x.mem r
  .ok ((List.range' b k).flatMap fun i => (List.range n).map fun j => ⟨r, i, j⟩)

/-- `for (r : rows) …`: the steps of a sequential loop over the given rows. -/
def stepsOf (x : CM α) (n : Nat) : List Nat → Res (List Step)
  | [] => .ok []
  | r :: rs => do
    let s ← rowSteps x n r
    let t ← stepsOf x n rs
    .ok (s ++ t)

/-- MatMul.h:139-142: the row ranges of the loop `for (blockStart = 0; blockStart < nr1; blockStart += blockSize)`; the first argument
bounds the number of iterations (`nr1` suffices). -/
def blocksFrom (nr bs : Nat) : Nat → Nat → List (List Nat)
  | 0, _ => []
  | fuel + 1, start => if start < nr then List.range' start (min (start + bs) nr - start) :: blocksFrom nr bs fuel (start + bs) else []

/-- Which rows each thread processes, in order: all rows in one thread (MatMul.h:71), one loop iteration per row (MatMul.h:101-102), one
loop iteration per block of 64 rows (MatMul.h:125, 138-142). OpenMP may run several iterations in one thread; that is a special case
of an interleaving. -/
def threadRows (v : Variant) (nr : Nat) : List (List Nat) :=
  match v with
  | .rowWise => [List.range nr]
  | .parallel => (List.range nr).map fun r => [r]
  | .blocked => blocksFrom nr 64 nr 0

/-- The step sequences of all threads. -/
def threadSteps (x : CM α) (n : Nat) : List (List Nat) → Res (List (List Step))
  | [] => .ok []
  | rs :: rest => do
    let s ← stepsOf x n rs
    let t ← threadSteps x n rest
    .ok (s :: t)

/-- Execute steps one after the other. -/
def runSteps (A : Arith α) (x : CM α) (y res : Dense.DM α) : List Step → Buf α → Res (Buf α)
  | [], m => .ok m
  | s :: S, m => mulAddStep A x y res s m >>= runSteps A x y res S

/-- MatMul.h:205-249 with the threads' steps executed in the order `S`. -/
def csrDense (A : Arith α) (x : CM α) (y : Dense.DM α) (junk : Nat → α) (S : List Step) : Res (Dense.DM α) :=
  if x.h.numCols ≠ y.h.numRows then .error (.throw "#cols of lhs and #rows of rhs must be the same")
  else do
    let res := Dense.DM.create x.h.numRows y.h.numCols junk
    let m ← res.mem.fill 0 (x.h.numRows * y.h.numCols) A.zero
    let m ← runSteps A x y res S m
    .ok ⟨res.h, m⟩

/-! ### The steps -/

/-- The steps of row `r` in terms of the row's offsets. -/
def rowList (x : CM α) (n r : Nat) : List Step :=
  (List.range' (x.o r) (x.o (r + 1) - x.o r)).flatMap fun i => (List.range n).map fun j => ⟨r, i, j⟩

theorem rowSteps_ok {x : CM α} (w : x.WF) (n : Nat) {r : Nat} (hr : r < x.h.numRows) : rowSteps x n r = .ok (rowList x n r) := by
  unfold rowSteps
  rw [w.rowNum hr, w.rowPtr (by omega)]
  rfl

theorem stepsOf_ok {x : CM α} (w : x.WF) (n : Nat) : ∀ (rs : List Nat), (∀ r ∈ rs, r < x.h.numRows) →
    stepsOf x n rs = .ok (rs.flatMap (rowList x n))
  | [], _ => rfl
  | r :: rs, h => by
    rw [stepsOf, rowSteps_ok w n (h r (by simp)), stepsOf_ok w n rs fun r' hr' => h r' (by simp [hr'])]
    rfl

theorem threadSteps_ok {x : CM α} (w : x.WF) (n : Nat) : ∀ (ts : List (List Nat)), (∀ t ∈ ts, ∀ r ∈ t, r < x.h.numRows) →
    threadSteps x n ts = .ok (ts.map fun rs => rs.flatMap (rowList x n))
  | [], _ => rfl
  | t :: ts, h => by
    rw [threadSteps, stepsOf_ok w n t (h t (by simp)), threadSteps_ok w n ts fun t' ht' => h t' (by simp [ht'])]
    rfl

/-- The rows are distributed over the threads: each row belongs to exactly one thread and occurs there once. -/
def Partition (nr lo : Nat) (ts : List (List Nat)) : Prop :=
  (∀ t ∈ ts, ∀ r ∈ t, lo ≤ r ∧ r < nr) ∧
  ∀ r, lo ≤ r → r < nr → ∃ (k : Nat) (t : List Nat), ts[k]? = some t ∧ t.filter (fun q => decide (q = r)) = [r] ∧ ∀ (i : Nat) (u : List Nat), ts[i]? = some u → i ≠ k → r ∉ u

theorem filter_eq_of_nodup {l : List Nat} (hn : l.Nodup) {r : Nat} (hr : r ∈ l) : l.filter (fun q => decide (q = r)) = [r] := by
  induction l with
  | nil => cases hr
  | cons a l ih =>
    rw [List.nodup_cons] at hn
    rcases List.mem_cons.1 hr with rfl | h
    · rw [List.filter_cons, if_pos (by simp)]
      have : l.filter (fun q => decide (q = r)) = [] := by
        rw [List.filter_eq_nil_iff]
        intro q hq; simp only [decide_eq_true_eq]; rintro rfl; exact hn.1 hq
      rw [this]
    · rw [List.filter_cons, if_neg (by simp only [decide_eq_true_eq]; rintro rfl; exact hn.1 h)]
      exact ih hn.2 h

theorem blocks_partition (nr bs : Nat) (hb : 0 < bs) : ∀ (fuel start : Nat), nr ≤ start + fuel → Partition nr start (blocksFrom nr bs fuel start)
  | 0, start, hf => ⟨by simp [blocksFrom], fun r h1 h2 => by omega⟩
  | fuel + 1, start, hf => by
    unfold blocksFrom
    by_cases hs : start < nr
    · rw [if_pos hs]
      obtain ⟨i1, i2⟩ := blocks_partition nr bs hb fuel (start + bs) (by omega)
      have hmem : ∀ r, r ∈ List.range' start (min (start + bs) nr - start) ↔ start ≤ r ∧ r < start + bs ∧ r < nr := by
        intro r; rw [List.mem_range'_1]; omega
      refine ⟨?_, ?_⟩
      · intro t ht r hr
        rcases List.mem_cons.1 ht with rfl | ht
        · rw [hmem] at hr; omega
        · have := i1 t ht r hr; omega
      · intro r h1 h2
        by_cases hlt : r < start + bs
        · refine ⟨0, _, rfl, filter_eq_of_nodup List.nodup_range' ((hmem r).2 ⟨h1, hlt, h2⟩), ?_⟩
          intro i u hu hi hru
          obtain ⟨i, rfl⟩ : ∃ k, i = k + 1 := ⟨i - 1, by omega⟩
          rw [List.getElem?_cons_succ] at hu
          have := (i1 u (List.mem_of_getElem? hu) r hru).1
          omega
        · obtain ⟨k, t, k1, k2, k3⟩ := i2 r (by omega) h2
          refine ⟨k + 1, t, by rw [List.getElem?_cons_succ]; exact k1, k2, ?_⟩
          intro i u hu hi hru
          cases i with
          | zero =>
            rw [List.getElem?_cons_zero] at hu
            cases hu
            rw [hmem] at hru; omega
          | succ i =>
            rw [List.getElem?_cons_succ] at hu
            exact k3 i u hu (by omega) hru
    · rw [if_neg hs]
      exact ⟨by simp, fun r h1 h2 => by omega⟩

theorem threadRows_partition (v : Variant) (nr : Nat) : Partition nr 0 (threadRows v nr) := by
  cases v with
  | rowWise =>
    refine ⟨?_, fun r _ h2 => ⟨0, _, rfl, filter_eq_of_nodup List.nodup_range (List.mem_range.2 h2), ?_⟩⟩
    · intro t ht r hr
      simp only [threadRows, List.mem_singleton] at ht
      subst ht
      exact ⟨Nat.zero_le _, List.mem_range.1 hr⟩
    · intro i u hu hi
      obtain ⟨i, rfl⟩ : ∃ k, i = k + 1 := ⟨i - 1, by omega⟩
      simp [threadRows] at hu
  | parallel =>
    refine ⟨?_, fun r _ h2 => ⟨r, [r], by simp [threadRows, h2], by simp, ?_⟩⟩
    · intro t ht r hr
      simp only [threadRows, List.mem_map, List.mem_range] at ht
      obtain ⟨q, hq, rfl⟩ := ht
      rw [List.mem_singleton] at hr; omega
    · intro i u hu hi hru
      simp only [threadRows, List.getElem?_map, Option.map_eq_some_iff] at hu
      obtain ⟨q, hq, rfl⟩ := hu
      rw [List.mem_singleton] at hru
      obtain ⟨h1, h2⟩ := List.getElem?_eq_some_iff.1 hq
      rw [List.getElem_range] at h2
      omega
  | blocked => exact blocks_partition nr 64 (by omega) nr 0 (by omega)

/-- The steps of a thread that concern result cell `(r, j)`. -/
def hits (r j : Nat) (s : Step) : Bool := decide (s.r = r) && decide (s.j = j)

theorem rowList_filter_ne {x : CM α} {n r r' j : Nat} (h : r' ≠ r) : (rowList x n r').filter (hits r j) = [] := by
  rw [List.filter_eq_nil_iff]
  intro s hs
  simp only [rowList, List.mem_flatMap, List.mem_map] at hs
  obtain ⟨i, _, j', _, rfl⟩ := hs
  simp [hits, h]

theorem rowList_filter {x : CM α} {n r j : Nat} (hj : j < n) :
    (rowList x n r).filter (hits r j) = (List.range' (x.o r) (x.o (r + 1) - x.o r)).map fun i => ⟨r, i, j⟩ := by
  unfold rowList
  induction List.range' (x.o r) (x.o (r + 1) - x.o r) with
  | nil => rfl
  | cons i l ih =>
    rw [List.flatMap_cons, List.filter_append, ih, List.map_cons]
    have : ((List.range n).map fun j => (⟨r, i, j⟩ : Step)).filter (hits r j) = [⟨r, i, j⟩] := by
      rw [List.filter_map]
      have e : (hits r j ∘ fun j => (⟨r, i, j⟩ : Step)) = fun q => decide (q = j) := by
        funext q; simp [hits]
      rw [e, filter_eq_of_nodup List.nodup_range (List.mem_range.2 hj)]
      rfl
    rw [this]; rfl

theorem thread_filter {x : CM α} {n r j : Nat} (hj : j < n) : ∀ {t : List Nat}, t.filter (fun q => decide (q = r)) = [r] →
    (t.flatMap (rowList x n)).filter (hits r j) = (List.range' (x.o r) (x.o (r + 1) - x.o r)).map fun i => ⟨r, i, j⟩ := by
  have gen : ∀ t : List Nat, (t.flatMap (rowList x n)).filter (hits r j) =
      (t.filter (fun q => decide (q = r))).flatMap fun r' => (rowList x n r').filter (hits r j) := by
    intro t
    induction t with
    | nil => rfl
    | cons a t ih =>
      rw [List.flatMap_cons, List.filter_append, ih, List.filter_cons]
      by_cases e : a = r
      · subst e; rw [if_pos (by simp)]; rfl
      · rw [if_neg (by simp [e]), rowList_filter_ne e]; rfl
  intro t ht
  rw [gen, ht]
  simp [rowList_filter hj]

/-- Steps that the kernel can perform. -/
def Valid (x : CM α) (n : Nat) (s : Step) : Prop := s.r < x.h.numRows ∧ x.o s.r ≤ s.i ∧ s.i < x.o (s.r + 1) ∧ s.j < n

theorem rowList_valid {x : CM α} {n r : Nat} (hr : r < x.h.numRows) : ∀ s ∈ rowList x n r, Valid x n s ∧ s.r = r := by
  intro s hs
  simp only [rowList, List.mem_flatMap, List.mem_map, List.mem_range, List.mem_range'_1] at hs
  obtain ⟨i, hi, j, hj, rfl⟩ := hs
  exact ⟨⟨hr, hi.1, by simp only; omega, hj⟩, rfl⟩

/-! ### Execution -/

theorem runSteps_ok (A : Arith α) {x : CM α} {y : Dense.DM α} {a b : Mat α} (hx : x.Is A.zero a) (hy : y.Is b) (hd : a.cols = b.rows)
    (junk : Nat → α) : ∀ (S : List Step) (m : Buf α), (∀ s ∈ S, Valid x b.cols s) → m.size = a.rows * b.cols →
    Res.Ok (runSteps A x y (Dense.DM.create a.rows b.cols junk) S m) (fun m' => m'.size = a.rows * b.cols ∧
      ∀ r j, r < a.rows → j < b.cols → m'.data (r * b.cols + j) =
        (S.filter (hits r j)).foldl (fun acc s => A.add acc (A.mul (x.mem.vals.data s.i) (b.cell (x.mem.cols.data s.i) j))) (m.data (r * b.cols + j)))
  | [], m, _, hs => Res.ok_iff.2 ⟨hs, fun _ _ _ _ => rfl⟩
  | s :: S, m, hv, hs => by
    have e1 := hx.rows; have e2 := hx.cols
    have haddr : ∀ r c, (Dense.DM.create a.rows b.cols junk).addr r c = r * b.cols + c := by
      intro r c; simp [Dense.DM.create, Dense.DM.addr, Dense.Hdr.new, Dense.Hdr.start, Dense.Hdr.isPartial]
    obtain ⟨v1, v2, v3, v4⟩ := hv s (by simp)
    have tx := hx.wf.rowTop v1
    have hb := hx.wf.bound s.r s.i v1 v2 v3
    have hin : s.r * b.cols + s.j < a.rows * b.cols := rm_lt (by omega) v4 (Nat.le_refl _)
    have hstep : mulAddStep A x y (Dense.DM.create a.rows b.cols junk) s m = .ok (m.put (s.r * b.cols + s.j)
        (A.add (m.data (s.r * b.cols + s.j)) (A.mul (x.mem.vals.data s.i) (b.cell (x.mem.cols.data s.i) s.j)))) := by
      unfold mulAddStep
      rw [Buf.read_eq (by omega)]
      simp only [Res.ok_bind]
      rw [Buf.read_eq (by omega)]
      simp only [Res.ok_bind]
      rw [hy.read (by omega) v4]
      simp only [Res.ok_bind]
      rw [haddr, Buf.read_eq (by omega)]
      simp only [Res.ok_bind]
      rw [Buf.write_eq (by omega)]
    unfold runSteps
    rw [hstep, Res.ok_bind]
    refine (runSteps_ok A hx hy hd junk S _ (fun s' h' => hv s' (by simp [h'])) (by simpa using hs)).mono ?_
    rintro m' ⟨k1, k2⟩
    refine ⟨k1, fun r j hr hj => ?_⟩
    rw [k2 r j hr hj, Buf.put_data, List.filter_cons]
    by_cases e : r * b.cols + j = s.r * b.cols + s.j
    · obtain ⟨f1, f2⟩ := rm_inj hj v4 e
      rw [if_pos e, if_pos (by simp [hits, f1, f2]), List.foldl_cons, e, f2]
    · rw [if_neg e, if_neg]
      simp only [hits, Bool.and_eq_true, decide_eq_true_eq, not_and]
      intro g1 g2; exact e (by rw [g1, g2])

/-- The sum over the stored entries of a sparse row is the sum over the whole row. -/
theorem sparse_dot (A : Arith α) (hz : ∀ s w, A.add s (A.mul A.zero w) = s) {cols : Nat → Nat} {vals : Nat → α} {b e C : Nat}
    {cell g : Nat → α} (h : RowOk A.zero cols vals b e C cell) :
    (List.range' b (e - b)).foldl (fun acc i => A.add acc (A.mul (vals i) (g (cols i)))) A.zero = dot A C cell g := by
  have gen : ∀ n, b + n ≤ e → (List.range' b n).foldl (fun acc i => A.add acc (A.mul (vals i) (g (cols i)))) A.zero =
      dot A (if n = 0 then 0 else cols (b + n - 1) + 1) cell g := by
    intro n
    induction n with
    | zero => intro _; rfl
    | succ n ih =>
      intro hn
      rw [List.range'_concat, List.foldl_append, ih (by omega)]
      simp only [List.foldl_cons, List.foldl_nil, Nat.one_mul]
      rw [if_neg (by omega : ¬ n + 1 = 0), show b + (n + 1) - 1 = b + n by omega, dot, h.entry (b + n) (by omega) (by omega)]
      congr 1
      symm
      refine dot_tail A ?_ ?_
      · split
        · omega
        · have := h.sorted (b + n - 1) (b + n) (by omega) (by omega) (by omega); omega
      · intro k h1 h2 s
        rw [h.rest k (by have := h.bound (b + n) (by omega) (by omega); omega), hz]
        intro p p1 p2 p3
        have : p < b + n := by
          by_contra hc
          rcases Nat.lt_or_ge (b + n) p with h4 | h4
          · have := h.sorted (b + n) p (by omega) h4 p2; omega
          · have : p = b + n := by omega
            subst this; omega
        split at h1
        · omega
        · rcases Nat.lt_or_ge p (b + n - 1) with h4 | h4
          · have := h.sorted p (b + n - 1) p1 h4 (by omega); omega
          · have : p = b + n - 1 := by omega
            subst this; omega
  have hle := h.le
  rw [gen (e - b) (by omega)]
  symm
  refine dot_tail A ?_ ?_
  · split
    · omega
    · have := h.bound (b + (e - b) - 1) (by omega) (by omega); omega
  · intro k h1 h2 s
    rw [h.rest k h2, hz]
    intro p p1 p2 p3
    split at h1
    · omega
    · rcases Nat.lt_or_ge p (b + (e - b) - 1) with h4 | h4
      · have := h.sorted p (b + (e - b) - 1) p1 h4 (by omega); omega
      · have : p = b + (e - b) - 1 := by omega
        subst this; omega

/-- **C154.** Sparse × dense multiplication yields the matrix product for every variant of the kernel and every execution order of its
threads; operands of unequal inner dimension are rejected by an exception. The only law needed is that adding `0 * w` changes nothing. -/
theorem C154_sparse_times_dense (A : Arith α) (hz : ∀ s w, A.add s (A.mul A.zero w) = s) (v : Variant) (x : CM α) (y : Dense.DM α)
    (a b : Mat α) (hx : x.Is A.zero a) (hy : y.Is b) (junk : Nat → α) :
    (a.cols = b.rows → ∃ ts, threadSteps x y.h.numCols (threadRows v x.h.numRows) = .ok ts ∧
      (∃ S, Interleave ts S) ∧ ∀ S, Interleave ts S → Res.Ok (csrDense A x y junk S) (fun z => z.Is (matProd A a b))) ∧
    (a.cols ≠ b.rows → ∀ S, Res.Throws (csrDense A x y junk S)) := by
  have e1 := hx.rows; have e2 := hx.cols; have g1 := hy.rows; have g2 := hy.cols
  refine ⟨fun hd => ?_, fun hd S => ?_⟩
  · obtain ⟨p1, p2⟩ := threadRows_partition v x.h.numRows
    refine ⟨_, threadSteps_ok hx.wf _ _ fun t ht r hr => (p1 t ht r hr).2, ⟨_, Interleave.inOrder _⟩, fun S hS => ?_⟩
    have hvalid : ∀ s ∈ S, Valid x b.cols s := by
      intro s hs
      obtain ⟨t, ht, hst⟩ := hS.mem s hs
      obtain ⟨rs, hrs, rfl⟩ := List.mem_map.1 ht
      obtain ⟨r, hr, hsr⟩ := List.mem_flatMap.1 hst
      rw [g2] at hsr
      exact (rowList_valid (p1 rs hrs r hr).2 s hsr).1
    unfold csrDense
    rw [if_neg (by omega)]
    simp only
    rw [e1, g2]
    refine (Buf.fill_ok (.inr (by simp [Dense.DM.create]))).bind ?_
    rintro m0 ⟨s1, s2⟩
    refine (runSteps_ok A hx hy hd junk S m0 hvalid (by rw [s1]; rfl)).bind ?_
    rintro m ⟨k1, k2⟩
    refine Res.ok_iff.2 (Dense.is_new k1 fun r j hr hj => ?_)
    rw [k2 r j hr hj, s2, if_pos ⟨Nat.zero_le _, rm_lt hr hj (Nat.le_refl _)⟩]
    obtain ⟨k, t, q1, q2, q3⟩ := p2 r (Nat.zero_le _) (by omega)
    have hfil := hS.filter (hits r j) k (t := t.flatMap (rowList x y.h.numCols)) (by rw [List.getElem?_map, q1]; rfl) (by
      intro i u hu hik s hs
      rw [List.getElem?_map, Option.map_eq_some_iff] at hu
      obtain ⟨u', hu', rfl⟩ := hu
      obtain ⟨r', hr', hs'⟩ := List.mem_flatMap.1 hs
      have := (rowList_valid (p1 u' (List.mem_of_getElem? hu') r' hr').2 s hs').2
      have hne : r' ≠ r := by rintro rfl; exact q3 i u' hu' hik hr'
      simp only [hits, Bool.and_eq_false_iff, decide_eq_false_iff_not]
      exact .inl (by rw [this]; exact hne))
    rw [hfil, thread_filter (by omega) q2, List.foldl_map]
    exact sparse_dot A hz (g := fun k => b.cell k j) (hx.row hr)
  · unfold csrDense
    rw [if_pos (by omega)]
    exact ⟨_, rfl⟩

/-- **C154 (no data races).** Steps of different threads write different cells of the result, so reordering them (or the reads and writes
inside them) cannot be observed. -/
theorem C154_no_races (v : Variant) (x : CM α) (w : x.WF) (n : Nat) (ts : List (List Step))
    (h : threadSteps x n (threadRows v x.h.numRows) = .ok ts) (i k : Nat) (hik : i ≠ k) (t u : List Step) (ht : ts[i]? = some t)
    (hu : ts[k]? = some u) (s s' : Step) (hs : s ∈ t) (hs' : s' ∈ u) : s.r * n + s.j ≠ s'.r * n + s'.j := by
  obtain ⟨p1, p2⟩ := threadRows_partition v x.h.numRows
  rw [threadSteps_ok w _ _ fun t ht r hr => (p1 t ht r hr).2] at h
  cases h
  rw [List.getElem?_map, Option.map_eq_some_iff] at ht hu
  obtain ⟨t', ht', rfl⟩ := ht
  obtain ⟨u', hu', rfl⟩ := hu
  obtain ⟨r, hr, hsr⟩ := List.mem_flatMap.1 hs
  obtain ⟨r', hr', hsr'⟩ := List.mem_flatMap.1 hs'
  obtain ⟨⟨_, _, _, v4⟩, f1⟩ := rowList_valid (p1 t' (List.mem_of_getElem? ht') r hr).2 s hsr
  obtain ⟨⟨_, _, _, v4'⟩, f2⟩ := rowList_valid (p1 u' (List.mem_of_getElem? hu') r' hr').2 s' hsr'
  intro e
  obtain ⟨g1, _⟩ := rm_inj v4 v4' e
  obtain ⟨q, t0, q1, _, q3⟩ := p2 r (Nat.zero_le _) (p1 t' (List.mem_of_getElem? ht') r hr).2
  have hrr : r = r' := by omega
  by_cases hi : i = q
  · exact q3 k u' hu' (by omega) (by rw [hrr]; exact hr')
  · exact q3 i t' ht' hi hr

end Verif.Mm
