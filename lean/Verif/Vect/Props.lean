/-
  C08 and C09: vectorized execution equals unsplit execution.
-/
import Verif.Vect.Steps
import Mathlib.Data.List.Range
import Mathlib.Data.List.Perm.Basic

namespace Verif.Vect
open Verif Verif.Dense
variable {α : Type}
variable {P : Pipe α} {ins : List (Inp α)} {F : PipeSpec α} {ts : List (Nat × Nat)} {bs : Nat → Nat} {len : Nat}

/-! ### Combination of partial aggregates in any order -/

theorem foldl_perm_combine {op : α → α → α} (h : AC op) {rows cols : Nat} {l l' : List (Mat α)} (hp : l.Perm l')
    (hsh : ∀ m ∈ l, m.rows = rows ∧ m.cols = cols) (a : Option (Mat α)) :
    l.foldl (combineStep op) a = l'.foldl (combineStep op) a := by
  refine List.Perm.foldl_eq' hp ?_ a
  intro x hx y hy z
  obtain ⟨x1, x2⟩ := hsh x hx
  obtain ⟨y1, y2⟩ := hsh y hy
  cases z with
  | none =>
    simp only [combineStep, Mat.zip, Option.some.injEq, Mat.mk.injEq]
    refine ⟨by omega, by omega, ?_⟩
    funext r c; exact h.comm _ _
  | some z =>
    simp only [combineStep, Mat.zip, Option.some.injEq, Mat.mk.injEq, true_and]
    funext r c
    rw [h.assoc, h.assoc, h.comm (x.cell r c)]

/-- Combining the aggregates of consecutive row blocks in row order. -/
theorem fold_tiles {op : α → α → α} {o : Nat} (hA : Aggregates F ins len o op) :
    ∀ (rs : List (Nat × Nat)) (a b : Nat) (m : Mat α), 0 < a → b ≤ len → Spec.Tiles a b rs → m.Same (onRows F ins 0 a o) →
      ∃ m', (rs.map fun x => onRows F ins x.1 x.2 o).foldl (combineStep op) (some m) = some m' ∧ m'.Same (onRows F ins 0 b o) := by
  intro rs
  induction rs with
  | nil => intro a b m _ _ ht hm; simp only [Spec.Tiles] at ht; subst ht; exact ⟨m, rfl, hm⟩
  | cons x rs ih =>
    intro a b m ha hb ht hm
    obtain ⟨h1, h2, h3⟩ := ht
    have hle := h3.toE.le
    simp only [List.map_cons, List.foldl_cons, combineStep]
    refine ih x.2 b _ (by omega) hb h3 ?_
    obtain ⟨g1, g2, g3⟩ := hA.2.2 0 a x.2 ha (by omega) (by omega)
    obtain ⟨m1, m2, m3⟩ := hm
    refine ⟨?_, ?_, fun r c hr hc => ?_⟩
    · simp only [Mat.zip] at *; rw [m1, g1]
    · simp only [Mat.zip] at *; rw [m2, g2]
    · simp only [Mat.zip] at hr hc g1 g2 ⊢
      rw [g3 r c (by omega) (by omega)]
      simp only [Mat.zip]
      rw [m3 r c hr hc, h1]

theorem fold_all {op : α → α → α} {o : Nat} (hA : Aggregates F ins len o op) (ht : Spec.Tiles 0 len ts) (hlen : 0 < len)
    (init : Option (Mat α))
    (hi : init = none ∨ ∃ e, init = some ⟨(T ins F o).rows, (T ins F o).cols, fun _ _ => e⟩ ∧ ∀ v, op e v = v) :
    ∃ m, (ts.map fun x => onRows F ins x.1 x.2 o).foldl (combineStep op) init = some m ∧ m.Same (T ins F o) := by
  cases ts with
  | nil => simp only [Spec.Tiles] at ht; omega
  | cons x rs =>
    obtain ⟨h1, h2, h3⟩ := ht
    have hle := h3.toE.le
    simp only [List.map_cons, List.foldl_cons]
    have hstart : ∃ m, combineStep op init (onRows F ins x.1 x.2 o) = some m ∧ m.Same (onRows F ins 0 x.2 o) := by
      rcases hi with rfl | ⟨e, rfl, he⟩
      · refine ⟨_, rfl, ?_⟩
        rw [h1]; exact ⟨rfl, rfl, fun _ _ _ _ => rfl⟩
      · refine ⟨_, rfl, ?_⟩
        obtain ⟨d1, d2⟩ := hA.2.1 x.1 x.2 h2 hle
        rw [h1] at d1 d2
        refine ⟨d1.symm, d2.symm, fun r c _ _ => ?_⟩
        simp only [Mat.zip]; rw [he, h1]
    obtain ⟨m, hm, hs⟩ := hstart
    rw [hm]
    obtain ⟨m', hm', hs'⟩ := fold_tiles hA rs x.2 len m (by omega) (Nat.le_refl _) h3 hs
    refine ⟨m', hm', ?_⟩
    obtain ⟨a1, a2, a3⟩ := hs'
    obtain ⟨b1, b2, b3⟩ := hA.1
    exact ⟨a1.trans b1, a2.trans b2, fun r c hr hc => (a3 r c hr hc).trans (b3 r c (by omega) (by omega))⟩

theorem perm_range {hist : List Nat} {n : Nat} (h1 : hist.Nodup) (h2 : ∀ t, t ∈ hist ↔ t < n) : hist.Perm (List.range n) := by
  refine (List.perm_ext_iff_of_nodup h1 List.nodup_range).2 fun t => ?_
  rw [h2, List.mem_range]

theorem map_getD (ts : List (Nat × Nat)) {β : Type} (f : Nat × Nat → β) :
    (List.range ts.length).map (fun t => f (ts.getD t (0, 0))) = ts.map f := by
  refine List.ext_getElem (by simp) fun i h1 h2 => ?_
  simp only [List.length_map, List.length_range] at h1
  simp [List.getElem_map, List.getD_eq_getElem?_getD, h1]

/-! ### The initial state satisfies the invariant -/

/-- Headers of the initial result objects. -/
def hdr0 (res0 : Outs α) (o : Nat) : Hdr := ((res0 o).map (·.h)).getD (Hdr.new 0 0)
def size0 (res0 : Outs α) (o : Nat) : Nat := ((res0 o).map (·.mem.size)).getD 0

theorem tiledOk {res0 : Outs α} {o : Nat} (h : OutputOk P ins F len o (res0 o)) : TiledOk P ins F len (hdr0 res0) (size0 res0) o := by
  have hh : ∀ x, res0 o = some x → x.WF → x.numRows = (T ins F o).rows → x.numCols = (T ins F o).cols →
      HdrOk ins F (hdr0 res0) (size0 res0) o := by
    intro x hx w h1 h2
    have e1 : hdr0 res0 o = x.h := by simp [hdr0, hx]
    have e2 : size0 res0 o = x.mem.size := by simp [size0, hx]
    refine ⟨?_, ?_, ?_, ?_, ?_⟩
    · rw [e1]; exact w.skip
    · rw [e1]; exact w.full
    · rw [e1, e2]; exact w.inb
    · rw [e1]; exact h1
    · rw [e1]; exact h2
  constructor
  · intro hc
    simp only [OutputOk, hc] at h
    obtain ⟨h1, x, h2, h3, h4, h5⟩ := h
    exact ⟨h1, hh x h2 h3 h4 h5⟩
  · intro hc
    simp only [OutputOk, hc] at h
    obtain ⟨h1, x, h2, h3, h4, h5⟩ := h
    exact ⟨h1, hh x h2 h3 h4 h5⟩

theorem aggOk {res0 : Outs α} {o : Nat} (h : OutputOk P ins F len o (res0 o)) (ha : (P.combine o).isAgg) :
    (Aggregates F ins len o (P.op (P.combine o)) ∧ AC (P.op (P.combine o))) ∧
    ∃ init, OptIs (res0 o) init ∧ ShapeOf init (T ins F o).rows (T ins F o).cols ∧
      (init = none ∨ ∃ e, init = some ⟨(T ins F o).rows, (T ins F o).cols, fun _ _ => e⟩ ∧ ∀ v, P.op (P.combine o) e v = v) := by
  have key : (Aggregates F ins len o (P.op (P.combine o)) ∧ AC (P.op (P.combine o)) ∧
      (res0 o = none ∨ ∃ x e, res0 o = some x ∧ (∀ v, P.op (P.combine o) e v = v) ∧
        x.Is ⟨(F (ins.map (·.mat)) o).rows, (F (ins.map (·.mat)) o).cols, fun _ _ => e⟩)) := by
    unfold OutputOk at h
    cases hc : P.combine o <;> simp only [hc] at h ha ⊢
    · exact ha.elim
    · exact ha.elim
    · exact h
    · exact h
    · exact h
  obtain ⟨h1, h2, h3⟩ := key
  refine ⟨⟨h1, h2⟩, ?_⟩
  rcases h3 with h3 | ⟨x, e, h3, h4, h5⟩
  · exact ⟨none, by rw [h3]; trivial, (fun m hm => nomatch hm), .inl rfl⟩
  · exact ⟨_, by rw [h3]; exact h5, (fun m hm => by cases hm; exact ⟨rfl, rfl⟩), .inr ⟨e, rfl, h4⟩⟩

open Classical in
/-- What the initial result object of an aggregated output shows. -/
noncomputable def init0 (P : Pipe α) (ins : List (Inp α)) (F : PipeSpec α) (res0 : Outs α) (o : Nat) : Option (Mat α) :=
  if h : ∃ init, OptIs (res0 o) init ∧ ShapeOf init (T ins F o).rows (T ins F o).cols ∧
      (init = none ∨ ∃ e, init = some ⟨(T ins F o).rows, (T ins F o).cols, fun _ _ => e⟩ ∧ ∀ v, P.op (P.combine o) e v = v)
  then h.choose else none

theorem init0_spec {res0 : Outs α} {o : Nat} (h : OutputOk P ins F len o (res0 o)) (ha : (P.combine o).isAgg) :
    OptIs (res0 o) (init0 P ins F res0 o) ∧ ShapeOf (init0 P ins F res0 o) (T ins F o).rows (T ins F o).cols ∧
      (init0 P ins F res0 o = none ∨ ∃ e, init0 P ins F res0 o = some ⟨(T ins F o).rows, (T ins F o).cols, fun _ _ => e⟩ ∧
        ∀ v, P.op (P.combine o) e v = v) := by
  have hex := (aggOk h ha).2
  unfold init0
  rw [dif_pos hex]
  exact hex.choose_spec

theorem inv_init {res0 : Outs α} (hS : Setup P ins F len ts bs) (hO : ∀ o, o < P.numOutputs → OutputOk P ins F len o (res0 o)) :
    Inv P ins F ts bs (hdr0 res0) (size0 res0) (init0 P ins F res0) (St.init ts res0) := by
  refine ⟨?_, ?_, ?_⟩
  · intro t ht
    obtain ⟨h1, h2, h3⟩ := tiles_range hS.tiles ht
    simp only [St.init, Loc.init, LocInv]
    refine ⟨Nat.le_refl _, fun o ho ha => .inl ⟨?_, rfl⟩⟩
    have e1 : (ts.getD t (0, 0)).1 = lo ts t := rfl
    rw [e1]; omega
  · intro o ho hna
    have hx : ∃ x, res0 o = some x := by
      have := hO o ho
      unfold OutputOk at this
      cases hc : P.combine o <;> simp only [hc] at this hna
      · obtain ⟨_, x, hx, _⟩ := this; exact ⟨x, hx⟩
      · obtain ⟨_, x, hx, _⟩ := this; exact ⟨x, hx⟩
      · exact (hna trivial).elim
      · exact (hna trivial).elim
      · exact (hna trivial).elim
    obtain ⟨x, hx⟩ := hx
    refine ⟨x, hx, by simp [hdr0, hx], by simp [size0, hx], ?_⟩
    intro t ht R C hR hC k1 k2 hf
    simp only [St.init, Loc.init, Fin] at hf
    have e1 : (ts.getD t (0, 0)).1 = lo ts t := rfl
    omega
  · intro o ho ha
    refine ⟨[], List.nodup_nil, ?_, (init0_spec (hO o ho) ha).1⟩
    intro t
    simp [St.init, Loc.init, Merged]

/-! ### Main theorems -/

/-- When all tasks are done, every output shows the result of the pipeline on the whole inputs. -/
theorem finished_result {res0 : Outs α} (hS : Setup P ins F len ts bs) (hlen : 0 < len)
    (hO : ∀ o, o < P.numOutputs → OutputOk P ins F len o (res0 o)) (sch : List Nat) :
    Res.Ok (run P ts bs (St.init ts res0) sch) (fun s => s.finished ts.length →
      ∀ o, o < P.numOutputs → ∃ x, s.res o = some x ∧ x.Is (F (ins.map (·.mat)) o)) := by
  have hA : ∀ o, o < P.numOutputs → AggOk P ins F len o := fun o ho ha => (aggOk (hO o ho) ha).1
  refine (run_inv hS hA (fun o ho => tiledOk (hO o ho)) (fun o ho ha => (init0_spec (hO o ho) ha).2.1) sch
    (inv_init hS hO)).mono ?_
  intro s hI hfin o ho
  have hpc : ∀ t, t < ts.length → (s.locs t).pc = .done := by
    intro t ht
    have := hfin t ht
    cases hpc : (s.locs t).pc <;> simp [hpc] at this
    rfl
  by_cases ha : (P.combine o).isAgg
  · obtain ⟨hist, h1, h2, h3⟩ := hI.agg o ho ha
    have h2' : ∀ t, t ∈ hist ↔ t < ts.length := by
      intro t; rw [h2]
      constructor
      · exact fun h => h.1
      · intro h; exact ⟨h, by rw [hpc t h]; trivial⟩
    have hp := perm_range h1 h2'
    obtain ⟨hAg, hAC⟩ := hA o ho ha
    have hfold := foldl_perm_combine hAC (hp.map (part ins F ts o)) (rows := (T ins F o).rows) (cols := (T ins F o).cols)
      (by
        intro m hm
        rw [List.mem_map] at hm
        obtain ⟨u, hu, rfl⟩ := hm
        obtain ⟨_, r1, r2⟩ := tiles_range hS.tiles ((h2' u).1 hu)
        exact hAg.2.1 _ _ r1 r2) (init0 P ins F res0 o)
    rw [hfold] at h3
    have e : (List.range ts.length).map (part ins F ts o) = ts.map fun x => onRows F ins x.1 x.2 o :=
      map_getD ts (fun x => onRows F ins x.1 x.2 o)
    rw [e] at h3
    obtain ⟨m, hm, hsame⟩ := fold_all hAg hS.tiles hlen _ (init0_spec (hO o ho) ha).2.2
    rw [hm] at h3
    cases hr : s.res o with
    | none => rw [hr] at h3; exact h3.elim
    | some x =>
      rw [hr] at h3
      have hx : x.Is m := h3
      exact ⟨x, rfl, hx.congr hsame⟩
  · obtain ⟨x, h1, h2, h3, h4⟩ := hI.tiled o ho ha
    refine ⟨x, h1, ?_⟩
    have hT := tiledOk (hO o ho)
    have hc : P.combine o = .rows ∨ P.combine o = .cols := by
      cases hc : P.combine o <;> simp_all [Combine.isAgg]
    have hH : HdrOk ins F (hdr0 res0) (size0 res0) o := by
      rcases hc with h | h
      · exact (hT.1 h).2
      · exact (hT.2 h).2
    have horig : x.h.isView = false → x.h.rowSkip = x.h.numCols := by
      have := hO o ho
      unfold OutputOk at this
      rcases hc with h | h <;> simp only [h] at this
      · obtain ⟨_, y, hy, wy, _⟩ := this
        have : x.h = y.h := by rw [h2]; simp [hdr0, hy]
        rw [this]; exact wy.orig
      · obtain ⟨_, y, hy, wy, _⟩ := this
        have : x.h = y.h := by rw [h2]; simp [hdr0, hy]
        rw [this]; exact wy.orig
    refine is_of_data ⟨?_, ?_, ?_, horig⟩ ?_ ?_ ?_
    · rw [h2]; exact hH.skip
    · rw [h2]; exact hH.full
    · rw [h2, h3]; exact hH.inb
    · rw [h2]; exact hH.rows
    · rw [h2]; exact hH.cols
    · intro R C hR hC
      have hkey : key (P.combine o) R C < len := by
        rcases hc with h | h
        · have := (hT.1 h).1.1
          simp only [key, h, if_true]; omega
        · have := (hT.2 h).1.1
          simp only [key, h, reduceCtorEq, if_false]; omega
      -- the task that owns the cell
      have hcov := hS.tiles.cover (key (P.combine o) R C)
      rw [if_pos ⟨Nat.zero_le _, hkey⟩] at hcov
      have : ∃ p ∈ ts, decide (p.1 ≤ key (P.combine o) R C ∧ key (P.combine o) R C < p.2) = true := by
        rw [← List.countP_pos_iff]; unfold Spec.coverCount at hcov; omega
      obtain ⟨p, hp, hk⟩ := this
      simp only [decide_eq_true_eq] at hk
      obtain ⟨t, ht, he⟩ := List.getElem_of_mem hp
      have hg : ts.getD t (0, 0) = p := by simp [List.getD_eq_getElem?_getD, ht, he]
      rw [h2]
      refine h4 t ht R C hR hC ?_ ?_ ?_
      · rw [lo, hg]; exact hk.1
      · rw [hi, hg]; exact hk.2
      · rw [hpc t ht]
        simp only [Fin]
        rw [hi, hg]; exact hk.2

/-- C08. Outputs combined by rows or columns: whatever the tasks (any tiling of the rows), batch sizes and interleaving, no step
fails, and once all tasks are done the result object shows exactly what the pipeline computes on the whole inputs. -/
theorem C08_rows_cols_combined {res0 : Outs α} (hS : Setup P ins F len ts bs) (hlen : 0 < len)
    (hO : ∀ o, o < P.numOutputs → OutputOk P ins F len o (res0 o)) (sch : List Nat) (o : Nat) (ho : o < P.numOutputs)
    (_hc : P.combine o = .rows ∨ P.combine o = .cols) :
    Res.Ok (run P ts bs (St.init ts res0) sch) (fun s => s.finished ts.length →
      ∃ x, s.res o = some x ∧ x.Is (F (ins.map (·.mat)) o)) :=
  (finished_result hS hlen hO sch).mono fun _ h hf => h hf o ho

/-- C09. Aggregated outputs (ADD, MIN, MAX), with or without a pre-allocated result initialised to a neutral value: the same, for
any task completion order. -/
theorem C09_aggregated {res0 : Outs α} (hS : Setup P ins F len ts bs) (hlen : 0 < len)
    (hO : ∀ o, o < P.numOutputs → OutputOk P ins F len o (res0 o)) (sch : List Nat) (o : Nat) (ho : o < P.numOutputs)
    (_hc : P.combine o = .add ∨ P.combine o = .min ∨ P.combine o = .max) :
    Res.Ok (run P ts bs (St.init ts res0) sch) (fun s => s.finished ts.length →
      ∃ x, s.res o = some x ∧ x.Is (F (ins.map (·.mat)) o)) :=
  (finished_result hS hlen hO sch).mono fun _ h hf => h hf o ho

/-- C09: the result objects that the engine allocates meet the requirement on the initial value if `zero`, `hi`, `lo` are neutral
for ADD, MIN, MAX (for integers: 0, the largest and the smallest value of the type). -/
theorem C09_allocated_output (zero lo hi : α) (junk : Nat → α) (o : Nat) (rows cols : Option Nat)
    (hadd : ∀ v, P.addOp zero v = v) (hmin : ∀ v, P.minOp hi v = v) (hmax : ∀ v, P.maxOp lo v = v)
    (ha : (P.combine o).isAgg) (hA : Aggregates F ins len o (P.op (P.combine o))) (hAC : AC (P.op (P.combine o)))
    (hr : rows = none ∨ rows = some (F (ins.map (·.mat)) o).rows) (hc : cols = none ∨ cols = some (F (ins.map (·.mat)) o).cols) :
    OutputOk P ins F len o (allocateOutput zero lo hi junk (P.combine o) rows cols) := by
  have hnone : ∀ r c, r = none ∨ c = none → allocateOutput zero lo hi junk (P.combine o) r c = none := by
    intro r c h
    rcases h with rfl | rfl
    · cases c <;> rfl
    · cases r <;> rfl
  by_cases hn : rows = none ∨ cols = none
  · rw [hnone rows cols hn]
    unfold OutputOk
    cases hco : P.combine o <;> simp only [hco] at ha hA hAC ⊢
    · exact ha.elim
    · exact ha.elim
    all_goals exact ⟨hA, hAC, .inl rfl⟩
  · have hr' := hr.resolve_left fun h => hn (.inl h)
    have hc' := hc.resolve_left fun h => hn (.inr h)
    subst hr'; subst hc'
    unfold OutputOk allocateOutput
    cases hco : P.combine o <;> simp only [hco] at ha hA hAC ⊢
    · exact ha.elim
    · exact ha.elim
    · exact ⟨hA, hAC, .inr ⟨_, zero, rfl, hadd, is_createZero _ _ _⟩⟩
    · exact ⟨hA, hAC, .inr ⟨_, hi, rfl, hmin, is_new rfl fun _ _ _ _ => rfl⟩⟩
    · exact ⟨hA, hAC, .inr ⟨_, lo, rfl, hmax, is_new rfl fun _ _ _ _ => rfl⟩⟩

end Verif.Vect
