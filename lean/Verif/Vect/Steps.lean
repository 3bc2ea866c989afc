/-
  Every step of every task preserves the invariant (C08, C09).
-/
import Verif.Vect.Inv

namespace Verif.Vect
open Verif Verif.Dense
variable {α : Type}
variable {P : Pipe α} {ins : List (Inp α)} {F : PipeSpec α} {ts : List (Nat × Nat)} {bs : Nat → Nat} {len : Nat}
variable {h0 : Nat → Hdr} {size0 : Nat → Nat} {init : Nat → Option (Mat α)}

theorem upd_same {β : Type} (f : Nat → β) (i : Nat) (v : β) : upd f i v i = v := by simp [upd]
theorem upd_ne {β : Type} (f : Nat → β) {i j : Nat} (v : β) (h : j ≠ i) : upd f i v j = f j := by simp [upd, h]

/-- A step that does not change the results. -/
theorem inv_local {s : St α} (hI : Inv P ins F ts bs h0 size0 init s) {t : Nat} (ht : t < ts.length) {l : Loc α}
    (hl : LocInv P ins F h0 (lo ts t) (hi ts t) (bs t) l)
    (hf : ∀ o R C, o < P.numOutputs → ¬ (P.combine o).isAgg → R < (T ins F o).rows → C < (T ins F o).cols →
      lo ts t ≤ key (P.combine o) R C → key (P.combine o) R C < hi ts t →
      Fin P (hi ts t) l.pc o R C → Fin P (hi ts t) (s.locs t).pc o R C)
    (hm : ∀ o, o < P.numOutputs → (P.combine o).isAgg → (Merged l.pc o ↔ Merged (s.locs t).pc o)) :
    Inv P ins F ts bs h0 size0 init ⟨upd s.locs t l, s.res⟩ := by
  refine ⟨?_, ?_, ?_⟩
  · intro u hu
    by_cases e : u = t
    · subst e; simp only [upd_same]; exact hl
    · simp only [upd_ne _ _ e]; exact hI.loc u hu
  · intro o ho hna
    obtain ⟨x, h1, h2, h3, h4⟩ := hI.tiled o ho hna
    refine ⟨x, h1, h2, h3, ?_⟩
    intro u hu R C hR hC k1 k2 hfin
    by_cases e : u = t
    · subst e
      simp only [upd_same] at hfin
      exact h4 u hu R C hR hC k1 k2 (hf o R C ho hna hR hC k1 k2 hfin)
    · simp only [upd_ne _ _ e] at hfin
      exact h4 u hu R C hR hC k1 k2 hfin
  · intro o ho ha
    obtain ⟨hist, h1, h2, h3⟩ := hI.agg o ho ha
    refine ⟨hist, h1, ?_, h3⟩
    intro u
    rw [h2]
    by_cases e : u = t
    · subst e; simp only [upd_same]; rw [hm o ho ha]
    · simp only [upd_ne _ _ e]

/-- Writing one cell. -/
theorem inv_write (hS : Setup P ins F len ts bs) {s : St α} (hI : Inv P ins F ts bs h0 size0 init s) {t : Nat}
    (ht : t < ts.length) {o' : Nat} (ho' : o' < P.numOutputs) (hc : P.combine o' = .rows ∨ P.combine o' = .cols)
    (hH : HdrOk ins F h0 size0 o')
    {x : DM α} (hx : s.res o' = some x) {R0 C0 : Nat} (hR0 : R0 < (T ins F o').rows) (hC0 : C0 < (T ins F o').cols)
    (hk1 : lo ts t ≤ key (P.combine o') R0 C0) (hk2 : key (P.combine o') R0 C0 < hi ts t) {l : Loc α}
    (hl : LocInv P ins F h0 (lo ts t) (hi ts t) (bs t) l)
    (hf : ∀ o R C, o < P.numOutputs → ¬ (P.combine o).isAgg → R < (T ins F o).rows → C < (T ins F o).cols →
      lo ts t ≤ key (P.combine o) R C → key (P.combine o) R C < hi ts t →
      Fin P (hi ts t) l.pc o R C → Fin P (hi ts t) (s.locs t).pc o R C ∨ (o = o' ∧ R = R0 ∧ C = C0))
    (hm : ∀ o, o < P.numOutputs → (P.combine o).isAgg → (Merged l.pc o ↔ Merged (s.locs t).pc o)) :
    Inv P ins F ts bs h0 size0 init ⟨upd s.locs t l, upd s.res o'
      (some ⟨x.h, x.mem.put ((h0 o').base + R0 * (h0 o').rowSkip + C0) ((T ins F o').cell R0 C0)⟩)⟩ := by
  have hna' : ¬ (P.combine o').isAgg := by rcases hc with h | h <;> rw [h] <;> exact id
  have hsk := hH.skip; have hcols := hH.cols
  refine ⟨?_, ?_, ?_⟩
  · intro u hu
    by_cases e : u = t
    · subst e; simp only [upd_same]; exact hl
    · simp only [upd_ne _ _ e]; exact hI.loc u hu
  · intro o ho hna
    obtain ⟨x', h1, h2, h3, h4⟩ := hI.tiled o ho hna
    by_cases eo : o = o'
    · subst eo
      rw [hx] at h1; cases h1
      refine ⟨_, upd_same _ _ _, h2, h3, ?_⟩
      intro u hu R C hR hC k1 k2 hfin
      rw [Buf.put_data]
      by_cases ea : (h0 o).base + R * (h0 o).rowSkip + C = (h0 o).base + R0 * (h0 o).rowSkip + C0
      · rw [if_pos ea]
        obtain ⟨rfl, rfl⟩ := rm_inj (s := (h0 o).rowSkip) (r := R) (r' := R0) (c := C) (c' := C0) (by omega) (by omega) (by omega)
        rfl
      · rw [if_neg ea]
        by_cases e : u = t
        · subst e
          simp only [upd_same] at hfin
          rcases hf o R C ho hna hR hC k1 k2 hfin with h | ⟨_, rfl, rfl⟩
          · exact h4 u hu R C hR hC k1 k2 h
          · exact (ea rfl).elim
        · simp only [upd_ne _ _ e] at hfin
          exact h4 u hu R C hR hC k1 k2 hfin
    · refine ⟨x', by simp only [upd_ne _ _ eo]; exact h1, h2, h3, ?_⟩
      intro u hu R C hR hC k1 k2 hfin
      by_cases e : u = t
      · subst e
        simp only [upd_same] at hfin
        rcases hf o R C ho hna hR hC k1 k2 hfin with h | ⟨h, _⟩
        · exact h4 u hu R C hR hC k1 k2 h
        · exact (eo h).elim
      · simp only [upd_ne _ _ e] at hfin
        exact h4 u hu R C hR hC k1 k2 hfin
  · intro o ho ha
    obtain ⟨hist, h1, h2, h3⟩ := hI.agg o ho ha
    have eo : o ≠ o' := by rintro rfl; exact hna' ha
    refine ⟨hist, h1, ?_, by simp only [upd_ne _ _ eo]; exact h3⟩
    intro u
    rw [h2]
    by_cases e : u = t
    · subst e; simp only [upd_same]; rw [hm o ho ha]
    · simp only [upd_ne _ _ e]

/-- Merging the task's aggregate of output `o'`. -/
theorem inv_merge {s : St α} (hI : Inv P ins F ts bs h0 size0 init s) {t : Nat} (ht : t < ts.length) {o' : Nat}
    (ha' : (P.combine o').isAgg) (hpc : (s.locs t).pc = .merge o') {x : Option (DM α)}
    (hx : ∀ a, OptIs (s.res o') a → OptIs x (combineStep (P.op (P.combine o')) a (part ins F ts o' t)))
    (hlagg : ∀ o, o < P.numOutputs → (P.combine o).isAgg → AggTo ins F (lo ts t) (hi ts t) o (s.locs t).agg) :
    Inv P ins F ts bs h0 size0 init ⟨upd s.locs t ⟨.merge (o' + 1), (s.locs t).agg⟩, upd s.res o' x⟩ := by
  refine ⟨?_, ?_, ?_⟩
  · intro u hu
    by_cases e : u = t
    · subst e; simp only [upd_same]; exact hlagg
    · simp only [upd_ne _ _ e]; exact hI.loc u hu
  · intro o ho hna
    obtain ⟨y, h1, h2, h3, h4⟩ := hI.tiled o ho hna
    have eo : o ≠ o' := by rintro rfl; exact hna ha'
    refine ⟨y, by simp only [upd_ne _ _ eo]; exact h1, h2, h3, ?_⟩
    intro u hu R C hR hC k1 k2 hfin
    refine h4 u hu R C hR hC k1 k2 ?_
    by_cases e : u = t
    · subst e
      rw [hpc]; exact k2
    · simp only [upd_ne _ _ e] at hfin; exact hfin
  · intro o ho ha
    obtain ⟨hist, h1, h2, h3⟩ := hI.agg o ho ha
    by_cases eo : o = o'
    · subst eo
      have hnot : t ∉ hist := by
        intro h
        have := ((h2 t).1 h).2
        rw [hpc] at this
        exact Nat.lt_irrefl _ this
      refine ⟨hist ++ [t], ?_, ?_, ?_⟩
      · rw [List.nodup_append]
        refine ⟨h1, by simp, ?_⟩
        intro a ha1 b hb
        simp only [List.mem_singleton] at hb
        subst hb
        rintro rfl; exact hnot ha1
      · intro u
        rw [List.mem_append, List.mem_singleton, h2]
        by_cases e : u = t
        · subst e
          simp only [upd_same, Merged]
          constructor
          · intro _; exact ⟨ht, by omega⟩
          · intro _; right; trivial
        · simp only [upd_ne _ _ e]; simp [e]
      · simp only [upd_same, List.map_append, List.map_cons, List.map_nil, List.foldl_append, List.foldl_cons, List.foldl_nil]
        exact hx _ h3
    · refine ⟨hist, h1, ?_, by simp only [upd_ne _ _ eo]; exact h3⟩
      intro u
      rw [h2]
      by_cases e : u = t
      · subst e
        simp only [upd_same, hpc, Merged]
        have : o < o' + 1 ↔ o < o' := by omega
        rw [this]
      · simp only [upd_ne _ _ e]

theorem isAgg_of_ne {c : Combine} (h1 : c ≠ .rows) (h2 : c ≠ .cols) : c.isAgg := by
  cases c <;> simp_all [Combine.isAgg]

theorem isAgg_ne {c : Combine} (h : c.isAgg) : c ≠ .rows ∧ c ≠ .cols := by
  cases c <;> simp_all [Combine.isAgg]

/-- For aggregated outputs the aggregates of adjacent blocks combine. -/
def AggOk (P : Pipe α) (ins : List (Inp α)) (F : PipeSpec α) (len o : Nat) : Prop :=
  (P.combine o).isAgg → Aggregates F ins len o (P.op (P.combine o)) ∧ AC (P.op (P.combine o))

/-- Slicing a result object. -/
theorem slice_rows {x : DM α} {R C : Nat} (hR : x.h.numRows = R) (hC : x.h.numCols = C) {r r2 : Nat}
    (h1 : r < r2) (h2 : r2 ≤ R) :
    Res.Ok (x.h.sliceRow r r2) (fun s => s.rowSkip = x.h.rowSkip ∧ s.start = x.h.base + r * x.h.rowSkip ∧
      s.numRows = r2 - r ∧ s.numCols = C) := by
  have v1 : Hdr.validRange (r : Int) (r2 : Int) x.h.numRows = true := by
    rw [validRange_iff]; exact ⟨by omega, by omega, by omega, by omega⟩
  have v2 : Hdr.validRange 0 (x.h.numCols : Int) x.h.numCols = true := by
    rw [validRange_iff]; exact ⟨by omega, by omega, by omega, by omega⟩
  refine ⟨⟨r2 - r, x.h.numCols, x.h.rowSkip, x.h.base + r * x.h.rowSkip, r, 0, (r2 - r) * x.h.rowSkip, true, 0, 0⟩,
    by simp [Hdr.sliceRow, Hdr.view, v1, v2], rfl, ?_, rfl, hC⟩
  simp [Hdr.start, Hdr.isPartial]

theorem slice_cols {x : DM α} {R C : Nat} (hR : x.h.numRows = R) (hC : x.h.numCols = C) {r r2 : Nat}
    (h1 : r < r2) (h2 : r2 ≤ C) :
    Res.Ok (x.h.sliceCol r r2) (fun s => s.rowSkip = x.h.rowSkip ∧ s.start = x.h.base + r ∧
      s.numRows = R ∧ s.numCols = r2 - r) := by
  have v1 : Hdr.validRange (r : Int) (r2 : Int) x.h.numCols = true := by
    rw [validRange_iff]; exact ⟨by omega, by omega, by omega, by omega⟩
  have v2 : Hdr.validRange 0 (x.h.numRows : Int) x.h.numRows = true := by
    rw [validRange_iff]; exact ⟨by omega, by omega, by omega, by omega⟩
  refine ⟨⟨x.h.numRows, r2 - r, x.h.rowSkip, x.h.base + r, 0, r, x.h.numRows * x.h.rowSkip, true, 0, 0⟩,
    by simp [Hdr.sliceCol, Hdr.view, v1, v2], rfl, ?_, hR, rfl⟩
  simp [Hdr.start, Hdr.isPartial]

/-- Requirements on an output distributed by rows or columns. -/
def TiledOk (P : Pipe α) (ins : List (Inp α)) (F : PipeSpec α) (len : Nat) (h0 : Nat → Hdr) (size0 : Nat → Nat) (o : Nat) : Prop :=
  (P.combine o = .rows → RowWise F ins len o ∧ HdrOk ins F h0 size0 o) ∧
  (P.combine o = .cols → ColWise F ins len o ∧ HdrOk ins F h0 size0 o)

theorem Fin_acc_zero {ru r r2 o R C : Nat} {lres : Nat → DM α} (h : Fin P ru (.acc r r2 lres 0) o R C) :
    Fin P ru (.batch r) o R C := by
  rcases h with h | ⟨_, h⟩
  · exact h
  · omega

/-- Head of the batch loop. -/
theorem step_batch (hS : Setup P ins F len ts bs) {s : St α} (hI : Inv P ins F ts bs h0 size0 init s) {t : Nat}
    (ht : t < ts.length) {r : Nat} (hpc : (s.locs t).pc = .batch r) :
    Res.Ok (step P ts bs s t) (Inv P ins F ts bs h0 size0 init) := by
  have hl := hI.loc t ht
  obtain ⟨hlo, hlt, hhi⟩ := tiles_range hS.tiles ht
  simp only [LocInv, hpc] at hl
  obtain ⟨l1, l2⟩ := hl
  unfold step stepTask
  rw [if_pos ht]
  simp only [hpc]
  by_cases hr : r < hi ts t
  · rw [if_pos hr]
    have hb := hS.batch t
    have ehi : hi ts t = (ts.getD t (0, 0)).2 := rfl
    simp only [bind_assoc]
    refine (createFuncInputs_ok hS.inputs (r := r) (r2 := min (r + bs t) (hi ts t)) (by omega) (by omega)).bind fun xs hxs => ?_
    refine (hS.func _ _ (by omega) (by omega) xs hxs).bind fun lres hlres => ?_
    refine ⟨_, rfl, inv_local hI ht ?_ ?_ ?_⟩
    · simp only [LocInv]
      refine ⟨⟨l1, by omega, rfl, fun o ho => hlres o ho⟩, fun o ho ha => ?_⟩
      have := l2 o ho ha
      have e : min r (hi ts t) = r := by omega
      rw [e] at this
      simpa using this
    · intro o R C ho hna hR hC k1 k2 hf
      rw [hpc]; exact Fin_acc_zero hf
    · intro o ho ha; rw [hpc]; simp [Merged]
  · rw [if_neg hr]
    refine ⟨_, rfl, inv_local hI ht ?_ ?_ ?_⟩
    · simp only [LocInv]
      intro o ho ha
      have := l2 o ho ha
      have e : min r (hi ts t) = hi ts t := by omega
      rw [e] at this
      exact this
    · intro o R C ho hna hR hC k1 k2 hf
      rw [hpc]; simp only [Fin] at hf ⊢; omega
    · intro o ho ha; rw [hpc]; simp [Merged]

/-- An aggregating output in `accumulateOutputs`. -/
theorem step_acc_agg (hS : Setup P ins F len ts bs) {s : St α} (hI : Inv P ins F ts bs h0 size0 init s)
    {t : Nat} (ht : t < ts.length) {r r2 o' : Nat} {lres : Nat → DM α} (hpc : (s.locs t).pc = .acc r r2 lres o')
    (ho' : o' < P.numOutputs) (ha' : (P.combine o').isAgg) (hA : AggOk P ins F len o') :
    Res.Ok (match (s.locs t).agg o' with
      | none => (.ok (⟨.acc r r2 lres (o' + 1), upd (s.locs t).agg o' (some (lres o'))⟩, s.res) : Res (Loc α × Outs α))
      | some y => do
        let z ← ewBinaryMatInPlace (P.op (P.combine o')) y (lres o')
        .ok (⟨.acc r r2 lres (o' + 1), upd (s.locs t).agg o' (some z)⟩, s.res))
      (fun p => Inv P ins F ts bs h0 size0 init ⟨upd s.locs t p.1, p.2⟩) := by
  have hl := hI.loc t ht
  obtain ⟨hlo, hlt, hhi⟩ := tiles_range hS.tiles ht
  simp only [LocInv, hpc] at hl
  obtain ⟨⟨l1, l2, l3, l4⟩, l5⟩ := hl
  obtain ⟨⟨_, g2, g3⟩, _⟩ := hA ha'
  have key : ∀ z : DM α, z.Is (onRows F ins (lo ts t) r2 o') →
      Inv P ins F ts bs h0 size0 init ⟨upd s.locs t ⟨.acc r r2 lres (o' + 1), upd (s.locs t).agg o' (some z)⟩, s.res⟩ := by
    intro z hz
    refine inv_local hI ht ?_ ?_ ?_
    · simp only [LocInv]
      refine ⟨⟨l1, l2, l3, l4⟩, fun o ho ha => ?_⟩
      by_cases e : o = o'
      · subst e
        rw [if_pos (by omega)]
        right
        exact ⟨by omega, z, upd_same _ _ _, hz⟩
      · have := l5 o ho ha
        have e2 : (if o < o' + 1 then r2 else r) = (if o < o' then r2 else r) := by
          by_cases h : o < o'
          · rw [if_pos h, if_pos (by omega)]
          · rw [if_neg h, if_neg (by omega)]
        rw [e2]
        simp only [AggTo, upd_ne _ _ e] at this ⊢
        exact this
    · intro o R C ho hna hR hC k1 k2 hf
      have e : o ≠ o' := by rintro rfl; exact hna ha'
      rw [hpc]; simp only [Fin] at hf ⊢; omega
    · intro o ho ha; rw [hpc]; simp [Merged]
  have h5 := l5 o' ho' ha'
  rw [if_neg (by omega)] at h5
  rcases h5 with ⟨e, hn⟩ | ⟨hlt', y, hy, hyIs⟩
  · rw [hn]
    refine ⟨_, rfl, key _ ?_⟩
    have := l4 o' ho'
    rw [e] at this; exact this
  · rw [hy]
    have d1 := g2 (lo ts t) r hlt' (by omega)
    have d2 := g2 r r2 (by omega) (by omega)
    refine (C38_ewBinaryMat_inPlace (P.op (P.combine o')) y (lres o') _ _ hyIs (l4 o' ho') ?_ ?_).bind ?_
    · rw [d1.1, d2.1]
    · rw [d1.2, d2.2]
    · rintro z ⟨hz, _⟩
      refine ⟨_, rfl, key z ?_⟩
      obtain ⟨q1, q2, q3⟩ := g3 (lo ts t) r r2 hlt' (by omega) (by omega)
      exact hz.congr ⟨q1.symm, q2.symm, fun R C hR hC => (q3 R C (q1 ▸ hR) (q2 ▸ hC)).symm⟩

/-- One output in `accumulateOutputs`. -/
theorem step_acc (hS : Setup P ins F len ts bs) {s : St α} (hI : Inv P ins F ts bs h0 size0 init s)
    {t : Nat} (ht : t < ts.length) {r r2 o' : Nat} {lres : Nat → DM α} (hpc : (s.locs t).pc = .acc r r2 lres o')
    (hA : ∀ o, o < P.numOutputs → AggOk P ins F len o) (hT : ∀ o, o < P.numOutputs → TiledOk P ins F len h0 size0 o) :
    Res.Ok (step P ts bs s t) (Inv P ins F ts bs h0 size0 init) := by
  have hl := hI.loc t ht
  obtain ⟨hlo, hlt, hhi⟩ := tiles_range hS.tiles ht
  simp only [LocInv, hpc] at hl
  obtain ⟨⟨l1, l2, l3, l4⟩, l5⟩ := hl
  unfold step stepTask
  rw [if_pos ht]
  simp only [hpc]
  by_cases ho' : o' < P.numOutputs
  · rw [if_pos ho']
    have hslice : ∀ c x, P.combine o' = c → c = .rows ∨ c = .cols → ∀ sl, SliceOk c (h0 o') sl r r2 (T ins F o').rows (T ins F o').cols →
        s.res o' = some x → 
        Inv P ins F ts bs h0 size0 init ⟨upd s.locs t ⟨.copy r r2 lres o' sl 0 0, (s.locs t).agg⟩, s.res⟩ := by
      intro c x hc hc' sl hsl hx
      refine inv_local hI ht ?_ ?_ ?_
      · simp only [LocInv]
        exact ⟨⟨l1, l2, l3, l4⟩, ho', by rw [hc]; exact hc', by rw [hc]; exact hsl, l5⟩
      · intro o R C ho hna hR hC k1 k2 hf
        rw [hpc]; simp only [Fin] at hf ⊢; omega
      · intro o ho ha; rw [hpc]; simp [Merged]
    have hag := step_acc_agg hS hI ht hpc ho'
    cases hc : P.combine o' with
    | rows =>
      obtain ⟨x, hx, hxh, hxs, _⟩ := hI.tiled o' ho' (by rw [hc]; exact id)
      obtain ⟨hrw, hH⟩ := (hT o' ho').1 hc
      simp only [hx, bind_assoc]
      have hrows := hrw.1
      have w : HdrOk ins F h0 size0 o' := hH
      refine (slice_rows (x := x) (R := (T ins F o').rows) (C := (T ins F o').cols) ?_ ?_ l2 ?_).bind ?_
      · rw [hxh]; exact w.rows
      · rw [hxh]; exact w.cols
      · have : (T ins F o').rows = len := hrows
        omega
      · rintro sl ⟨a1, a2, a3, a4⟩
        refine ⟨_, rfl, hslice .rows x hc (.inl rfl) sl ⟨?_, fun _ => ⟨?_, a3, a4⟩, fun h => nomatch h⟩ hx⟩
        · rw [a1, hxh]
        · rw [a2, hxh]
    | cols =>
      obtain ⟨x, hx, hxh, hxs, _⟩ := hI.tiled o' ho' (by rw [hc]; exact id)
      obtain ⟨hrw, hH⟩ := (hT o' ho').2 hc
      simp only [hx, bind_assoc]
      have hrows := hrw.1
      have w : HdrOk ins F h0 size0 o' := hH
      refine (slice_cols (x := x) (R := (T ins F o').rows) (C := (T ins F o').cols) ?_ ?_ l2 ?_).bind ?_
      · rw [hxh]; exact w.rows
      · rw [hxh]; exact w.cols
      · have : (T ins F o').cols = len := hrows
        omega
      · rintro sl ⟨a1, a2, a3, a4⟩
        refine ⟨_, rfl, hslice .cols x hc (.inr rfl) sl ⟨?_, (fun h => nomatch h), fun _ => ⟨?_, a3, a4⟩⟩ hx⟩
        · rw [a1, hxh]
        · rw [a2, hxh]
    | add =>
      have h := hag (by rw [hc]; trivial) (hA o' ho')
      simp only [hc] at h
      exact Res.Ok.bind h fun p hp => ⟨_, rfl, hp⟩
    | min =>
      have h := hag (by rw [hc]; trivial) (hA o' ho')
      simp only [hc] at h
      exact Res.Ok.bind h fun p hp => ⟨_, rfl, hp⟩
    | max =>
      have h := hag (by rw [hc]; trivial) (hA o' ho')
      simp only [hc] at h
      exact Res.Ok.bind h fun p hp => ⟨_, rfl, hp⟩
  · rw [if_neg ho']
    refine ⟨_, rfl, inv_local hI ht ?_ ?_ ?_⟩
    · simp only [LocInv]
      have hb := hS.batch t
      refine ⟨by omega, fun o ho ha => ?_⟩
      have := l5 o ho ha
      rw [if_pos (by omega), l3] at this
      exact this
    · intro o R C ho hna hR hC k1 k2 hf
      rw [hpc]; simp only [Fin] at hf ⊢; omega
    · intro o ho ha; rw [hpc]; simp [Merged]

/-- The copy loops. -/
theorem step_copy (hS : Setup P ins F len ts bs) {s : St α} (hI : Inv P ins F ts bs h0 size0 init s)
    {t : Nat} (ht : t < ts.length) {r r2 o' i j : Nat} {lres : Nat → DM α} {sl : Hdr}
    (hpc : (s.locs t).pc = .copy r r2 lres o' sl i j)
    (hT : ∀ o, o < P.numOutputs → TiledOk P ins F len h0 size0 o) :
    Res.Ok (step P ts bs s t) (Inv P ins F ts bs h0 size0 init) := by
  have hl := hI.loc t ht
  obtain ⟨hlo, hlt, hhi⟩ := tiles_range hS.tiles ht
  simp only [LocInv, hpc] at hl
  obtain ⟨⟨l1, l2, l3, l4⟩, ho', hc, ⟨s1, s2, s3⟩, l5⟩ := hl
  have hna' : ¬ (P.combine o').isAgg := by rcases hc with h | h <;> rw [h] <;> exact id
  have hcase : ∀ o, ¬ (P.combine o).isAgg → P.combine o = .rows ∨ P.combine o = .cols := by
    intro o h; cases hco : P.combine o <;> simp_all [Combine.isAgg]
  unfold step stepTask
  rw [if_pos ht]
  simp only [hpc]
  by_cases hi' : i < sl.numRows
  · rw [if_pos hi']
    by_cases hj : j < sl.numCols
    · rw [if_pos hj]
      obtain ⟨x, hx, hxh, hxs, _⟩ := hI.tiled o' ho' hna'
      simp only [hx]
      -- the target cell
      have hcell : ∃ R0 C0, R0 < (T ins F o').rows ∧ C0 < (T ins F o').cols ∧ key (P.combine o') R0 C0 = (if P.combine o' = .rows then r + i else r + j) ∧
          subRow (P.combine o') r R0 = i ∧ subCol (P.combine o') r C0 = j ∧ HdrOk ins F h0 size0 o' ∧
          key (P.combine o') R0 C0 < r2 ∧ r ≤ key (P.combine o') R0 C0 ∧
          sl.start + i * sl.rowSkip + j = (h0 o').base + R0 * (h0 o').rowSkip + C0 ∧
          (lres o').mem.read ((lres o').addr i j) = .ok ((T ins F o').cell R0 C0) ∧
          (∀ R C, subRow (P.combine o') r R = i → subCol (P.combine o') r C = j → r ≤ key (P.combine o') R C → R = R0 ∧ C = C0) := by
        rcases hc with hc | hc
        · obtain ⟨hrw, hH⟩ := (hT o' ho').1 hc
          obtain ⟨q1, q2, q3⟩ := s2 hc
          obtain ⟨w1, w2⟩ := hrw
          have hw := w2 r r2 l2 (by omega)
          have hlr := (l4 o' ho').congr hw
          have hT0 : (T ins F o').rows = len := w1
          refine ⟨r + i, j, by omega, by omega, by simp [key, hc], by simp [subRow, hc], by simp [subCol, hc], hH, ?_, ?_, ?_, ?_, ?_⟩
          · simp only [key, hc, if_true]; omega
          · simp only [key, hc, if_true]; omega
          · rw [q1, s1]; ring
          · have := hlr.read (r := i) (c := j) (by simp only [Mat.window]; omega) (show j < (T ins F o').cols - 0 by omega)
            rw [this]; simp [Mat.window]
          · intro R C h1 h2 h3
            simp only [subRow, subCol, key, hc, if_true] at h1 h2 h3
            omega
        · obtain ⟨hrw, hH⟩ := (hT o' ho').2 hc
          obtain ⟨q1, q2, q3⟩ := s3 hc
          obtain ⟨w1, w2⟩ := hrw
          have hw := w2 r r2 l2 (by omega)
          have hlr := (l4 o' ho').congr hw
          have hT0 : (T ins F o').cols = len := w1
          refine ⟨i, r + j, by omega, by omega, by simp [key, hc], by simp [subRow, hc], by simp [subCol, hc], hH, ?_, ?_, ?_, ?_, ?_⟩
          · simp only [key, hc, reduceCtorEq, if_false]; omega
          · simp only [key, hc, reduceCtorEq, if_false]; omega
          · rw [q1, s1]; ring
          · have := hlr.read (r := i) (c := j) (show i < (T ins F o').rows - 0 by omega) (by simp only [Mat.window]; omega)
            rw [this]; simp [Mat.window]
          · intro R C h1 h2 h3
            simp only [subRow, subCol, key, hc, reduceCtorEq, if_false] at h1 h2 h3
            omega
      obtain ⟨R0, C0, c1, c2, c3, c4, c5, hH, c6, c7, c8, c9, c10⟩ := hcell
      rw [c9, c8]
      simp only [Res.ok_bind]
      have hin := hH.inb R0 C0 (by rw [hH.rows]; exact c1) (by rw [hH.cols]; exact c2)
      rw [Buf.write_eq (by rw [hxs]; exact hin)]
      refine ⟨_, rfl, inv_write hS hI ht ho' hc hH hx c1 c2 (by omega) (by omega) ?_ ?_ ?_⟩
      · simp only [LocInv]
        exact ⟨⟨l1, l2, l3, l4⟩, ho', hc, ⟨s1, s2, s3⟩, l5⟩
      · intro o R C ho hna hR hC k1 k2 hf
        rw [hpc]
        simp only [Fin] at hf ⊢
        by_cases hk : key (P.combine o) R C < r
        · exact .inl (.inl hk)
        · rcases hf with h | ⟨h1, h2⟩
          · exact .inl (.inl h)
          · rcases h2 with h2 | ⟨rfl, h2⟩
            · exact .inl (.inr ⟨h1, .inl h2⟩)
            · by_cases he : subRow (P.combine o) r R = i ∧ subCol (P.combine o) r C = j
              · right
                obtain ⟨e1, e2⟩ := c10 R C he.1 he.2 (by omega)
                exact ⟨rfl, e1, e2⟩
              · left; right; exact ⟨h1, .inr ⟨rfl, by omega⟩⟩
      · intro o ho ha; rw [hpc]; simp [Merged]
    · rw [if_neg hj]
      refine ⟨_, rfl, inv_local hI ht ?_ ?_ ?_⟩
      · simp only [LocInv]
        exact ⟨⟨l1, l2, l3, l4⟩, ho', hc, ⟨s1, s2, s3⟩, l5⟩
      · intro o R C ho hna hR hC k1 k2 hf
        rw [hpc]
        simp only [Fin] at hf ⊢
        rcases hf with h | ⟨h1, h2⟩
        · exact .inl h
        · by_cases hk : key (P.combine o) R C < r
          · exact .inl hk
          right
          refine ⟨h1, ?_⟩
          rcases h2 with h2 | ⟨rfl, h2⟩
          · exact .inl h2
          · right
            refine ⟨rfl, ?_⟩
            have : subCol (P.combine o) r C < sl.numCols := by
              rcases hc with hc | hc
              · obtain ⟨q1, q2, q3⟩ := s2 hc
                simp only [subCol, hc, if_true]; omega
              · obtain ⟨q1, q2, q3⟩ := s3 hc
                simp only [subCol, key, hc, reduceCtorEq, if_false] at h1 hk ⊢; omega
            omega
      · intro o ho ha; rw [hpc]; simp [Merged]
  · rw [if_neg hi']
    refine ⟨_, rfl, inv_local hI ht ?_ ?_ ?_⟩
    · simp only [LocInv]
      refine ⟨⟨l1, l2, l3, l4⟩, fun o ho ha => ?_⟩
      have e : o ≠ o' := by rintro rfl; exact hna' ha
      have e2 : (if o < o' + 1 then r2 else r) = (if o < o' then r2 else r) := by
        by_cases h : o < o'
        · rw [if_pos h, if_pos (by omega)]
        · rw [if_neg h, if_neg (by omega)]
      rw [e2]; exact l5 o ho ha
    · intro o R C ho hna hR hC k1 k2 hf
      rw [hpc]
      simp only [Fin] at hf ⊢
      by_cases hk : key (P.combine o) R C < r
      · exact .inl hk
      rcases hf with h | ⟨h1, h2⟩
      · exact .inl h
      · right
        refine ⟨h1, ?_⟩
        by_cases e : o < o'
        · exact .inl e
        · have e : o = o' := by omega
          subst e
          right
          refine ⟨rfl, .inl ?_⟩
          have : subRow (P.combine o) r R < sl.numRows := by
            rcases hc with hc | hc
            · obtain ⟨q1, q2, q3⟩ := s2 hc
              simp only [subRow, key, hc, if_true] at h1 hk ⊢; omega
            · obtain ⟨q1, q2, q3⟩ := s3 hc
              simp only [subRow, hc, reduceCtorEq, if_false]; omega
          omega
    · intro o ho ha; rw [hpc]; simp [Merged]

/-- Shape of the combination of partial aggregates. -/
def ShapeOf (a : Option (Mat α)) (rows cols : Nat) : Prop := ∀ m, a = some m → m.rows = rows ∧ m.cols = cols

theorem fold_shape {op : α → α → α} {rows cols : Nat} (l : List (Mat α)) :
    ∀ a, ShapeOf a rows cols → (∀ m ∈ l, m.rows = rows ∧ m.cols = cols) → ShapeOf (l.foldl (combineStep op) a) rows cols := by
  induction l with
  | nil => intro a h _; exact h
  | cons m l ih =>
    intro a h hl
    refine ih _ ?_ (fun m' hm' => hl m' (List.mem_cons_of_mem _ hm'))
    have hm := hl m (List.mem_cons_self ..)
    intro m' hm'
    cases a with
    | none => simp only [combineStep, Option.some.injEq] at hm'; subst hm'; exact hm
    | some b =>
      simp only [combineStep, Option.some.injEq] at hm'; subst hm'
      exact h b rfl

/-- The final critical sections. -/
theorem step_merge (hS : Setup P ins F len ts bs) {s : St α} (hI : Inv P ins F ts bs h0 size0 init s)
    {t : Nat} (ht : t < ts.length) {o' : Nat} (hpc : (s.locs t).pc = .merge o')
    (hA : ∀ o, o < P.numOutputs → AggOk P ins F len o)
    (hinit : ∀ o, o < P.numOutputs → (P.combine o).isAgg → ShapeOf (init o) (T ins F o).rows (T ins F o).cols) :
    Res.Ok (step P ts bs s t) (Inv P ins F ts bs h0 size0 init) := by
  have hl := hI.loc t ht
  obtain ⟨hlo, hlt, hhi⟩ := tiles_range hS.tiles ht
  simp only [LocInv, hpc] at hl
  unfold step stepTask
  rw [if_pos ht]
  simp only [hpc]
  by_cases ho' : o' < P.numOutputs
  · rw [if_pos ho']
    by_cases hc : P.combine o' = .rows ∨ P.combine o' = .cols
    · rw [if_pos hc]
      refine ⟨_, rfl, inv_local hI ht ?_ ?_ ?_⟩
      · simp only [LocInv]; exact hl
      · intro o R C ho hna hR hC k1 k2 hf
        rw [hpc]; exact hf
      · intro o ho ha; rw [hpc]
        have e : o ≠ o' := by
          rintro rfl
          have := isAgg_ne ha
          rcases hc with h | h
          · exact this.1 h
          · exact this.2 h
        simp only [Merged]; omega
    · rw [if_neg hc]
      have ha' : (P.combine o').isAgg := isAgg_of_ne (fun h => hc (.inl h)) (fun h => hc (.inr h))
      have hl' := hl o' ho' ha'
      obtain ⟨⟨_, g2, _⟩, _⟩ := hA o' ho' ha'
      rcases hl' with ⟨e, _⟩ | ⟨_, y, hy, hyIs⟩
      · omega
      obtain ⟨hist, _, hh2, hh3⟩ := hI.agg o' ho' ha'
      cases hres : s.res o' with
      | none =>
        simp only [hy]
        refine ⟨_, rfl, inv_merge hI ht ha' hpc ?_ hl⟩
        intro a haIs
        rw [hres] at haIs
        cases a with
        | none => exact hyIs
        | some _ => exact haIs.elim
      | some x =>
        simp only [hy]
        have hsh : ShapeOf ((hist.map (part ins F ts o')).foldl (combineStep (P.op (P.combine o'))) (init o'))
            (T ins F o').rows (T ins F o').cols := by
          refine fold_shape _ _ (hinit o' ho' ha') ?_
          intro m hm
          rw [List.mem_map] at hm
          obtain ⟨u, hu, rfl⟩ := hm
          have hu' := ((hh2 u).1 hu).1
          obtain ⟨_, r1, r2⟩ := tiles_range hS.tiles hu'
          exact g2 _ _ r1 r2
        rw [hres] at hh3
        cases hv : (hist.map (part ins F ts o')).foldl (combineStep (P.op (P.combine o'))) (init o') with
        | none => rw [hv] at hh3; exact hh3.elim
        | some a =>
          rw [hv] at hh3
          have hxa : x.Is a := hh3
          obtain ⟨sh1, sh2⟩ := hsh a hv
          obtain ⟨d1, d2⟩ := g2 (lo ts t) (hi ts t) hlt hhi
          obtain ⟨z, hz, hzIs, _⟩ := C38_ewBinaryMat_inPlace (P.op (P.combine o')) x y _ _ hxa hyIs (by rw [d1, sh1]) (by rw [d2, sh2])
          rw [hz]
          simp only [Res.ok_bind]
          refine ⟨_, rfl, inv_merge hI ht ha' hpc ?_ hl⟩
          intro a' ha'Is
          rw [hres] at ha'Is
          cases a' with
          | none => exact ha'Is.elim
          | some a' =>
            have hs := hxa.same ha'Is
            refine DM.Is.congr hzIs ⟨hs.1, hs.2.1, fun R C hR hC => ?_⟩
            simp only [Mat.zip] at hR hC ⊢
            rw [hs.2.2 R C hR hC]; rfl
  · rw [if_neg ho']
    refine ⟨_, rfl, inv_local hI ht ?_ ?_ ?_⟩
    · simp only [LocInv]
    · intro o R C ho hna hR hC k1 k2 hf
      rw [hpc]; exact hf
    · intro o ho ha; rw [hpc]; exact ⟨fun _ => (by omega : o < o'), fun _ => trivial⟩

/-- Every step of every schedule preserves the invariant, and never fails. -/
theorem step_inv (hS : Setup P ins F len ts bs) {s : St α} (hI : Inv P ins F ts bs h0 size0 init s) (t : Nat)
    (hA : ∀ o, o < P.numOutputs → AggOk P ins F len o) (hT : ∀ o, o < P.numOutputs → TiledOk P ins F len h0 size0 o)
    (hinit : ∀ o, o < P.numOutputs → (P.combine o).isAgg → ShapeOf (init o) (T ins F o).rows (T ins F o).cols) :
    Res.Ok (step P ts bs s t) (Inv P ins F ts bs h0 size0 init) := by
  by_cases ht : t < ts.length
  · cases hpc : (s.locs t).pc with
    | batch r => exact step_batch hS hI ht hpc
    | acc r r2 lres o => exact step_acc hS hI ht hpc hA hT
    | copy r r2 lres o sl i j => exact step_copy hS hI ht hpc hT
    | merge o => exact step_merge hS hI ht hpc hA hinit
    | done =>
      unfold step stepTask
      rw [if_pos ht]
      simp only [hpc]
      refine ⟨_, rfl, inv_local hI ht ?_ ?_ ?_⟩
      · exact hI.loc t ht
      · intro o R C ho hna hR hC k1 k2 hf; exact hf
      · intro o ho ha; rfl
  · unfold step
    rw [if_neg ht]
    exact ⟨_, rfl, hI⟩

theorem run_inv (hS : Setup P ins F len ts bs) 
    (hA : ∀ o, o < P.numOutputs → AggOk P ins F len o) (hT : ∀ o, o < P.numOutputs → TiledOk P ins F len h0 size0 o)
    (hinit : ∀ o, o < P.numOutputs → (P.combine o).isAgg → ShapeOf (init o) (T ins F o).rows (T ins F o).cols)
    (sch : List Nat) : ∀ {s : St α}, Inv P ins F ts bs h0 size0 init s →
    Res.Ok (run P ts bs s sch) (Inv P ins F ts bs h0 size0 init) := by
  induction sch with
  | nil => intro s hI; exact ⟨s, rfl, hI⟩
  | cons t sch ih =>
    intro s hI
    exact (step_inv hS hI t hA hT hinit).bind fun s' hI' => ih hI'

end Verif.Vect
