/-
  C174: row selection on frames moves whole rows; C175-C177: where it does not.
-/
import Verif.Rel.FrameBytes
import Verif.Dense.KernelProps
import Mathlib.Data.List.Forall2

namespace Verif.Rel
open Verif Verif.Dense

variable {β : Type}

/-- State of a result array after copying the elements at positions `q`. -/
def Copied (N : Nat) (q : List Nat) (c : BCol β) (d : Buf β) : Prop :=
  d.size = (N + 7) * c.vt.size ∧
  ∀ j b, j < q.length → b < c.vt.size → d.data (j * c.vt.size + b) = c.data.data (q.getD j 0 * c.vt.size + b)

theorem load_ge {vt : VTC} (h : vt ≠ .fixedStr16) : vt.size ≤ vt.load ∧ vt.load ≤ 8 * vt.size ∧ 0 < vt.size := by
  cases vt <;> simp_all [VTC.size, VTC.load]

theorem copy_elem {N i : Nat} {q : List Nat} {c : BCol β} {d : Buf β} (h : Copied N q c d) (hf : c.vt ≠ .fixedStr16)
    (hl : c.Loadable i) (hk : q.length < N) :
    Res.Ok (c.data.copy (i * c.vt.size) d (q.length * c.vt.size) c.vt.load) (Copied N (q ++ [i]) c) := by
  obtain ⟨g1, g2, g3⟩ := load_ge hf
  obtain ⟨h1, h2⟩ := h
  have hr : q.length * c.vt.size + c.vt.load ≤ d.size := by
    rw [h1]
    have : (q.length + 8) * c.vt.size ≤ (N + 7) * c.vt.size := Nat.mul_le_mul_right _ (by omega)
    rw [Nat.add_mul] at this
    omega
  refine (Buf.copy_ok (.inr hl) (.inr hr)).mono ?_
  rintro d' ⟨e1, e2⟩
  refine ⟨e1.trans h1, fun j b hj hb => ?_⟩
  rw [e2]
  rw [List.length_append, List.length_singleton] at hj
  by_cases hjk : j = q.length
  · subst hjk
    rw [if_pos ⟨by omega, by omega⟩]
    simp
  · have hjl : j < q.length := by omega
    have : (j + 1) * c.vt.size ≤ q.length * c.vt.size := Nat.mul_le_mul_right _ hjl
    rw [Nat.add_mul, Nat.one_mul] at this
    rw [if_neg (by omega), h2 j b hjl hb]
    rw [List.getD_append _ _ _ _ hjl]

theorem copyCols_ok {N i : Nat} {q : List Nat} : ∀ {cs : List (BCol β)} {ds : List (Buf β)},
    List.Forall₂ (Copied N q) cs ds → (∀ c ∈ cs, c.vt ≠ .fixedStr16) → (∀ c ∈ cs, c.Loadable i) → q.length < N →
    Res.Ok (copyCols cs ds i q.length) (List.Forall₂ (Copied N (q ++ [i])) cs) := by
  intro cs ds h
  induction h with
  | nil => intros; exact ⟨[], rfl, .nil⟩
  | cons hcd _ ih =>
    intro hf hl hk
    rw [copyCols]
    refine (copy_elem hcd (hf _ (by simp)) (hl _ (by simp)) hk).bind fun d' hd' => ?_
    refine (ih (fun c hc => hf c (by simp [hc])) (fun c hc => hl c (by simp [hc])) hk).bind fun ds' hds' => ?_
    exact ⟨_, rfl, .cons hd' hds'⟩

theorem alloc_copied (N : Nat) (cols : List (BCol β)) (junk : Nat → Nat → β) :
    List.Forall₂ (Copied N []) cols (allocCols cols (N + 7) junk) := by
  unfold allocCols
  rw [List.forall₂_iff_get]
  refine ⟨by simp, fun i h1 h2 => ?_⟩
  simp [Copied]

theorem resFrame_rows {f : BFrame β} {N : Nat} {q : List Nat} {ds : List (Buf β)}
    (h : List.Forall₂ (Copied N q) f.cols ds) (hq : ∀ i ∈ q, i < f.numRows) :
    (resFrame f q.length ds).IsRowsOf f q := by
  have hlen := h.length_eq
  refine ⟨?_, ?_, rfl, ?_⟩
  · simp only [BFrame.labels, resFrame, List.map_map]
    apply List.ext_getElem <;> simp [hlen]
  · simp only [BFrame.schema, resFrame, List.map_map]
    apply List.ext_getElem <;> simp [hlen]
  · intro c k hk
    have hqk : q.getD k 0 < f.numRows := by
      rw [List.getD_eq_getElem?_getD, List.getElem?_eq_getElem hk]
      exact hq _ (List.getElem_mem hk)
    rw [BFrame.cell_eq, BFrame.cell_eq]
    rw [if_pos hqk, if_pos (by exact hk)]
    simp only [resFrame, List.getElem?_map]
    by_cases hc : c < f.cols.length
    · have hd : c < ds.length := by omega
      have hcz : c < (f.cols.zip ds).length := by simp; omega
      rw [List.getElem?_eq_getElem hc, List.getElem?_eq_getElem hcz]
      simp only [Option.map_some, List.getElem_zip, Option.some.injEq]
      have := (List.forall₂_iff_get.1 h).2 c hc hd
      apply List.map_congr_left
      intro b hb
      exact this.2 k b hk (List.mem_range.1 hb)
    · rw [List.getElem?_eq_none (l := f.cols) (by omega), List.getElem?_eq_none (l := f.cols.zip ds) (by simp; omega)]
      rfl

/-- Every element of every column of the result can be loaded again. -/
theorem resFrame_loadable {f : BFrame β} {N : Nat} {q : List Nat} {ds : List (Buf β)}
    (h : List.Forall₂ (Copied N q) f.cols ds) (hf : ∀ c ∈ f.cols, c.vt ≠ .fixedStr16) (hN : q.length ≤ N) :
    (resFrame f q.length ds).WF ∧ ∀ c ∈ (resFrame f q.length ds).cols, ∀ r, r < q.length → c.Loadable r := by
  have key : ∀ c ∈ (resFrame f q.length ds).cols, c.data.size = (N + 7) * c.vt.size ∧ c.vt ≠ .fixedStr16 := by
    intro c hc
    obtain ⟨i, hi, rfl⟩ := List.getElem_of_mem hc
    simp only [resFrame, List.length_map, List.length_zip] at hi
    have := (List.forall₂_iff_get.1 h).2 i (by omega) (by omega)
    simp only [resFrame, List.getElem_map, List.getElem_zip]
    exact ⟨this.1, hf _ (List.getElem_mem _)⟩
  constructor
  · intro c hc
    rw [(key c hc).1]
    exact Nat.mul_le_mul_right _ (show q.length ≤ N + 7 by omega)
  · intro c hc r hr
    obtain ⟨h1, h2⟩ := key c hc
    obtain ⟨g1, g2, g3⟩ := load_ge h2
    unfold BCol.Loadable
    rw [h1]
    have : (r + 8) * c.vt.size ≤ (N + 7) * c.vt.size := Nat.mul_le_mul_right _ (by omega)
    rw [Nat.add_mul] at this
    omega

/-- **C174 (filter).** Filtering the rows of a frame by a column matrix with one entry per row gives exactly the rows whose
entry is not zero, in order, with all cells of these rows; and the result can be filtered again. The frame may have
any value types except `FixedStr16`, provided 8 bytes can be loaded at each selected row. -/
theorem C174_filterRow (junk : Nat → Nat → β) (f : BFrame β) (hlab : f.labels.Nodup) (hcols : f.cols ≠ [])
    (hvt : ∀ c ∈ f.cols, c.vt ≠ .fixedStr16) (sel : DM Int) (s : List Int) (hsel : IsPositions sel s)
    (hlen : s.length = f.numRows) (hload : ∀ c ∈ f.cols, ∀ r, r < f.numRows → s.getD r 0 ≠ 0 → c.Loadable r) :
    Res.Ok (filterRowB junk f sel) (fun g => g.IsRowsOf f (positions f.numRows fun r => s.getD r 0 ≠ 0) ∧ g.WF ∧
      ∀ c ∈ g.cols, ∀ r, r < g.numRows → c.Loadable r) := by
  have s1 : sel.numRows = f.numRows := hsel.1.rows.trans hlen
  have s2 : sel.numCols = 1 := hsel.1.cols
  obtain ⟨m, hm, _⟩ := (initL_iff f.labels).1 hlab
  unfold filterRowB
  rw [s1, s2, if_neg (by simp), if_neg (by simp), hm, Res.ok_bind]
  generalize hp : (fun r => decide (s.getD r 0 ≠ 0)) = p
  have hp' : ∀ r, p r = decide (s.getD r 0 ≠ 0) := fun r => by rw [← hp]
  refine Res.Ok.bind (forLoop_ok (fun i (st : Nat × List (Buf β)) => st.1 = (positions i p).length ∧
      List.Forall₂ (Copied f.numRows (positions i p)) f.cols st.2) 0 f.numRows _ (Nat.zero_le _)
      ⟨by simp [positions], by simpa [positions] using alloc_copied f.numRows f.cols junk⟩ ?_) ?_
  · rintro r ⟨k, ds⟩ _ hr ⟨h1, h2⟩
    simp only at h1 h2
    unfold filterStep
    rw [hsel.read (by omega), Res.ok_bind]
    have hsucc := positions_succ r p
    by_cases hv : s.getD r 0 ≠ 0
    · have hpr : p r = true := by rw [hp']; simpa using hv
      rw [if_pos hv]
      rw [hpr, if_pos rfl] at hsucc
      have hk : (positions r p).length < f.numRows := by
        have h3 := positions_len_mono p (show r + 1 ≤ f.numRows by omega)
        have h4 : (positions f.numRows p).length ≤ f.numRows := by
          unfold positions
          exact Nat.le_trans (List.length_filter_le _ _) (by simp)
        rw [hsucc] at h3
        simp at h3
        omega
      rw [h1]
      refine (copyCols_ok h2 hvt (fun c hc => hload c hc r hr hv) hk).bind fun ds' hds' => ?_
      refine ⟨_, rfl, ?_, ?_⟩
      · rw [hsucc]; simp
      · rw [hsucc]; exact hds'
    · have hpr : p r = false := by rw [hp']; simpa using hv
      rw [if_neg hv]
      rw [hpr] at hsucc
      simp at hsucc
      exact ⟨_, rfl, by rw [hsucc]; exact ⟨h1, h2⟩⟩
  · rintro ⟨k, ds⟩ ⟨h1, h2⟩
    simp only at h1 h2 ⊢
    have hmv : movedRows f k = .ok (positions f.numRows p).length := by
      unfold movedRows
      cases hc : f.cols with
      | nil => exact absurd hc hcols
      | cons c cs =>
        have := (load_ge (hvt c (by rw [hc]; simp))).2.2
        simp only [h1]
        rw [Nat.mul_div_cancel _ this]
    rw [hmv, Res.ok_bind]
    refine ⟨_, rfl, resFrame_rows h2 (fun i hi => (positions_lt hi).1), ?_⟩
    exact resFrame_loadable h2 hvt (by
      unfold positions
      exact Nat.le_trans (List.length_filter_le _ _) (by simp))

/-- **C174 (filter, invalid).** A selection with a different number of rows, or with several columns, is rejected. -/
theorem C174_filterRow_invalid (junk : Nat → Nat → β) (f : BFrame β) (sel : DM Int)
    (h : sel.numRows ≠ f.numRows ∨ sel.numCols ≠ 1) : Res.Throws (filterRowB junk f sel) := by
  unfold filterRowB
  by_cases h1 : sel.numRows ≠ f.numRows
  · rw [if_pos h1]; exact ⟨_, rfl⟩
  · rw [if_neg h1, if_pos (by tauto)]; exact ⟨_, rfl⟩

/-- **C174 (extract).** Extracting rows of a frame by positions gives these rows in the order of the positions; a position
out of range makes the call throw. -/
theorem C174_extractRow (junk : Nat → Nat → β) (f : BFrame β) (hlab : f.labels.Nodup)
    (hvt : ∀ c ∈ f.cols, c.vt ≠ .fixedStr16) (sel : DM Int) (s : List Int) (hsel : IsPositions sel s)
    (hload : ∀ c ∈ f.cols, ∀ v ∈ s, ∀ r, Addresses v f.numRows r → c.Loadable r) :
    (∀ q : List Nat, q.length = s.length → (∀ i, i < s.length → Addresses (s.getD i 0) f.numRows (q.getD i 0)) →
      Res.Ok (extractRowB junk f sel) (fun g => g.IsRowsOf f q ∧ g.WF ∧ ∀ c ∈ g.cols, ∀ r, r < g.numRows → c.Loadable r)) ∧
    ((∃ v ∈ s, ∀ i, ¬ Addresses v f.numRows i) → Res.Throws (extractRowB junk f sel)) := by
  have s1 : sel.numRows = s.length := hsel.1.rows
  have s2 : sel.numCols = 1 := hsel.1.cols
  obtain ⟨m, hm, _⟩ := (initL_iff f.labels).1 hlab
  have step : ∀ (q : List Nat) (r : Nat) (ds : List (Buf β)) (i : Nat), r < s.length → q.length = r →
      List.Forall₂ (Copied s.length q) f.cols ds → Addresses (s.getD r 0) f.numRows i →
      Res.Ok (sel.mem.read (sel.h.start + r) >>= fun v => resolvePos v f.numRows >>= fun p => copyCols f.cols ds p r)
        (List.Forall₂ (Copied s.length (q ++ [i])) f.cols) := by
    intro q r ds i hr hq h ha
    rw [hsel.read hr, Res.ok_bind, resolvePos_ok ha, Res.ok_bind, ← hq]
    refine copyCols_ok h hvt (fun c hc => hload c hc _ ?_ _ ha) (by omega)
    rw [List.getD_eq_getElem?_getD, List.getElem?_eq_getElem hr]
    exact List.getElem_mem hr
  unfold extractRowB
  rw [s1, s2, if_neg (by simp), hm, Res.ok_bind]
  constructor
  · intro q hq ha
    refine Res.Ok.bind (forLoop_ok (fun r (ds : List (Buf β)) => List.Forall₂ (Copied s.length (q.take r)) f.cols ds)
      0 s.length _ (Nat.zero_le _) (by simpa using alloc_copied s.length f.cols junk) ?_) ?_
    · intro r ds _ hr h
      have := step (q.take r) r ds (q.getD r 0) hr (by simp; omega) h (ha r hr)
      have e : q.take (r + 1) = q.take r ++ [q.getD r 0] := by
        rw [List.take_add_one, List.getD_eq_getElem?_getD, List.getElem?_eq_getElem (show r < q.length by omega)]
        rfl
      rw [e]
      exact this
    · intro ds h
      rw [← hq, List.take_length, hq] at h
      refine ⟨_, rfl, ?_⟩
      rw [← hq]
      refine ⟨resFrame_rows h ?_, resFrame_loadable h hvt (by omega)⟩
      intro i hi
      obtain ⟨j, hj, rfl⟩ := List.getElem_of_mem hi
      have := ha j (by omega)
      rw [List.getD_eq_getElem?_getD (l := q), List.getElem?_eq_getElem hj] at this
      exact this.1
  · rintro ⟨v, hv, hnot⟩
    refine Res.throws_bind ?_
    obtain ⟨j, hj, hjv⟩ := List.getElem_of_mem hv
    refine forLoop_throws (fun ds => List.Forall₂ (fun (c : BCol β) d => d.size = (s.length + 7) * c.vt.size) f.cols ds) 0
      s.length _ ?_ ?_ ⟨j, Nat.zero_le _, hj, ?_⟩
    · exact (alloc_copied s.length f.cols junk).imp fun c d h => h.1
    · intro r ds _ hr hds
      by_cases hex : ∃ i, Addresses (s.getD r 0) f.numRows i
      · obtain ⟨i, hi⟩ := hex
        left
        rw [hsel.read hr, Res.ok_bind, resolvePos_ok hi, Res.ok_bind]
        have hmem : s.getD r 0 ∈ s := by
          rw [List.getD_eq_getElem?_getD, List.getElem?_eq_getElem hr]; exact List.getElem_mem hr
        have : ∀ (cs : List (BCol β)) (ds : List (Buf β)), (∀ c ∈ cs, c.vt ≠ .fixedStr16) → (∀ c ∈ cs, c.Loadable i) →
            List.Forall₂ (fun (c : BCol β) d => d.size = (s.length + 7) * c.vt.size) cs ds →
            Res.Ok (copyCols cs ds i r) (List.Forall₂ (fun (c : BCol β) d => d.size = (s.length + 7) * c.vt.size) cs) := by
          intro cs ds h1 h2 h3
          induction h3 with
          | nil => exact ⟨[], rfl, .nil⟩
          | @cons c d cs ds hcd _ ih =>
            rw [copyCols]
            obtain ⟨g1, g2, g3⟩ := load_ge (h1 c (by simp))
            have hb : r * c.vt.size + c.vt.load ≤ d.size := by
              rw [hcd]
              have : (r + 8) * c.vt.size ≤ (s.length + 7) * c.vt.size := Nat.mul_le_mul_right _ (by omega)
              rw [Nat.add_mul] at this
              omega
            refine (Buf.copy_ok (.inr (h2 c (by simp))) (.inr hb)).bind fun d' hd' => ?_
            refine (ih (fun c hc => h1 c (by simp [hc])) (fun c hc => h2 c (by simp [hc]))).bind fun ds' hds' => ?_
            exact ⟨_, rfl, .cons (hd'.1.trans hcd) hds'⟩
        exact this f.cols ds hvt (fun c hc => hload c hc _ hmem _ hi) hds
      · right
        rw [hsel.read hr, Res.ok_bind]
        exact Res.throws_bind ⟨_, resolvePos_throws (fun i hi => hex ⟨i, hi⟩)⟩
    · intro ds _
      rw [hsel.read hj, Res.ok_bind]
      refine Res.throws_bind ⟨_, resolvePos_throws ?_⟩
      rw [List.getD_eq_getElem?_getD, List.getElem?_eq_getElem hj, Option.getD_some, hjv]
      exact hnot

/-- When 8 bytes can be loaded at every row: value types of 8 bytes and strings need no padding, the others 7 bytes. -/
theorem loadable_of_wf {f : BFrame β} (hw : f.WF) {c : BCol β} (hc : c ∈ f.cols)
    (h : 8 ≤ c.vt.size ∨ f.numRows * c.vt.size + 7 ≤ c.data.size) {r : Nat} (hr : r < f.numRows) (hvt : c.vt ≠ .fixedStr16) :
    c.Loadable r := by
  have h1 := hw c hc
  have h2 : (r + 1) * c.vt.size ≤ f.numRows * c.vt.size := Nat.mul_le_mul_right _ hr
  rw [Nat.add_mul] at h2
  unfold BCol.Loadable
  revert h h1 h2
  cases hv : c.vt <;> simp_all [VTC.size, VTC.load] <;> omega

/-! ## Where the copying in units of 8 bytes goes wrong -/

theorem forFrom_ub {σ : Type} {body : Nat → σ → Res σ} (Inv : σ → Prop) : ∀ (k i : Nat) (s : σ), Inv s →
    (∀ j s, i ≤ j → j < i + k → Inv s → Res.Ok (body j s) Inv ∨ Res.IsUB (body j s)) →
    (∃ j, i ≤ j ∧ j < i + k ∧ ∀ s, Inv s → Res.IsUB (body j s)) → Res.IsUB (forFrom i k s body)
  | 0, i, s, _, _, ⟨j, h1, h2, _⟩ => by omega
  | k + 1, i, s, h0, hs, ⟨j, h1, h2, hj⟩ => by
    unfold forFrom
    rcases hs i s (Nat.le_refl _) (by omega) h0 with ⟨a, ea, ha⟩ | ⟨why, ew⟩
    · rw [ea]
      have hne : j ≠ i := by
        rintro rfl
        obtain ⟨why, ew⟩ := hj s h0
        rw [ew] at ea; cases ea
      exact forFrom_ub Inv k (i + 1) a ha (fun j' s' a1 a2 a3 => hs j' s' (by omega) (by omega) a3)
        ⟨j, by omega, by omega, hj⟩
    · exact ⟨why, by rw [ew]; rfl⟩

theorem copyCols_ok_or_ub (i k : Nat) : ∀ (cs : List (BCol β)) (ds : List (Buf β)), cs.length = ds.length →
    Res.Ok (copyCols cs ds i k) (fun ds' => cs.length = ds'.length) ∨ Res.IsUB (copyCols cs ds i k)
  | [], [], _ => .inl ⟨[], rfl, rfl⟩
  | c :: cs, d :: ds, h => by
    rw [copyCols]
    have hc : (∃ d', c.data.copy (i * c.vt.size) d (k * c.vt.size) c.vt.load = .ok d') ∨
        Res.IsUB (c.data.copy (i * c.vt.size) d (k * c.vt.size) c.vt.load) := by
      unfold Buf.copy
      split
      · exact .inl ⟨_, rfl⟩
      · split
        · exact .inr ⟨_, rfl⟩
        · split
          · exact .inr ⟨_, rfl⟩
          · exact .inl ⟨_, rfl⟩
    rcases hc with ⟨d', e⟩ | ⟨w, e⟩
    · rw [e, Res.ok_bind]
      rcases copyCols_ok_or_ub i k cs ds (by simpa using h) with ⟨ds', e', hl⟩ | ⟨w, e'⟩
      · rw [e']; exact .inl ⟨_, rfl, by simpa using hl⟩
      · rw [e']; exact .inr ⟨w, rfl⟩
    · rw [e]; exact .inr ⟨w, rfl⟩

theorem copyCols_ub (i k : Nat) : ∀ (cs : List (BCol β)) (ds : List (Buf β)), cs.length = ds.length →
    (∃ c ∈ cs, ¬ c.Loadable i) → Res.IsUB (copyCols cs ds i k)
  | [], _, _, h => by simp at h
  | c :: cs, d :: ds, hl, h => by
    rw [copyCols]
    have hpos : c.vt.load ≠ 0 := by cases c.vt <;> simp [VTC.load, VTC.size]
    by_cases hc : c.Loadable i
    · have h' : ∃ c ∈ cs, ¬ c.Loadable i := by
        obtain ⟨c', hm, hn⟩ := h
        rcases List.mem_cons.1 hm with rfl | hm
        · exact absurd hc hn
        · exact ⟨c', hm, hn⟩
      obtain ⟨w, e⟩ := copyCols_ub i k cs ds (by simpa using hl) h'
      unfold Buf.copy
      unfold BCol.Loadable at hc
      rw [if_neg hpos, if_neg (by omega), e]
      split
      · exact ⟨_, rfl⟩
      · exact ⟨_, rfl⟩
    · unfold BCol.Loadable at hc
      unfold Buf.copy
      rw [if_neg hpos, if_pos (by omega)]
      exact ⟨_, rfl⟩

/-- **C175 (refuted).** Whenever a frame has a column of a value type with fewer than 8 bytes whose array holds exactly the
rows of the frame, and the last row is selected, filtering reads beyond the end of that array. -/
theorem C175_filterRow_partial (junk : Nat → Nat → β) (f : BFrame β) (hlab : f.labels.Nodup) (sel : DM Int) (s : List Int)
    (hsel : IsPositions sel s) (hlen : s.length = f.numRows) (n : Nat) (hn : f.numRows = n + 1) (hlast : s.getD n 0 ≠ 0)
    (c : BCol β) (hc : c ∈ f.cols) (hsmall : c.vt.size < 8) (hexact : c.data.size = f.numRows * c.vt.size) :
    Res.IsUB (filterRowB junk f sel) := by
  have s1 : sel.numRows = f.numRows := hsel.1.rows.trans hlen
  have s2 : sel.numCols = 1 := hsel.1.cols
  obtain ⟨m, hm, _⟩ := (initL_iff f.labels).1 hlab
  unfold filterRowB
  rw [s1, s2, if_neg (by simp), if_neg (by simp), hm, Res.ok_bind]
  have hub : Res.IsUB (forLoop 0 f.numRows (0, allocCols f.cols (f.numRows + 7) junk) (filterStep f sel)) := by
    unfold forLoop
    refine forFrom_ub (fun st => f.cols.length = st.2.length) _ 0 _ (by simp [allocCols]) ?_ ⟨n, by omega, by omega, ?_⟩
    · rintro r ⟨k, ds⟩ _ hr hl
      unfold filterStep
      rw [hsel.read (by omega), Res.ok_bind]
      by_cases hv : s.getD r 0 ≠ 0
      · rw [if_pos hv]
        rcases copyCols_ok_or_ub r k f.cols ds hl with ⟨ds', e, h⟩ | ⟨w, e⟩
        · simp only [e]; exact .inl ⟨_, rfl, h⟩
        · simp only [e]; exact .inr ⟨w, rfl⟩
      · rw [if_neg hv]; exact .inl ⟨_, rfl, hl⟩
    · rintro ⟨k, ds⟩ hl
      unfold filterStep
      rw [hsel.read (by omega), Res.ok_bind, if_pos hlast]
      obtain ⟨w, e⟩ := copyCols_ub n k f.cols ds hl ⟨c, hc, by
        unfold BCol.Loadable
        rw [hexact, hn]
        revert hsmall
        cases c.vt <;> simp [VTC.size, VTC.load] <;> omega⟩
      simp only [e]
      exact ⟨w, rfl⟩
  obtain ⟨w, e⟩ := hub
  rw [e]
  exact ⟨w, rfl⟩

/-- **C176 (refuted).** Filtering a frame consisting of a column of `FixedStr16` values (16 bytes each): the second half of
each value of the result is whatever the fresh array contained. -/
theorem C176_filterRow_partial (junk : Nat → Nat → β) (f : BFrame β) (l : String) (data : Buf β)
    (hf : f.cols = [⟨.fixedStr16, l, data⟩]) (hw : f.WF) (sel : DM Int) (s : List Int) (hsel : IsPositions sel s)
    (hlen : s.length = f.numRows) :
    Res.Ok (filterRowB junk f sel) (fun g => g.numRows = (positions f.numRows fun r => s.getD r 0 ≠ 0).length ∧
      ∃ d, g.cols = [⟨.fixedStr16, l, d⟩] ∧ ∀ (k b : Nat), k < g.numRows → 8 ≤ b → b < 16 →
        d.data (k * 16 + b) = junk 0 (k * 16 + b)) := by
  have s1 : sel.numRows = f.numRows := hsel.1.rows.trans hlen
  have s2 : sel.numCols = 1 := hsel.1.cols
  have hlab : f.labels.Nodup := by simp [BFrame.labels, hf]
  have hsz : f.numRows * 16 ≤ data.size := by
    have := hw ⟨.fixedStr16, l, data⟩ (by rw [hf]; simp)
    simpa [VTC.size] using this
  obtain ⟨m, hm, _⟩ := (initL_iff f.labels).1 hlab
  unfold filterRowB
  rw [s1, s2, if_neg (by simp), if_neg (by simp), hm, Res.ok_bind]
  generalize hp : (fun r => decide (s.getD r 0 ≠ 0)) = p
  have hp' : ∀ r, p r = decide (s.getD r 0 ≠ 0) := fun r => by rw [← hp]
  refine Res.Ok.bind (forLoop_ok (fun i (st : Nat × List (Buf β)) => st.1 = (positions i p).length ∧
      ∃ d, st.2 = [d] ∧ d.size = (f.numRows + 7) * 16 ∧ ∀ k b : Nat, 8 ≤ b → b < 16 → d.data (k * 16 + b) = junk 0 (k * 16 + b))
      0 f.numRows _ (Nat.zero_le _)
      ⟨by simp [positions], ⟨_, by simp [allocCols, hf]; rfl, rfl, fun k b _ _ => rfl⟩⟩ ?_) ?_
  · rintro r ⟨k, ds⟩ _ hr ⟨h1, d, h2, h3, h4⟩
    simp only at h1 h2
    subst h2
    unfold filterStep
    rw [hsel.read (by omega), Res.ok_bind]
    have hsucc := positions_succ r p
    by_cases hv : s.getD r 0 ≠ 0
    · have hpr : p r = true := by rw [hp']; simpa using hv
      rw [if_pos hv]
      rw [hpr, if_pos rfl] at hsucc
      have hk : k ≤ r := by
        rw [h1]; unfold positions
        exact Nat.le_trans (List.length_filter_le _ _) (by simp)
      obtain ⟨d', e, e1, e2⟩ := Buf.copy_ok (src := data) (dst := d) (s := r * 16) (d := k * 16) (n := 8) (.inr (by omega))
        (.inr (by rw [h3]; omega))
      have : copyCols f.cols [d] r k = .ok [d'] := by
        rw [hf]
        simp only [copyCols, VTC.size, VTC.load]
        rw [if_neg (by decide), e]
        rfl
      simp only [this]
      refine ⟨_, rfl, ?_, d', rfl, e1.trans h3, ?_⟩
      · rw [hsucc]; simp [h1]
      · intro k' b hb1 hb2
        rw [e2, if_neg (by omega)]
        exact h4 k' b hb1 hb2
    · have hpr : p r = false := by rw [hp']; simpa using hv
      rw [if_neg hv]
      rw [hpr] at hsucc
      simp at hsucc
      exact ⟨_, rfl, by rw [hsucc]; exact h1, d, rfl, h3, h4⟩
  · rintro ⟨k, ds⟩ ⟨h1, d, h2, h3, h4⟩
    simp only at h1 h2
    subst h2
    have hmv : movedRows f k = .ok (positions f.numRows p).length := by
      unfold movedRows
      rw [hf]
      simp only [h1, VTC.size]
      rw [Nat.mul_div_cancel _ (by decide)]
    simp only [hmv]
    exact ⟨_, rfl, rfl, d, by simp [resFrame, hf], fun k b _ => h4 k b⟩

namespace BytesExample

/-- A frame with a `si8`, an `si64` and a string column of three rows; the bytes are numbered. The arrays have the padding that
the row-selection kernels give to their results. -/
def fr : BFrame Nat :=
  ⟨3, [⟨.si8, "a", ⟨10, fun i => 100 + i⟩⟩, ⟨.si64, "b", ⟨24, fun i => 200 + i⟩⟩, ⟨.str, "c", ⟨96, fun i => 300 + i⟩⟩]⟩

/-- Selection of rows 0 and 2. -/
def sel : DM Int := ⟨Hdr.new 3 1, ⟨3, fun i => if i = 1 then 0 else 7⟩⟩

theorem sel_is : IsPositions sel [7, 0, 7] := by
  refine ⟨is_new rfl fun r c hr hc => ?_, rfl⟩
  have : c = 0 := by simp at hc; exact hc
  subst this
  match r, hr with
  | 0, _ => rfl
  | 1, _ => rfl
  | 2, _ => rfl

theorem fr_loadable : ∀ c ∈ fr.cols, ∀ r, r < fr.numRows → c.Loadable r := by
  intro c hc r hr
  simp only [fr] at hr
  simp only [fr, List.mem_cons, List.not_mem_nil, or_false] at hc
  rcases hc with rfl | rfl | rfl <;> simp [BCol.Loadable, VTC.size, VTC.load] <;> omega

/-- The hypotheses of `C174_filterRow` are met by a frame with three different value types. -/
example (junk : Nat → Nat → Nat) : Res.Ok (filterRowB junk fr sel) (fun g => g.IsRowsOf fr [0, 2]) := by
  have := C174_filterRow junk fr (by decide) (by decide) (by decide) sel [7, 0, 7] sel_is rfl
    (fun c hc r hr _ => fr_loadable c hc r hr)
  exact this.mono fun g h => h.1

/-- The hypotheses of `C174_extractRow` are met: rows 2 and 0, the former given as -1. -/
def pos : DM Int := ⟨Hdr.new 2 1, ⟨2, fun i => if i = 0 then -1 else 0⟩⟩

theorem pos_is : IsPositions pos [-1, 0] := by
  refine ⟨is_new rfl fun r c hr hc => ?_, rfl⟩
  have : c = 0 := by simp at hc; exact hc
  subst this
  match r, hr with
  | 0, _ => rfl
  | 1, _ => rfl

example (junk : Nat → Nat → Nat) : Res.Ok (extractRowB junk fr pos) (fun g => g.IsRowsOf fr [2, 0]) := by
  have := (C174_extractRow junk fr (by decide) (by decide) pos [-1, 0] pos_is
    (fun c hc v _ r hr => fr_loadable c hc r hr.1)).1 [2, 0] rfl (by
      intro i hi
      simp at hi
      match i, hi with
      | 0, _ => exact ⟨by decide, .inr (by decide)⟩
      | 1, _ => exact ⟨by decide, .inl (by decide)⟩)
  exact this.mono fun g h => h.1

/-- The same frame, its `si8` column being an array of exactly three bytes (as made from a column matrix). -/
def frExact : BFrame Nat := ⟨3, [⟨.si8, "a", ⟨3, fun i => 100 + i⟩⟩]⟩

/-- The hypotheses of `C175_filterRow_partial` are met. -/
example (junk : Nat → Nat → Nat) : Res.IsUB (filterRowB junk frExact sel) :=
  C175_filterRow_partial junk frExact (by decide) sel [7, 0, 7] sel_is rfl 2 rfl (by decide) _ (List.mem_singleton.2 rfl)
    (by decide) rfl

/-- A frame of one `FixedStr16` column of two rows. -/
def frFix : BFrame Nat := ⟨3, [⟨.fixedStr16, "a", ⟨48, fun i => 100 + i⟩⟩]⟩

/-- **C176**, concretely: the filtered frame is not made of the selected rows. -/
theorem C176_filterRow_example_partial : ¬ Res.Ok (filterRowB (fun _ _ => 0) frFix sel) (fun g => g.IsRowsOf frFix [0, 2]) := by
  rintro ⟨g, e, h⟩
  have h1 := C176_filterRow_partial (fun _ _ => 0) frFix "a" _ rfl (by
    intro c hc; simp [frFix] at hc; subst hc; decide) sel [7, 0, 7] sel_is rfl
  obtain ⟨g', e', hn, d, hd, hj⟩ := h1
  rw [e] at e'
  cases e'
  have hn' : g.numRows = 2 := hn
  have hcell := h.2.2.2 0 0 (by decide)
  have h8 := hj 0 8 (by omega) (by omega) (by omega)
  rw [BFrame.cell_eq, BFrame.cell_eq] at hcell
  rw [if_pos (by omega), if_pos (by decide), hd] at hcell
  simp only [List.getElem?_cons_zero, Option.map_some] at hcell
  have := congrArg (fun l : Option (List Nat) => (l.getD []).getD 8 0) hcell
  simp [VTC.size, frFix, List.range_succ] at this h8
  omega

/-- A column of a 3x2 matrix (row skip 2), containing 0, 0, 1; the other column contains 1, 0, 0. -/
def selView : DM Int := ⟨⟨3, 1, 2, 0, 0, 0, 6, true, 0, 0⟩, ⟨6, fun i => if i = 1 ∨ i = 4 then 1 else 0⟩⟩

/-- A frame of one `si64` column of three rows. -/
def fr8 : BFrame Nat := ⟨3, [⟨.si64, "a", ⟨24, fun i => 100 + i⟩⟩]⟩

/-- **C177 (refuted).** If the selection is a column cut out of a wider matrix, its entries are read from the wrong
addresses: here row 2 is selected, but the result is row 1. -/
theorem C177_filterRow_view_partial : selView.Is ⟨3, 1, fun r _ => if r = 2 then 1 else 0⟩ ∧
    Res.Ok (filterRowB (fun _ _ => 0) fr8 selView) (fun g => g.numRows = 1 ∧ g.cell 0 0 = fr8.cell 0 1 ∧ fr8.cell 0 1 ≠ fr8.cell 0 2) := by
  constructor
  · refine is_of_data ⟨by decide, by decide, ?_, by decide⟩ rfl rfl ?_
    · intro r c hr hc
      simp [selView] at hr hc ⊢
      omega
    · intro r c hr hc
      simp at hr hc
      subst hc
      match r, hr with
      | 0, _ => rfl
      | 1, _ => rfl
      | 2, _ => rfl
  · exact ⟨_, rfl, by decide +kernel, by decide +kernel, by decide +kernel⟩

end BytesExample

end Verif.Rel
