import Verif.Dist.Core
/-
  Properties of the distributed runtime.
-/
namespace Verif.Dist
open Verif Verif.Dense Verif.Sched

variable {V : Type}

theorem chunk_all {ins : List (Val V × Split)} {R : Nat} (h : ∀ v, (v, Split.rows) ∈ ins → (∃ m, v = .mat m) ∧ (v.rows = R ∨ v.rows = 1)) :
    chunk ins 0 R = ins.map Prod.fst := by
  unfold chunk
  apply List.map_congr_left
  rintro ⟨v, s⟩ hx
  simp only
  split
  · rename_i hc
    obtain ⟨rfl, hne⟩ := hc
    obtain ⟨⟨m, rfl⟩, hr⟩ := h v hx
    rcases hr with hr | hr
    · simp only [Val.rows] at hr
      simp [Val.rowsOf, Mat.window, ← hr]
    · exact absurd hr hne
  · rfl

theorem chunk_one {ins : List (Val V × Split)} (h : ∀ v, (v, Split.rows) ∈ ins → v.rows = 1) (a b : Nat) :
    chunk ins a b = ins.map Prod.fst := by
  unfold chunk
  apply List.map_congr_left
  rintro ⟨v, s⟩ hx
  simp only
  rw [if_neg]
  rintro ⟨rfl, hne⟩
  exact hne (h v hx)

theorem piece_chunk {ins : List (Val V × Split)} {R n i : Nat} (h : ∀ v, (v, Split.rows) ∈ ins → (∃ m, v = .mat m) ∧ (v.rows = R ∨ v.rows = 1)) :
    ins.map (piece n i) = chunk ins (blk R n i) (blk R n (i + 1)) := by
  unfold chunk
  apply List.map_congr_left
  rintro ⟨v, s⟩ hx
  unfold piece
  simp only
  by_cases hc : s = .rows ∧ v.rows ≠ 1
  · rw [if_pos hc, if_pos hc]
    obtain ⟨rfl, hne⟩ := hc
    rcases (h v hx).2 with hr | hr
    · rw [hr]
    · exact absurd hr hne
  · rw [if_neg hc, if_neg hc]

theorem splittable_sum [AddCommMonoid V] {f : List (Val V) → Res (List (Mat V))} {ins : List (Val V × Split)} {R n : Nat} {combs : List Combine}
    {g : Nat → Nat → Nat → Mat V} (hs : Splittable f ins R combs g) (hn : 0 < n) (hR : n ≤ R) {o : Nat} (ho : combs[o]? = some .add) {r c : Nat}
    (hr : r < (g 0 R o).rows) (hc : c < (g 0 R o).cols) :
    ∀ k, k + 1 ≤ n → ((List.range (k + 1)).map fun i => (g (blk R n i) (blk R n (i + 1)) o).cell r c).sum = (g 0 (blk R n (k + 1)) o).cell r c
  | 0, _ => by simp [blk_zero]
  | k + 1, hk => by
    rw [List.range_succ, List.map_append, List.sum_append, splittable_sum hs hn hR ho hr hc k (by omega)]
    simp only [List.map_cons, List.map_nil, List.sum_cons, List.sum_nil, add_zero]
    refine ((hs.byAdd o ho).2 0 _ _ ?_ (blk_lt_succ hn hR) (blk_le hn (by omega)) r c hr hc).symm
    have := blk_lt_succ (i := k) hn hR
    omega

/-- **C196.** Whatever happened before (reachable state: matrices created and destroyed, views that are safe, pipelines executed with any order of the
responses), executing a pipeline on `n ≥ 1` workers with distinct addresses, for any order of the responses and any initial contents
of the outputs, returns, and the outputs are what the pipeline function yields locally on the whole inputs; all other matrices keep
their contents. Assumptions: the pipeline is splittable by rows (which is what the compiler claims by its splits and combines), the
row-split inputs have at least as many rows as there are workers or (`R = 1`) a single row and no `ADD` output; the inputs are pairwise
different and the output shapes are known and right. -/
theorem C196_execute_correct [AddCommMonoid V] [DecidableEq V] {ws : List Nat} (hws : ws.Nodup) (hn : 0 < ws.length) {ord : Order} (hord : ord.Valid)
    {junk : Nat → Nat → V} {p : Pipe V} {w : World V} (hw : Reachable ws w) {ins : List (Val V × Split)}
    (hins : List.Forall₂ (fun x y => x.1.Holds w y.1 ∧ x.2 = y.2) p.inputs ins) (hnd : (p.inputs.map Prod.fst).Nodup)
    {R : Nat} {g : Nat → Nat → Nat → Mat V} (hs : Splittable p.f ins R (p.outs.map Prod.fst) g)
    (hR : ws.length ≤ R ∨ (R = 1 ∧ Combine.add ∉ p.outs.map Prod.fst))
    (hshape : ∀ ms, p.f (ins.map Prod.fst) = .ok ms → p.outs.map Prod.snd = ms.map fun m => some (m.rows, m.cols)) :
    ∃ w' refs ms, execute ws ord junk p w = .ok (w', refs) ∧ p.f (ins.map Prod.fst) = .ok ms ∧
      List.Forall₂ (fun r m => w'.HasMat r m) refs ms ∧
      (∀ r o, w.objs r = some o → ∃ o', w'.objs r = some o' ∧ o'.val = o.val) ∧ ∀ r ∈ refs, w.objs r = none := by
  have hRpos : 0 < R := by omega
  have hi := reachable_inv hws hw
  have hfull := hs.eval 0 R hRpos (Nat.le_refl _)
  rw [chunk_all hs.rows] at hfull
  have hsh := hshape _ hfull
  have hlen : (p.outs.map Prod.fst).length = p.outs.length := by simp
  have hget : ∀ o F, ((List.range (p.outs.map Prod.fst).length).map (g 0 R))[o]? = some F → F = g 0 R o := by
    intro o F h
    rw [List.getElem?_map] at h
    obtain ⟨x, hx, rfl⟩ := Option.map_eq_some_iff.1 h
    obtain ⟨_, e⟩ := List.getElem?_eq_some_iff.1 hx
    simp only [List.getElem_range] at e
    rw [e]
  have hshape' : List.Forall₂ (fun (x : Combine × Option (Nat × Nat)) (F : Mat V) => x.2 = some (F.rows, F.cols)) p.outs
      ((List.range (p.outs.map Prod.fst).length).map (g 0 R)) := by
    rw [List.forall₂_iff_get]
    refine ⟨by simp, fun i h h' => ?_⟩
    have := congrArg (fun l => l[i]?) hsh
    simp only [List.getElem?_map] at this
    rw [List.getElem?_eq_getElem h, List.getElem?_eq_getElem (by simpa using h)] at this
    simp only [Option.map_some, Option.some.injEq] at this
    simpa using this
  have hcomb : ∀ x ∈ p.outs, x.1 = .rows ∨ x.1 = .cols ∨ x.1 = .add := fun x hx => hs.combs _ (List.mem_map_of_mem hx)
  have he : Enough ws.length ins := by
    intro v hv
    obtain ⟨h1, h2⟩ := hs.rows v hv
    refine ⟨h1, ?_⟩
    rcases h2 with h2 | h2
    · rcases hR with h | ⟨h, -⟩
      · exact Or.inr (by omega)
      · exact Or.inl (by omega)
    · exact Or.inl h2
  by_cases hnR : ws.length ≤ R
  · have hlt : ∀ i, blk R ws.length i < blk R ws.length (i + 1) := fun i => blk_lt_succ hn hnR
    have hle : ∀ i, i < ws.length → blk R ws.length (i + 1) ≤ R := fun i hi => blk_le hn (by omega)
    obtain ⟨w', refs, h1, h2, h3, h4⟩ := execute_core (junk := junk) hws hn hord hi hins he hnd hshape' hcomb
      (ms := fun i => (List.range (p.outs.map Prod.fst).length).map (g (blk R ws.length i) (blk R ws.length (i + 1))))
      (fun i hi => by simp)
      (fun i hi => by
        rw [piece_chunk hs.rows]
        exact hs.eval _ _ (hlt i) (hle i hi))
      (fun o x F hx hF => by
        have := hget o F hF
        subst this
        have ho : o < (p.outs.map Prod.fst).length := by
          obtain ⟨h, -⟩ := List.getElem?_eq_some_iff.1 hx
          simpa using h
        have hxc : (p.outs.map Prod.fst)[o]? = some x.1 := by rw [List.getElem?_map, hx]; rfl
        have hms : ∀ i, ((List.range (p.outs.map Prod.fst).length).map (g (blk R ws.length i) (blk R ws.length (i + 1))))[o]? =
            some (g (blk R ws.length i) (blk R ws.length (i + 1)) o) := by
          intro i
          rw [List.getElem?_map, List.getElem?_range ho]
          rfl
        refine ⟨fun hne i hi gr hg => ?_, fun ha => ?_⟩
        · refine ⟨_, hms i, ?_⟩
          rcases hcomb x (List.mem_of_getElem? hx) with e | e | e
          · rw [e] at hxc hg
            obtain ⟨e1, e2⟩ := hs.byRows o hxc
            obtain ⟨s1, s2, s3⟩ := e2 _ _ (hlt i) (hle i hi)
            rw [outputRange_rows, e1] at hg
            injection hg with hg
            rw [← hg]
            simp only [Mat.window, Nat.sub_zero] at s1 s2 s3
            simp only
            refine ⟨by omega, by omega, fun a b ha hb => ?_⟩
            rw [s3 a b (by omega) (by omega)]
          · rw [e] at hxc hg
            obtain ⟨e1, e2⟩ := hs.byCols o hxc
            obtain ⟨s1, s2, s3⟩ := e2 _ _ (hlt i) (hle i hi)
            rw [outputRange_cols, e1] at hg
            injection hg with hg
            rw [← hg]
            simp only [Mat.window, Nat.sub_zero] at s1 s2 s3
            simp only
            refine ⟨by omega, by omega, fun a b ha hb => ?_⟩
            rw [s3 a b (by omega) (by omega)]
          · exact absurd e hne
        · rw [ha] at hxc
          refine ⟨fun i => g (blk R ws.length i) (blk R ws.length (i + 1)) o, fun i hi => ⟨hms i, (hs.byAdd o hxc).1 _ _ (hlt i) (hle i hi)⟩,
            fun r c hr hc => ?_⟩
          obtain ⟨k, hk⟩ : ∃ k, ws.length = k + 1 := ⟨ws.length - 1, by omega⟩
          have := splittable_sum hs hn hnR hxc hr hc k (by omega)
          rw [← hk, blk_end hn] at this
          exact this)
    exact ⟨w', refs, _, h1, hfull, h2, h3, h4⟩
  · obtain ⟨rfl, hna⟩ : R = 1 ∧ Combine.add ∉ p.outs.map Prod.fst := by
      rcases hR with h | h
      · exact absurd h hnR
      · exact h
    have hone : ∀ v, (v, Split.rows) ∈ ins → v.rows = 1 := fun v hv => by rcases (hs.rows v hv).2 with h | h <;> exact h
    obtain ⟨w', refs, h1, h2, h3, h4⟩ := execute_core (junk := junk) hws hn hord hi hins he hnd hshape' hcomb
      (ms := fun i => (List.range (p.outs.map Prod.fst).length).map (g 0 1))
      (fun i hi => by simp)
      (fun i hi => by
        rw [piece_chunk hs.rows, chunk_one hone]
        exact hfull)
      (fun o x F hx hF => by
        have := hget o F hF
        subst this
        have ho : o < (p.outs.map Prod.fst).length := by
          obtain ⟨h, -⟩ := List.getElem?_eq_some_iff.1 hx
          simpa using h
        have hxc : (p.outs.map Prod.fst)[o]? = some x.1 := by rw [List.getElem?_map, hx]; rfl
        refine ⟨fun hne i hi gr hg => ⟨g 0 1 o, by rw [List.getElem?_map, List.getElem?_range ho]; rfl, ?_⟩, fun ha => ?_⟩
        · have b1 := blk_le (R := 1) (i := i + 1) hn (by omega)
          have b2 := blk_le_succ 1 ws.length i
          rcases hcomb x (List.mem_of_getElem? hx) with e | e | e
          · rw [e] at hxc hg
            obtain ⟨e1, -⟩ := hs.byRows o hxc
            rw [outputRange_rows, e1] at hg
            injection hg with hg
            rw [← hg]
            simp only
            refine ⟨by omega, by omega, fun a b ha hb => ?_⟩
            rw [show blk 1 ws.length i = 0 by omega, Nat.zero_add, Nat.zero_add]
          · rw [e] at hxc hg
            obtain ⟨e1, -⟩ := hs.byCols o hxc
            rw [outputRange_cols, e1] at hg
            injection hg with hg
            rw [← hg]
            simp only
            refine ⟨by omega, by omega, fun a b ha hb => ?_⟩
            rw [show blk 1 ws.length i = 0 by omega, Nat.zero_add, Nat.zero_add]
          · exact absurd e hne
        · exact absurd (ha ▸ List.mem_of_getElem? hxc) hna)
    exact ⟨w', refs, _, h1, hfull, h2, h3, h4⟩

/-! ### Data that is already there -/

theorem prepare_again {schema : DistSchema} {n dp : Nat} {o : Obj V} (hl : (o.pls.map (·.loc)).Nodup) :
    ∀ (as : List Nat) (i : Nat), (∀ j (hj : j < as.length), ∃ p ∈ o.pls, p.loc = as[j] ∧
      createRange schema o.val.rows o.val.cols n (i + j) = .ok p.range ∧ p.placed = true) →
      prepare schema n as i o dp = .ok (o, dp, [])
  | [], _, _ => rfl
  | a :: as, i, h => by
    obtain ⟨p, hp, hpl, hg, hpp⟩ := h 0 (by simp)
    simp only [List.getElem_cons_zero, Nat.add_zero] at hpl hg
    have ih := prepare_again (schema := schema) (n := n) (dp := dp) hl as (i + 1) (fun j hj => by
      obtain ⟨q, hq, h1, h2, h3⟩ := h (j + 1) (by simpa using hj)
      exact ⟨q, hq, by simpa using h1, by rw [show i + 1 + j = i + (j + 1) by omega]; exact h2, h3⟩)
    have hnc : nextChunk schema n i a o dp = .ok (o, p, dp) := by
      unfold nextChunk
      rw [hg, Res.ok_bind, findLoc_of_mem hl hp hpl]
      simp [hpp]
    unfold prepare
    rw [hnc, Res.ok_bind]
    simp only [hpp, if_true]
    exact ih

/-- **C197.** Once an object has been distributed (or broadcast) it is at the workers: distributing (broadcasting) it again sends nothing and
changes nothing, at the coordinator or at any worker, whatever the order of the responses was. -/
theorem C197_place_again [Add V] [Zero V] [DecidableEq V] {ws : List Nat} (hws : ws.Nodup) {ord ord' : Order} (hord : ord.Valid) (hord' : ord'.Valid)
    {schema : DistSchema} {k k' ref : Nat} {w w' : World V} (hw : Reachable ws w) (h : place schema ws ord k ref w = .ok w') :
    place schema ws ord' k' ref w' = .ok w' := by
  have hi := reachable_inv hws hw
  cases ho : w.objs ref with
  | none => unfold place at h; rw [ho] at h; cases h
  | some o =>
    obtain ⟨i1, -, -, -, -, o', ho', hv, hp⟩ := place_spec hws hord hi ho h
    unfold place
    rw [ho']
    simp only
    rw [prepare_again (i1.core _ _ ho').locs ws 0 (fun j hj => by
      obtain ⟨p, hpm, h1, h2, h3, -⟩ := hp j hj
      exact ⟨p, hpm, h1, by rw [hv, Nat.zero_add]; exact h2, h3⟩), Res.ok_bind]
    simp only
    rw [List.Perm.eq_nil (hord' (Req V) k' [])]
    simp only [List.foldlM_nil]
    have : ({ (w'.setObj ref o') with nextDp := w'.nextDp } : World V) = w' := by
      unfold World.setObj
      cases w'
      simp only [World.mk.injEq, and_true]
      funext r
      split
      · rename_i e; rw [e]; exact ho'.symm
      · rfl
    rw [this]
    rfl

/-! ### What goes wrong -/

/-- The multiple of a matrix. -/
def times [AddCommMonoid V] (n : Nat) (m : Mat V) : Mat V := ⟨m.rows, m.cols, fun i j => n • m.cell i j⟩

/-- **C198** (refuted). A row-split input with a single row goes to all workers; if the output is summed up, the sum over all workers is
`n` times the result of the pipeline. -/
theorem C198_one_row_add_partial [AddCommMonoid V] [DecidableEq V] {ws : List Nat} (hws : ws.Nodup) (hn : 0 < ws.length) {ord : Order} (hord : ord.Valid)
    {junk : Nat → Nat → V} {f : List (Val V) → Res (List (Mat V))} {w : World V} (hw : Reachable ws w) {ref : Nat} {o : Obj V} {x m : Mat V}
    (ho : w.objs ref = some o) (hx : o.val = .mat x) (h1 : x.rows = 1) (hf : f [.mat x] = .ok [m]) :
    ∃ w' r, execute ws ord junk ⟨f, [(.obj ref, .rows)], [(.add, some (m.rows, m.cols))]⟩ w = .ok (w', [r]) ∧
      w'.HasMat r (times ws.length m) := by
  have hi := reachable_inv hws hw
  obtain ⟨w', refs, e1, e2, -, -⟩ := execute_core (junk := junk) (p := ⟨f, [(.obj ref, .rows)], [(.add, some (m.rows, m.cols))]⟩)
    (ins := [(.mat x, .rows)]) (Fs := [times ws.length m]) (ms := fun _ => [m]) hws hn hord hi
    (.cons ⟨⟨o, ho, hx⟩, rfl⟩ .nil)
    (fun v hv => by
      simp only [List.mem_singleton, Prod.mk.injEq] at hv
      obtain ⟨rfl, -⟩ := hv
      exact ⟨⟨x, rfl⟩, Or.inl h1⟩)
    (by simp) (.cons rfl .nil) (by simp) (by simp)
    (fun i hi => by
      simp only [List.map_cons, List.map_nil, piece, Val.rows]
      rw [if_neg (by simp [h1])]
      exact hf)
    (fun k y F hy hF => by
      cases k with
      | zero =>
        simp only [List.getElem?_cons_zero, Option.some.injEq] at hy hF
        subst hy; subst hF
        refine ⟨fun h => absurd rfl h, fun _ => ⟨fun _ => m, fun i hi => ⟨rfl, rfl, rfl⟩, fun r c hr hc => ?_⟩⟩
        simp [times]
      | succ k => simp at hy)
  cases e2 with
  | cons h t =>
    cases t
    exact ⟨w', _, e1, h⟩

theorem foldlM_cons_error {α σ : Type} {f : σ → α → Res σ} {s : σ} {x : α} {xs : List α} {e : Err} (h : f s x = .error e) :
    (x :: xs).foldlM f s = .error e := by
  rw [List.foldlM_cons, h]; rfl

theorem prepare_few {n : Nat} {m : Mat V} (h2 : 1 ≤ m.rows) :
    ∀ (as : List Nat) (i dp : Nat) (pls : List Placement), i + as.length = n → as.Nodup → m.rows < n → as ≠ [] → (∀ p ∈ pls, p.loc ∉ as) →
      (prepare .distribute n as i (⟨.mat m, pls⟩ : Obj V) dp).Throws
  | [], _, _, _, _, _, _, h, _ => absurd rfl h
  | a :: as, i, dp, pls, hin, hnd, hlt, _, hpl => by
    simp only [List.length_cons] at hin
    rw [List.nodup_cons] at hnd
    have hf : Obj.findLoc (⟨.mat m, pls⟩ : Obj V) a = none := by
      unfold Obj.findLoc
      rw [List.find?_eq_none]
      intro p hp
      have := hpl p hp
      simp only [List.mem_cons, not_or] at this
      simpa using this.1
    have hnc : nextChunk .distribute n i a (⟨.mat m, pls⟩ : Obj V) dp =
        .ok (⟨.mat m, pls ++ [⟨dp, a, ⟨blk m.rows n i, 0, blk m.rows n (i + 1) - blk m.rows n i, m.cols⟩, none, false⟩]⟩,
          ⟨dp, a, ⟨blk m.rows n i, 0, blk m.rows n (i + 1) - blk m.rows n i, m.cols⟩, none, false⟩, dp + 1) := by
      unfold nextChunk
      simp only [Val.rows, Val.cols]
      rw [createRange_distribute (by omega), Res.ok_bind, hf]
      rfl
    unfold prepare
    rw [hnc, Res.ok_bind]
    simp only [Bool.false_eq_true, if_false]
    by_cases hpay : ∃ v, payload .distribute (.mat m : Val V) ⟨blk m.rows n i, 0, blk m.rows n (i + 1) - blk m.rows n i, m.cols⟩ = .ok v
    · obtain ⟨v, hv⟩ := hpay
      rw [hv, Res.ok_bind]
      have hne : as ≠ [] := by
        rintro rfl
        -- the last worker has an empty range at the end
        simp only [List.length_nil, Nat.zero_add] at hin
        simp only [payload] at hv
        split at hv
        · rename_i hval
          have hvr := (validRange_iff _ _ _).1 hval
          unfold LegalRange at hvr
          have hb : blk m.rows n i = m.rows := by
            unfold blk
            rw [Nat.div_eq_of_lt hlt, Nat.mod_eq_of_lt hlt]
            omega
          simp only [hb] at hvr
          omega
        · cases hv
      have ih := prepare_few h2 as (i + 1) (dp + 1)
        (pls ++ [⟨dp, a, ⟨blk m.rows n i, 0, blk m.rows n (i + 1) - blk m.rows n i, m.cols⟩, none, false⟩]) (by omega) hnd.2 hlt hne
        (fun p hp => by
          simp only [List.mem_append, List.mem_singleton] at hp
          rcases hp with hp | rfl
          · have := hpl p hp
            simp only [List.mem_cons, not_or] at this
            exact this.2
          · exact hnd.1)
      exact Res.throws_bind ih
    · cases hv : payload .distribute (.mat m : Val V) ⟨blk m.rows n i, 0, blk m.rows n (i + 1) - blk m.rows n i, m.cols⟩ with
      | ok v => exact absurd ⟨v, hv⟩ hpay
      | error e =>
        simp only [payload] at hv
        split at hv
        · cases hv
        · cases hv
          exact ⟨_, rfl⟩

/-- **C199** (refuted). A pipeline whose first input is row-split, has more than one row but fewer rows than there are workers, and has not been
sent before, is not executed at all. -/
theorem C199_few_rows_partial [Add V] [Zero V] [DecidableEq V] {ws : List Nat} (hws : ws.Nodup) {ord : Order} {junk : Nat → Nat → V}
    {f : List (Val V) → Res (List (Mat V))} {rest : List (In V × Split)} {outs : List (Combine × Option (Nat × Nat))} {w : World V}
    (hw : Reachable ws w) {ref : Nat} {x : Mat V} (ho : w.objs ref = some ⟨.mat x, []⟩) (h2 : 2 ≤ x.rows) (hlt : x.rows < ws.length) :
    (execute ws ord junk ⟨f, (.obj ref, .rows) :: rest, outs⟩ w).Throws := by
  have hi := reachable_inv hws hw
  obtain ⟨-, -, -, a4, -⟩ := allocOuts_spec junk outs w hi
  have hr : ref < w.nextRef := by
    by_contra hge
    rw [hi.fresh ref (by omega)] at ho
    cases ho
  unfold execute
  simp only
  split
  · exact ⟨_, rfl⟩
  · refine Res.throws_bind ?_
    simp only [placeInputs]
    rw [a4 ref hr, ho]
    have hb : isBroadcast .rows (Obj.val ⟨.mat x, []⟩).rows = false := by simp [isBroadcast, Val.rows]; omega
    simp only [hb, Bool.false_eq_true, if_false]
    refine Res.throws_bind ?_
    unfold place
    rw [a4 ref hr, ho]
    simp only
    exact Res.throws_bind (prepare_few (by omega) ws 0 _ [] (by omega) hws hlt (by rintro rfl; simp at hlt) (by simp))

/-- **C200** (refuted). A pipeline with two equal scalar arguments is not executed. -/
theorem C200_equal_scalars_partial [Add V] [Zero V] [DecidableEq V] {ws : List Nat} {ord : Order} {junk : Nat → Nat → V}
    {f : List (Val V) → Res (List (Mat V))} {ins : List (In V × Split)} {outs : List (Combine × Option (Nat × Nat))} {w : World V} {v : V} {i j : Nat}
    (hij : i < j) (h1 : ins[i]? = some (.scalar v, .none)) (h2 : ins[j]? = some (.scalar v, .none)) :
    (execute ws ord junk ⟨f, ins, outs⟩ w).Throws := by
  unfold execute
  simp only
  rw [if_pos]
  · exact ⟨_, rfl⟩
  · intro hnd
    obtain ⟨hi, e1⟩ := List.getElem?_eq_some_iff.1 h1
    obtain ⟨hj, e2⟩ := List.getElem?_eq_some_iff.1 h2
    have := (List.Nodup.getElem_inj_iff hnd (hi := by simpa using hi) (hj := by simpa using hj)).1 (by simp [e1, e2])
    omega

end Verif.Dist
