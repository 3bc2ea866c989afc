import Verif.Dist.Place
/-
  Success of the sending phase; the phase that runs the task.
-/
namespace Verif.Dist
open Verif Verif.Dense Verif.Sched

variable {V : Type}

/-! ### Sending succeeds -/

/-- Start of the `i`-th of `n` blocks. -/
def blk (R n i : Nat) : Nat := i * (R / n) + min i (R % n)

theorem blk_zero (R n : Nat) : blk R n 0 = 0 := by simp [blk]
theorem blk_end {R n : Nat} (h : 0 < n) : blk R n n = R := block_end R n h
theorem blk_le_succ (R n i : Nat) : blk R n i ≤ blk R n (i + 1) := block_le R n i
theorem blk_mono {R n i j : Nat} (h : i ≤ j) : blk R n i ≤ blk R n j := by
  induction j, h using Nat.le_induction with
  | base => exact Nat.le_refl _
  | succ j _ ih => exact Nat.le_trans ih (blk_le_succ R n j)
theorem blk_lt_succ {R n i : Nat} (hn : 0 < n) (h : n ≤ R) : blk R n i < blk R n (i + 1) := by
  have hk : 1 ≤ R / n := (Nat.le_div_iff_mul_le hn).2 (by omega)
  unfold blk
  generalize R / n = k at *
  have : (i + 1) * k = i * k + k := by ring
  omega
theorem blk_le {R n i : Nat} (hn : 0 < n) (hi : i ≤ n) : blk R n i ≤ R := by
  have := blk_mono (R := R) (n := n) hi
  rwa [blk_end hn] at this
/-- Every row lies in a block. -/
theorem blk_find {R n r : Nat} (hn : 0 < n) (hr : r < R) : ∃ i, i < n ∧ blk R n i ≤ r ∧ r < blk R n (i + 1) := by
  have key : ∀ k, k ≤ n → r < blk R n k → ∃ i, i < k ∧ blk R n i ≤ r ∧ r < blk R n (i + 1) := by
    intro k
    induction k with
    | zero => intro _ h; rw [blk_zero] at h; omega
    | succ k ih =>
      intro hk h
      by_cases h' : blk R n k ≤ r
      · exact ⟨k, by omega, h', h⟩
      · obtain ⟨i, h1, h2⟩ := ih (by omega) (by omega)
        exact ⟨i, by omega, h2⟩
  exact key n (Nat.le_refl _) (by rw [blk_end hn]; exact hr)
/-- Blocks do not overlap. -/
theorem blk_unique {R n r i j : Nat} (h1 : blk R n i ≤ r) (h2 : r < blk R n (i + 1)) (h3 : blk R n j ≤ r) (h4 : r < blk R n (j + 1)) :
    i = j := by
  rcases Nat.lt_trichotomy i j with h | h | h
  · have := blk_mono (R := R) (n := n) (show i + 1 ≤ j by omega); omega
  · exact h
  · have := blk_mono (R := R) (n := n) (show j + 1 ≤ i by omega); omega

theorem createRange_distribute {R C n i : Nat} (hn : 0 < n) :
    createRange .distribute R C n i = .ok ⟨blk R n i, 0, blk R n (i + 1) - blk R n i, C⟩ := by
  simp only [createRange]
  rw [if_neg (by omega)]
  rfl

/-- The schema can be used for the value. -/
def Sendable (schema : DistSchema) (n : Nat) (v : Val V) : Prop :=
  schema = .broadcast ∨ ((∃ m, v = .mat m) ∧ n ≤ v.rows)

theorem payload_ok {schema : DistSchema} {n i : Nat} {v : Val V} (hi : i < n) (h : Sendable schema n v) {g : Range}
    (hg : createRange schema v.rows v.cols n i = .ok g) : ∃ u, payload schema v g = .ok u := by
  rcases h with rfl | ⟨⟨m, rfl⟩, hle⟩
  · exact ⟨v, by cases v <;> rfl⟩
  · cases schema with
    | broadcast => exact ⟨_, rfl⟩
    | distribute =>
      rw [createRange_distribute (by omega)] at hg
      cases hg
      simp only [Val.rows] at hle ⊢
      have h1 := blk_lt_succ (R := m.rows) (n := n) (i := i) (by omega) hle
      have h2 := blk_le (R := m.rows) (n := n) (i := i + 1) (by omega) (by omega)
      refine ⟨.mat (m.window (blk m.rows n i) (blk m.rows n i + (blk m.rows n (i + 1) - blk m.rows n i)) 0 m.cols), ?_⟩
      simp only [payload]
      rw [if_pos]
      simp only [Hdr.validRange]
      simp
      omega

theorem nextChunk_ok {schema : DistSchema} {n i a dp : Nat} {o : Obj V} (hi : i < n) :
    ∃ o' p dp', nextChunk schema n i a o dp = .ok (o', p, dp') := by
  unfold nextChunk
  have : ∃ g, createRange schema o.val.rows o.val.cols n i = .ok g := by
    cases schema with
    | broadcast => exact ⟨_, rfl⟩
    | distribute => exact ⟨_, createRange_distribute (by omega)⟩
  obtain ⟨g, hg⟩ := this
  rw [hg]
  simp only [Res.ok_bind]
  cases o.findLoc a with
  | none => exact ⟨_, _, _, rfl⟩
  | some p =>
    simp only
    split
    · split
      · exact ⟨_, _, _, rfl⟩
      · exact ⟨_, _, _, rfl⟩
    · exact ⟨_, _, _, rfl⟩

theorem prepare_ok {schema : DistSchema} {n : Nat} :
    ∀ (as : List Nat) (i dp : Nat) (o : Obj V), i + as.length ≤ n → ObjCore dp o → Sendable schema n o.val →
      ∃ o' dp' rs, prepare schema n as i o dp = .ok (o', dp', rs)
  | [], i, dp, o, _, _, _ => ⟨o, dp, [], rfl⟩
  | a :: as, i, dp, o, hle, hc, hs => by
    simp only [List.length_cons] at hle
    obtain ⟨o1, p, dp1, h1⟩ := nextChunk_ok (schema := schema) (n := n) (i := i) (a := a) (dp := dp) (o := o) (by omega)
    obtain ⟨c1, v1, -, -, -, g1, -⟩ := nextChunk_spec hc h1
    obtain ⟨o2, dp2, rs, h2⟩ := prepare_ok as (i + 1) dp1 o1 (by omega) c1 (v1 ▸ hs)
    unfold prepare
    rw [h1]
    simp only [Res.ok_bind]
    split
    · exact ⟨_, _, _, h2⟩
    · obtain ⟨u, hu⟩ := payload_ok (by omega) hs g1
      rw [v1, hu]
      simp only [Res.ok_bind]
      rw [h2]
      exact ⟨_, _, _, rfl⟩

/-- Folding `finishStore` never fails while the object exists. -/
theorem stores_ok {ref : Nat} : ∀ (rs : List (Req V)) (w : World V), (∃ o, w.objs ref = some o) →
    ∃ w', rs.foldlM (finishStore ref) w = .ok w'
  | [], w, _ => ⟨w, rfl⟩
  | r :: rs, w, ⟨o, ho⟩ => by
    rw [List.foldlM_cons]
    unfold finishStore
    rw [ho]
    simp only [Res.ok_bind]
    exact stores_ok rs _ ⟨_, by simp only [World.setObj, if_true]; rfl⟩

theorem place_ok {schema : DistSchema} {ws : List Nat} {ord : Order} {k ref : Nat} {w : World V} {o : Obj V}
    (ho : w.objs ref = some o) (hc : ObjCore w.nextDp o) (hs : Sendable schema ws.length o.val) :
    ∃ w', place schema ws ord k ref w = .ok w' := by
  unfold place
  rw [ho]
  obtain ⟨o1, dp1, rs, h1⟩ := prepare_ok ws 0 w.nextDp o (by simp) hc hs
  simp only [h1, Res.ok_bind]
  exact stores_ok _ _ ⟨o1, by simp [World.setObj]⟩

/-! ### Metadata of the outputs -/

/-- What `SetOutputsMetadata` may change: the metadata of the outputs. -/
structure MetaOnly (S : Nat → Prop) (w w' : World V) : Prop where
  workers : w'.workers = w.workers
  nref : w'.nextRef = w.nextRef
  dp : w.nextDp ≤ w'.nextDp
  others : ∀ r, ¬ S r → w'.objs r = w.objs r
  vals : ∀ r o, w.objs r = some o → ∃ o', w'.objs r = some o' ∧ o'.val = o.val
  none : ∀ r, w.objs r = none → w'.objs r = none
  core : (∀ r o, w.objs r = some o → ObjCore w.nextDp o) → ∀ r o, w'.objs r = some o → ObjCore w'.nextDp o

theorem MetaOnly.refl (S : Nat → Prop) (w : World V) : MetaOnly S w w :=
  ⟨rfl, rfl, Nat.le_refl _, fun _ _ => rfl, fun _ o h => ⟨o, h, rfl⟩, fun _ h => h, fun h => h⟩

theorem MetaOnly.trans {S : Nat → Prop} {w w' w'' : World V} (h : MetaOnly S w w') (h' : MetaOnly S w' w'') : MetaOnly S w w'' := by
  refine ⟨h'.workers.trans h.workers, h'.nref.trans h.nref, Nat.le_trans h.dp h'.dp, fun r hr => (h'.others r hr).trans (h.others r hr),
    fun r o ho => ?_, fun r hr => h'.none r (h.none r hr), fun hc => h'.core (h.core hc)⟩
  obtain ⟨o1, h1, v1⟩ := h.vals r o ho
  obtain ⟨o2, h2, v2⟩ := h'.vals r o1 h1
  exact ⟨o2, h2, v2.trans v1⟩

/-- Replacing the metadata of one object in `S`. -/
theorem metaOnly_set {S : Nat → Prop} {w : World V} {ref dp : Nat} {o o' : Obj V} (hS : S ref) (ho : w.objs ref = some o)
    (hv : o'.val = o.val) (hdp : w.nextDp ≤ dp) (hc : ObjCore w.nextDp o → ObjCore dp o') :
    MetaOnly S w { (w.setObj ref o') with nextDp := dp } := by
  refine ⟨rfl, rfl, hdp, fun r hr => ?_, fun r o1 h1 => ?_, fun r hr => ?_, fun hcore r o1 h1 => ?_⟩
  · have : r ≠ ref := fun e => hr (e ▸ hS)
    simp [World.setObj, this]
  · by_cases e : r = ref
    · subst e
      rw [ho] at h1
      cases h1
      exact ⟨o', by simp [World.setObj], hv⟩
    · exact ⟨o1, by simp [World.setObj, e, h1], rfl⟩
  · have : r ≠ ref := by rintro rfl; rw [ho] at hr; cases hr
    simp [World.setObj, this, hr]
  · by_cases e : r = ref
    · subst e
      simp [World.setObj] at h1
      subst h1
      exact hc (hcore r o ho)
    · simp [World.setObj, e] at h1
      exact (hcore r o1 h1).mono hdp

theorem setOutput_spec {comb : Combine} {n i a dp dp' : Nat} {o o' : Obj V} (h : setOutput comb n i a o dp = .ok (o', dp')) :
    o'.val = o.val ∧ dp ≤ dp' ∧ (ObjCore dp o → ObjCore dp' o') ∧
      (ObjCore dp o → (∃ p ∈ o'.pls, p.loc = a ∧ outputRange comb o.val.rows o.val.cols n i = .ok p.range) ∧
        (∀ q ∈ o'.pls, q.loc ≠ a → q ∈ o.pls) ∧ (∀ q ∈ o.pls, q.loc ≠ a → q ∈ o'.pls)) := by
  unfold setOutput at h
  obtain ⟨g, hg, h⟩ := bind_ok h
  cases hf : o.findLoc a with
  | none =>
    rw [hf] at h
    simp only at h
    injection h with h
    simp only [Prod.mk.injEq] at h
    obtain ⟨rfl, rfl⟩ := h
    refine ⟨rfl, Nat.le_succ _, fun hc => add_core hc rfl (fun q hq => findLoc_none hf hq), fun hc => ⟨⟨_, by simp [Obj.add]; right; rfl, rfl, hg⟩, ?_, ?_⟩⟩
    · intro q hq hne
      simp only [Obj.add, List.mem_append, List.mem_singleton] at hq
      rcases hq with hq | rfl
      · exact hq
      · exact absurd rfl hne
    · intro q hq _
      simp only [Obj.add, List.mem_append]
      exact Or.inl hq
  | some p0 =>
    rw [hf] at h
    simp only at h
    injection h with h
    simp only [Prod.mk.injEq] at h
    obtain ⟨rfl, rfl⟩ := h
    obtain ⟨hm, hl⟩ := findLoc_some hf
    refine ⟨rfl, Nat.le_refl _, fun hc => update_core hc (fun p _ _ => ⟨rfl, rfl⟩), fun hc => ⟨⟨_, update_mem p0.id _ hm, ?_, ?_⟩, ?_, ?_⟩⟩
    · rw [if_pos rfl]; exact hl
    · rw [if_pos rfl]; exact hg
    · intro q' hq' hne
      obtain ⟨q0, hq0, e⟩ := mem_update hq'
      split at e
      · rename_i hid
        subst e
        have := eq_of_id hc.ids hq0 hm hid
        subst this
        exact absurd hl hne
      · subst e; exact hq0
    · intro q' hq' hne
      have := update_mem p0.id (fun p => { p with range := g, ident := none, placed := true }) hq'
      rw [if_neg] at this
      · exact this
      · intro hid
        have := eq_of_id hc.ids hq' hm hid
        subst this
        exact hne hl

theorem setOutputsFor_meta {n i a : Nat} {S : Nat → Prop} :
    ∀ (outs : List (Nat × Combine)) (w w' : World V), (∀ x ∈ outs, S x.1) → setOutputsFor n i a outs w = .ok w' → MetaOnly S w w'
  | [], w, w', _, h => by
    simp only [setOutputsFor] at h
    cases h
    exact MetaOnly.refl S w
  | (ref, comb) :: rest, w, w', hS, h => by
    unfold setOutputsFor at h
    cases ho : w.objs ref with
    | none => rw [ho] at h; cases h
    | some o =>
      rw [ho] at h
      simp only at h
      obtain ⟨⟨o1, dp1⟩, h1, h⟩ := bind_ok h
      obtain ⟨hv, hdp, hc, -⟩ := setOutput_spec h1
      have hr : S ref := hS (ref, comb) (by simp)
      exact (metaOnly_set hr ho hv hdp hc).trans
        (setOutputsFor_meta rest _ w' (fun x hx => hS x (by simp [hx])) h)

theorem setOutputs_meta {n : Nat} {outs : List (Nat × Combine)} {S : Nat → Prop} (hS : ∀ x ∈ outs, S x.1) :
    ∀ (as : List Nat) (i : Nat) (w w' : World V), setOutputs n outs as i w = .ok w' → MetaOnly S w w'
  | [], i, w, w', h => by
    simp only [setOutputs] at h
    cases h
    exact MetaOnly.refl S w
  | a :: as, i, w, w', h => by
    unfold setOutputs at h
    obtain ⟨w1, h1, h⟩ := bind_ok h
    exact (setOutputsFor_meta outs w w1 hS h1).trans (setOutputs_meta hS as (i + 1) w1 w' h)

theorem outputRange_ok {comb : Combine} (hc : comb = .rows ∨ comb = .cols ∨ comb = .add) (r c n i : Nat) :
    ∃ g, outputRange comb r c n i = .ok g := by
  rcases hc with rfl | rfl | rfl <;> exact ⟨_, rfl⟩

theorem setOutputsFor_ok {n i a : Nat} :
    ∀ (outs : List (Nat × Combine)) (w : World V), (outs.map Prod.fst).Nodup →
      (∀ x ∈ outs, (∃ o, w.objs x.1 = some o) ∧ (x.2 = .rows ∨ x.2 = .cols ∨ x.2 = .add)) →
      (∀ r o, w.objs r = some o → ObjCore w.nextDp o) →
      ∃ w', setOutputsFor n i a outs w = .ok w' ∧ ∀ x ∈ outs, ∃ o o', w.objs x.1 = some o ∧ w'.objs x.1 = some o' ∧
        (∃ p ∈ o'.pls, p.loc = a ∧ outputRange x.2 o.val.rows o.val.cols n i = .ok p.range) ∧
        (∀ q ∈ o'.pls, q.loc ≠ a → q ∈ o.pls) ∧ (∀ q ∈ o.pls, q.loc ≠ a → q ∈ o'.pls)
  | [], w, _, _, _ => ⟨w, rfl, by simp⟩
  | (ref, comb) :: rest, w, hnd, hx, hcore => by
    simp only [List.map_cons, List.nodup_cons] at hnd
    obtain ⟨⟨o, ho⟩, hcomb⟩ := hx (ref, comb) (by simp)
    simp only at ho hcomb
    obtain ⟨g, hg⟩ := outputRange_ok hcomb o.val.rows o.val.cols n i
    have : ∃ o1 dp1, setOutput comb n i a o w.nextDp = .ok (o1, dp1) := by
      unfold setOutput
      rw [hg]
      simp only [Res.ok_bind]
      cases o.findLoc a <;> exact ⟨_, _, rfl⟩
    obtain ⟨o1, dp1, h1⟩ := this
    obtain ⟨hv, hdp, hc, hd⟩ := setOutput_spec h1
    have hm := metaOnly_set (S := fun r => r = ref) rfl ho hv hdp hc
    have hne : ∀ x ∈ rest, x.1 ≠ ref := by
      intro x hx' e
      exact hnd.1 (e ▸ List.mem_map_of_mem hx')
    obtain ⟨w', h2, hr⟩ := setOutputsFor_ok rest { (w.setObj ref o1) with nextDp := dp1 } hnd.2
      (fun x hx' => by
        obtain ⟨⟨o', ho'⟩, hcb⟩ := hx x (by simp [hx'])
        obtain ⟨o2, ho2, -⟩ := hm.vals _ _ ho'
        exact ⟨⟨o2, ho2⟩, hcb⟩) (hm.core hcore)
    refine ⟨w', ?_, ?_⟩
    · unfold setOutputsFor
      rw [ho]
      simp only [h1, Res.ok_bind]
      exact h2
    · intro x hx'
      simp only [List.mem_cons] at hx'
      rcases hx' with rfl | hx'
      · have hm2 := setOutputsFor_meta (S := fun r => r ∈ rest.map Prod.fst) rest _ w'
          (fun y hy => List.mem_map_of_mem hy) h2
        have e := hm2.others ref (hnd.1)
        simp only [World.setObj, if_true] at e
        exact ⟨o, o1, ho, e, hd (hcore ref o ho)⟩
      · obtain ⟨o2, o3, e2, e3, hrest⟩ := hr x hx'
        simp only [World.setObj, if_neg (hne x hx')] at e2
        exact ⟨o2, o3, e2, e3, hrest⟩

/-- One placement per worker, with the right range, and no others. -/
def OutMeta (n : Nat) (ws : List Nat) (i : Nat) (comb : Combine) (o : Obj V) : Prop :=
  (∀ j (hj : j < ws.length), ∃ p ∈ o.pls, p.loc = ws[j] ∧ outputRange comb o.val.rows o.val.cols n (i + j) = .ok p.range) ∧
  ∀ p ∈ o.pls, p.loc ∈ ws

theorem setOutputs_ok {n : Nat} {outs : List (Nat × Combine)} (hnd : (outs.map Prod.fst).Nodup) :
    ∀ (as : List Nat) (i : Nat) (w : World V), as.Nodup →
      (∀ x ∈ outs, (∃ o, w.objs x.1 = some o) ∧ (x.2 = .rows ∨ x.2 = .cols ∨ x.2 = .add)) →
      (∀ r o, w.objs r = some o → ObjCore w.nextDp o) →
      ∃ w', setOutputs n outs as i w = .ok w' ∧ ∀ x ∈ outs, ∃ o o', w.objs x.1 = some o ∧ w'.objs x.1 = some o' ∧
        (∀ j (hj : j < as.length), ∃ p ∈ o'.pls, p.loc = as[j] ∧ outputRange x.2 o.val.rows o.val.cols n (i + j) = .ok p.range) ∧
        (∀ q ∈ o'.pls, q.loc ∉ as → q ∈ o.pls) ∧ (∀ q ∈ o.pls, q.loc ∉ as → q ∈ o'.pls)
  | [], i, w, _, hx, _ => by
    refine ⟨w, rfl, fun x hxm => ?_⟩
    obtain ⟨⟨o, ho⟩, -⟩ := hx x hxm
    exact ⟨o, o, ho, ho, fun j hj => by simp at hj, fun q hq _ => hq, fun q hq _ => hq⟩
  | a :: as, i, w, has, hx, hcore => by
    rw [List.nodup_cons] at has
    obtain ⟨w1, h1, hd1⟩ := setOutputsFor_ok (n := n) (i := i) (a := a) outs w hnd hx hcore
    have hm := setOutputsFor_meta (S := fun _ => True) outs w w1 (fun _ _ => trivial) h1
    obtain ⟨w2, h2, hd2⟩ := setOutputs_ok hnd as (i + 1) w1 has.2
      (fun x hxm => by
        obtain ⟨⟨o, ho⟩, hc⟩ := hx x hxm
        obtain ⟨o1, ho1, -⟩ := hm.vals _ _ ho
        exact ⟨⟨o1, ho1⟩, hc⟩) (hm.core hcore)
    refine ⟨w2, by unfold setOutputs; rw [h1]; exact h2, fun x hxm => ?_⟩
    obtain ⟨o, o1, ho, ho1, ⟨p, hp, hpl, hpg⟩, old1, new1⟩ := hd1 x hxm
    obtain ⟨o1', o2, ho1', ho2, hj2, old2, new2⟩ := hd2 x hxm
    rw [ho1] at ho1'
    cases ho1'
    obtain ⟨o1'', ho1'', hv⟩ := hm.vals _ _ ho
    rw [ho1] at ho1''
    cases ho1''
    refine ⟨o, o2, ho, ho2, fun j hj => ?_, fun q hq hn => ?_, fun q hq hn => ?_⟩
    · cases j with
      | zero => exact ⟨p, new2 p hp (by rw [hpl]; exact has.1), hpl, hpg⟩
      | succ j =>
        simp only [List.length_cons] at hj
        obtain ⟨q, hq, hql, hqg⟩ := hj2 j (by omega)
        rw [hv] at hqg
        exact ⟨q, hq, hql, by rw [show i + (j + 1) = i + 1 + j by omega]; exact hqg⟩
    · simp only [List.mem_cons, not_or] at hn
      exact old1 q (old2 q hq hn.2) hn.1
    · simp only [List.mem_cons, not_or] at hn
      exact new2 q (new1 q hq hn.1) hn.2

/-! ### Running tasks -/

theorem storeAll_spec : ∀ (ms : List (Mat V)) (k k' : Worker V) (is : List Nat), (∀ i, k.counter ≤ i → k.data i = none) →
    Worker.storeAll ms k = (k', is) →
    (∀ i, k'.counter ≤ i → k'.data i = none) ∧ (∀ i v, k.data i = some v → k'.data i = some v) ∧ is.length = ms.length ∧
      ∀ o (h : o < ms.length) (h' : o < is.length), k'.data is[o] = some (.mat ms[o])
  | [], k, k', is, hw, h => by
    simp only [Worker.storeAll, Prod.mk.injEq] at h
    obtain ⟨rfl, rfl⟩ := h
    exact ⟨hw, fun _ _ h => h, rfl, fun o h => by simp at h⟩
  | m :: ms, k, k', is, hw, h => by
    simp only [Worker.storeAll, Prod.mk.injEq] at h
    obtain ⟨h1, h2⟩ := h
    have hw1 : ∀ i, (k.store (.mat m)).counter ≤ i → (k.store (.mat m)).data i = none := by
      intro i hi
      simp only [Worker.store] at hi ⊢
      rw [if_neg (by omega)]
      exact hw i (by omega)
    obtain ⟨a1, a2, a3, a4⟩ := storeAll_spec ms (k.store (.mat m)) (Worker.storeAll ms (k.store (.mat m))).1
      (Worker.storeAll ms (k.store (.mat m))).2 hw1 rfl
    subst h1
    subst h2
    refine ⟨a1, fun i v h => a2 i v ?_, by simp [a3], fun o ho ho' => ?_⟩
    · simp only [Worker.store]
      rw [if_neg]
      · exact h
      · rintro rfl
        rw [hw _ (Nat.le_refl _)] at h
        cases h
    · cases o with
      | zero => exact a2 _ _ (by simp [Worker.store])
      | succ o =>
        simp only [List.getElem_cons_succ]
        exact a4 o (by simpa using ho) (by simpa using ho')

theorem record_meta {a : Nat} {S : Nat → Prop} :
    ∀ (refs is : List Nat) (w w' : World V), (∀ r ∈ refs, S r) → record a refs is w = .ok w' → MetaOnly S w w'
  | refs, [], w, w', _, h => by
    cases refs <;> (simp only [record] at h; cases h; exact MetaOnly.refl S w)
  | [], i :: is, w, w', _, h => by simp [record] at h
  | ref :: refs, i :: is, w, w', hS, h => by
    unfold record at h
    cases ho : w.objs ref with
    | none => rw [ho] at h; cases h
    | some o =>
      rw [ho] at h
      simp only at h
      cases hf : o.findLoc a with
      | none => rw [hf] at h; cases h
      | some p =>
        rw [hf] at h
        simp only at h
        have hm : MetaOnly S w { (w.setObj ref (o.update p.id (fun p => { p with ident := some i, placed := true }))) with nextDp := w.nextDp } :=
          metaOnly_set (hS _ (by simp)) ho rfl (Nat.le_refl _) (fun hc => update_core hc (fun p _ _ => ⟨rfl, rfl⟩))
        exact hm.trans (record_meta refs is _ w' (fun r hr => hS r (by simp [hr])) h)

/-- Recording the identifiers at worker `a`. -/
theorem record_ok {a : Nat} :
    ∀ (refs is : List Nat) (w : World V), refs.Nodup → is.length = refs.length →
      (∀ r ∈ refs, ∃ o, w.objs r = some o ∧ ∃ p ∈ o.pls, p.loc = a) →
      (∀ r o, w.objs r = some o → ObjCore w.nextDp o) →
      ∃ w', record a refs is w = .ok w' ∧ ∀ o (h : o < refs.length) (h' : o < is.length), ∃ x x', w.objs refs[o] = some x ∧
        w'.objs refs[o] = some x' ∧
        (∀ p ∈ x.pls, if p.loc = a then { p with ident := some is[o], placed := true } ∈ x'.pls else p ∈ x'.pls) ∧
        (∀ p' ∈ x'.pls, ∃ p ∈ x.pls, p'.loc = p.loc)
  | [], [], w, _, _, _, _ => ⟨w, rfl, fun o h => by simp at h⟩
  | [], i :: is, w, _, hl, _, _ => by simp at hl
  | ref :: refs, [], w, _, hl, _, _ => by simp at hl
  | ref :: refs, i :: is, w, hnd, hl, hx, hcore => by
    rw [List.nodup_cons] at hnd
    obtain ⟨o, ho, p, hp, hpl⟩ := hx ref (by simp)
    have hc := hcore ref o ho
    have hf := findLoc_of_mem hc.locs hp hpl
    have hm : MetaOnly (fun r => r = ref) w { (w.setObj ref (o.update p.id (fun p => { p with ident := some i, placed := true }))) with nextDp := w.nextDp } :=
      metaOnly_set rfl ho rfl (Nat.le_refl _) (fun hc => update_core hc (fun p _ _ => ⟨rfl, rfl⟩))
    have hne : ∀ r ∈ refs, r ≠ ref := fun r hr e => hnd.1 (e ▸ hr)
    obtain ⟨w', h2, hd⟩ := record_ok refs is { (w.setObj ref (o.update p.id (fun p => { p with ident := some i, placed := true }))) with nextDp := w.nextDp }
      hnd.2 (by simpa using hl)
      (fun r hr => by
        obtain ⟨x, hx1, hx2⟩ := hx r (by simp [hr])
        exact ⟨x, by simp only [World.setObj, if_neg (hne r hr)]; exact hx1, hx2⟩) (hm.core hcore)
    refine ⟨w', ?_, ?_⟩
    · unfold record
      rw [ho]
      simp only [hf]
      exact h2
    · intro k hk hk'
      cases k with
      | zero =>
        have hm2 := record_meta (S := fun r => r ∈ refs) refs is _ w' (fun r hr => hr) h2
        have e := hm2.others ref hnd.1
        simp only [World.setObj, if_true] at e
        refine ⟨o, _, ho, e, fun q hq => ?_, fun p' hp' => ?_⟩
        · have hq' := update_mem p.id (fun p => { p with ident := some i, placed := true }) hq
          by_cases hql : q.loc = a
          · have := eq_of_loc hc.locs hq hp (hql.trans hpl.symm)
            subst this
            rw [if_pos hql]
            simpa using hq'
          · rw [if_neg hql]
            rw [if_neg] at hq'
            · exact hq'
            · intro e'
              have := eq_of_id hc.ids hq hp e'
              subst this
              exact hql hpl
        · obtain ⟨q, hq, rfl⟩ := mem_update hp'
          refine ⟨q, hq, ?_⟩
          split <;> rfl
      | succ k =>
        simp only [List.length_cons] at hk hk'
        simp only [List.getElem_cons_succ]
        obtain ⟨x, x', e1, e2, e3⟩ := hd k (by omega) (by omega)
        simp only [World.setObj, if_neg (hne _ (List.getElem_mem _))] at e1
        exact ⟨x, x', e1, e2, e3⟩

/-- Effect of a task, whatever it computes: workers only gain data, only metadata of the outputs changes. -/
theorem runTask_meta {f : List (Val V) → Res (List (Mat V))} {outs : List Nat} {S : Nat → Prop} (hS : ∀ r ∈ outs, S r) {w w' : World V} {t : Task}
    (hw : ∀ a i, (w.workers a).counter ≤ i → (w.workers a).data i = none) (h : runTask f outs w t = .ok w') :
    (∀ a i, (w'.workers a).counter ≤ i → (w'.workers a).data i = none) ∧ Ext w.workers w'.workers ∧
      ∃ W, MetaOnly S { w with workers := W } w' := by
  unfold runTask at h
  obtain ⟨vals, -, h⟩ := bind_ok h
  obtain ⟨ms, -, h⟩ := bind_ok h
  cases hst : Worker.storeAll ms (w.workers t.addr) with
  | mk k' is =>
    rw [hst] at h
    simp only at h
    obtain ⟨a1, a2, a3, a4⟩ := storeAll_spec ms _ k' is (hw t.addr) hst
    have hm := record_meta (S := S) outs is _ w' hS h
    refine ⟨?_, ?_, _, hm⟩
    · rw [hm.workers]
      intro b i hb
      by_cases e : b = t.addr
      · subst e
        simp only [World.setWorker, if_true] at hb ⊢
        exact a1 i hb
      · simp only [World.setWorker, if_neg e] at hb ⊢
        exact hw b i hb
    · rw [hm.workers]
      intro b i v hb
      by_cases e : b = t.addr
      · subst e
        simp only [World.setWorker, if_true]
        exact a2 i v hb
      · simp only [World.setWorker, if_neg e]
        exact hb

end Verif.Dist
