import Verif.Dist.Execute
import Mathlib.Data.List.Perm.Basic
import Mathlib.Algebra.BigOperators.Group.List.Basic
/-
  A whole pipeline, in terms of what the workers compute.
-/
namespace Verif.Dist
open Verif Verif.Dense Verif.Sched

variable {V : Type}

theorem fetched_of_done {w : World V} {ref a : Nat} {m : Mat V} {x : Obj V} {dp : Nat} (h : Done w a ref m) (hx : w.objs ref = some x)
    (hc : ObjCore dp x) {p : Placement} (hp : p ∈ x.pls) (hl : p.loc = a) : Fetched w p m := by
  obtain ⟨o, q, ho, hq, hql, id, hid, hd⟩ := h
  rw [hx] at ho
  cases ho
  have := eq_of_loc hc.locs hp hq (hl.trans hql.symm)
  subst this
  exact ⟨id, hid, by rw [hl]; exact hd⟩

/-- What the workers' results have to be for an output with final value `F`. -/
def Fits2 [AddCommMonoid V] (n : Nat) (ms : Nat → List (Mat V)) (o : Nat) (comb : Combine) (F : Mat V) : Prop :=
  (comb ≠ .add → ∀ i, i < n → ∀ g, outputRange comb F.rows F.cols n i = .ok g → ∃ m, (ms i)[o]? = some m ∧ g.rLen ≤ m.rows ∧ g.cLen ≤ m.cols ∧
      ∀ a b, a < g.rLen → b < g.cLen → m.cell a b = F.cell (g.rStart + a) (g.cStart + b)) ∧
  (comb = .add → ∃ G : Nat → Mat V, (∀ i, i < n → (ms i)[o]? = some (G i) ∧ (G i).rows = F.rows ∧ (G i).cols = F.cols) ∧
    ∀ r c, r < F.rows → c < F.cols → ((List.range n).map fun i => (G i).cell r c).sum = F.cell r c)

theorem outputRange_rows (R C n i : Nat) : outputRange .rows R C n i = .ok ⟨blk R n i, 0, blk R n (i + 1) - blk R n i, C⟩ := rfl
theorem outputRange_cols (R C n i : Nat) : outputRange .cols R C n i = .ok ⟨0, blk C n i, R, blk C n (i + 1) - blk C n i⟩ := rfl

theorem fetchable_of [AddCommMonoid V] {ws : List Nat} (hws : ws.Nodup) (hn : 0 < ws.length) {w : World V} {ref dp : Nat} {comb : Combine}
    (hcomb : comb = .rows ∨ comb = .cols ∨ comb = .add) {x : Obj V} {m F : Mat V} (hx : w.objs ref = some x) (hc : ObjCore dp x) (hv : x.val = .mat m)
    (hR : m.rows = F.rows) (hC : m.cols = F.cols) (hz : comb = .add → ∀ i j, m.cell i j = 0) (hm : OutMeta ws.length ws 0 comb x)
    {ms : Nat → List (Mat V)} {o : Nat} (hd : ∀ i (hi : i < ws.length) (ho : o < (ms i).length), Done w ws[i] ref (ms i)[o])
    (hf : Fits2 ws.length ms o comb F) : Fetchable w ref comb F := by
  refine ⟨x, m, hx, hv, hR, hC, ?_⟩
  have hrange : ∀ i (hi : i < ws.length), ∃ p ∈ x.pls, p.loc = ws[i] ∧ outputRange comb F.rows F.cols ws.length i = .ok p.range := by
    intro i hi
    obtain ⟨p, hp, hl, hg⟩ := hm.1 i hi
    rw [hv] at hg
    simp only [Val.rows, Val.cols, Nat.zero_add] at hg
    rw [hR, hC] at hg
    exact ⟨p, hp, hl, hg⟩
  have hdone : ∀ i (hi : i < ws.length) c, (ms i)[o]? = some c → ∀ p ∈ x.pls, p.loc = ws[i] → Fetched w p c := by
    intro i hi c hc' p hp hl
    obtain ⟨ho, e⟩ := List.getElem?_eq_some_iff.1 hc'
    have := hd i hi ho
    rw [e] at this
    exact fetched_of_done this hx hc hp hl
  by_cases ha : comb = .add
  · refine Or.inr ⟨ha, hz ha, ?_⟩
    obtain ⟨G, hG, hsum⟩ := hf.2 ha
    have hidx : ∀ i (hi : i < ws.length), ws.idxOf ws[i] = i := fun i hi => hws.idxOf_getElem i hi
    refine ⟨fun a => G (ws.idxOf a), fun p hp => ?_, fun i j hi hj => ?_⟩
    · obtain ⟨i, hi, e⟩ := List.getElem_of_mem (hm.2 p hp)
      obtain ⟨h1, h2, h3⟩ := hG i hi
      simp only
      rw [← e, hidx i hi]
      exact ⟨hdone i hi _ h1 p hp e.symm, h2, h3⟩
    · have hperm : (x.pls.map (·.loc)).Perm ws := by
        rw [List.perm_ext_iff_of_nodup hc.locs hws]
        intro a
        constructor
        · intro h
          obtain ⟨p, hp, rfl⟩ := List.mem_map.1 h
          exact hm.2 p hp
        · intro h
          obtain ⟨i, hi, rfl⟩ := List.getElem_of_mem h
          obtain ⟨p, hp, hl, -⟩ := hrange i hi
          rw [← hl]
          exact List.mem_map_of_mem hp
      rw [(hperm.map _).sum_eq, ← hsum i j hi hj]
      congr 1
      apply List.ext_getElem (by simp)
      intro k h1 h2
      simp only [List.length_map] at h1
      simp only [List.getElem_map, List.getElem_range, hidx k h1]
  · refine Or.inl ⟨ha, fun p hp => ?_, fun i j hi hj => ?_⟩
    · obtain ⟨i, hi, e⟩ := List.getElem_of_mem (hm.2 p hp)
      obtain ⟨q, hq, hl, hg⟩ := hrange i hi
      have := eq_of_loc hc.locs hp hq (e.symm.trans hl.symm)
      subst this
      obtain ⟨c, h1, h2, h3, h4⟩ := hf.1 ha i hi _ hg
      have hb : p.range.rStart + p.range.rLen ≤ F.rows ∧ p.range.cStart + p.range.cLen ≤ F.cols := by
        rcases hcomb with rfl | rfl | rfl
        · rw [outputRange_rows] at hg
          injection hg with hg
          rw [← hg]
          have a1 := blk_le_succ F.rows ws.length i
          have a2 := blk_le (R := F.rows) (i := i + 1) hn (by omega)
          constructor <;> simp only <;> omega
        · rw [outputRange_cols] at hg
          injection hg with hg
          rw [← hg]
          have a1 := blk_le_succ F.cols ws.length i
          have a2 := blk_le (R := F.cols) (i := i + 1) hn (by omega)
          constructor <;> simp only <;> omega
        · exact absurd rfl ha
      exact ⟨hb.1, hb.2, c, hdone i hi c h1 p hp e.symm, h2, h3, h4⟩
    · rcases hcomb with rfl | rfl | rfl
      · obtain ⟨k, hk, k1, k2⟩ := blk_find hn hi
        obtain ⟨p, hp, hl, hg⟩ := hrange k hk
        rw [outputRange_rows] at hg
        injection hg with hg
        refine ⟨p, hp, ?_⟩
        rw [← hg]
        constructor <;> simp only <;> omega
      · obtain ⟨k, hk, k1, k2⟩ := blk_find hn hj
        obtain ⟨p, hp, hl, hg⟩ := hrange k hk
        rw [outputRange_cols] at hg
        injection hg with hg
        refine ⟨p, hp, ?_⟩
        rw [← hg]
        constructor <;> simp only <;> omega
      · exact absurd rfl ha

theorem execute_core [AddCommMonoid V] [DecidableEq V] {ws : List Nat} (hws : ws.Nodup) (hn : 0 < ws.length) {ord : Order} (hord : ord.Valid)
    {junk : Nat → Nat → V} {p : Pipe V} {w : World V} (hi : Inv (fun _ => False) w) {ins : List (Val V × Split)} (hins : Ins w p.inputs ins)
    (he : Enough ws.length ins) (hnd : (p.inputs.map Prod.fst).Nodup) {Fs : List (Mat V)}
    (hshape : List.Forall₂ (fun x F => x.2 = some (F.rows, F.cols)) p.outs Fs)
    (hcomb : ∀ x ∈ p.outs, x.1 = .rows ∨ x.1 = .cols ∨ x.1 = .add) {ms : Nat → List (Mat V)}
    (hlen : ∀ i, i < ws.length → (ms i).length = p.outs.length)
    (hf : ∀ i, i < ws.length → p.f (ins.map (piece ws.length i)) = .ok (ms i))
    (hres : ∀ o x F, p.outs[o]? = some x → Fs[o]? = some F → Fits2 ws.length ms o x.1 F) :
    ∃ w' refs, execute ws ord junk p w = .ok (w', refs) ∧ List.Forall₂ (fun r F => w'.HasMat r F) refs Fs ∧
      (∀ r o, w.objs r = some o → ∃ o', w'.objs r = some o' ∧ o'.val = o.val) ∧
      ∀ r ∈ refs, w.objs r = none := by
  obtain ⟨a1, a2, a3, a4, a5, a6⟩ := allocOuts_spec junk p.outs w hi
  cases hal : allocOuts junk p.outs w with
  | mk w0 outs =>
  rw [hal] at a1 a2 a3 a4 a5 a6
  simp only at a1 a2 a3 a4 a5 a6
  have hlt : ∀ r o, w.objs r = some o → r < w.nextRef := by
    intro r o ho
    by_contra hge
    rw [hi.fresh r (by omega)] at ho
    cases ho
  have hins0 : Ins w0 p.inputs ins := by
    refine List.Forall₂.imp ?_ hins
    rintro ⟨y, s⟩ ⟨u, s'⟩ ⟨h1, h2⟩
    refine ⟨?_, h2⟩
    cases y with
    | scalar q => exact h1
    | obj q =>
      obtain ⟨o', ho', hv'⟩ := h1
      exact ⟨o', by rw [a4 q (hlt q o' ho')]; exact ho', hv'⟩
  obtain ⟨w1, args, hp, P⟩ := placeInputs_ok hws hord p.inputs ins 0 w0 a1 hins0 he hnd
  have hin : ∀ r s, (In.obj r, s) ∈ p.inputs → r < w.nextRef := by
    intro r s hs
    obtain ⟨y, ⟨o, ho, -⟩, -⟩ := forall₂_mem_left hins hs
    exact hlt r o ho
  have hmemouts : ∀ r, r ∈ outs.map Prod.fst → w.nextRef ≤ r ∧ r < w0.nextRef := by
    intro r hr
    rw [a5, List.mem_range'_1] at hr
    omega
  have hnodup : (outs.map Prod.fst).Nodup := by rw [a5]; exact List.nodup_range'
  have hol : outs.length = p.outs.length := a6.length_eq.symm
  have hsame : ∀ r, r ∈ outs.map Prod.fst → w1.objs r = w0.objs r := by
    intro r hr
    obtain ⟨h1, h2⟩ := hmemouts r hr
    refine P.others r h2 (fun s hs => ?_)
    have := hin r s hs
    omega
  have hout : ∀ o (ho : o < outs.length), ∃ F cell, Fs[o]? = some F ∧ p.outs[o]? = some (outs[o].2, some (F.rows, F.cols)) ∧
      w1.objs outs[o].1 = some ⟨.mat ⟨F.rows, F.cols, cell⟩, []⟩ ∧ (outs[o].2 = .add → ∀ i j, cell i j = 0) := by
    intro o ho
    have hsl := hshape.length_eq
    have h1 := (List.forall₂_iff_get.1 hshape).2 o (by omega) (by omega)
    have h2 := (List.forall₂_iff_get.1 a6).2 o (by omega) ho
    simp only [List.get_eq_getElem] at h1 h2
    obtain ⟨e1, h2⟩ := h2
    obtain ⟨cell, c1, c2⟩ := h2 _ _ h1
    refine ⟨Fs[o]'(by omega), cell, by rw [List.getElem?_eq_getElem (by omega)], ?_, ?_, fun e => c2 (e1.symm.trans e)⟩
    · rw [List.getElem?_eq_getElem (by omega), e1, ← h1]
    · rw [hsame _ (List.mem_map_of_mem (List.getElem_mem _))]
      exact c1
  have hargs : ∀ r ∈ args, r ∉ outs.map Prod.fst := by
    intro r hr hro
    obtain ⟨h1, h2⟩ := hmemouts r hro
    rcases P.refsIn r hr with ⟨s, hs⟩ | h
    · have := hin r s hs; omega
    · omega
  have hcombs : ∀ o (ho : o < outs.length), outs[o].2 = .rows ∨ outs[o].2 = .cols ∨ outs[o].2 = .add := by
    intro o ho
    obtain ⟨F, cell, -, h2, -⟩ := hout o ho
    exact hcomb _ (List.mem_of_getElem? h2)
  obtain ⟨w2, hc2, hd2⟩ := compute_ok (k := p.inputs.length) hws hord hnodup P.inv
    (fun x hx => by
      obtain ⟨o, ho, rfl⟩ := List.getElem_of_mem hx
      obtain ⟨F, cell, -, -, h3, -⟩ := hout o ho
      exact ⟨⟨_, h3, rfl⟩, hcombs o ho⟩) hargs (by rw [hol]; exact hlen)
    (fun i hi => ⟨_, P.provides i hi, hf i hi⟩)
  obtain ⟨b1, b2, b3⟩ := compute_inv P.inv hc2
  have hfetch : List.Forall₂ (fun x F => Fetchable w2 x.1 x.2 F) outs Fs := by
    rw [List.forall₂_iff_get]
    refine ⟨by rw [hol]; exact hshape.length_eq, fun o ho ho' => ?_⟩
    simp only [List.get_eq_getElem]
    obtain ⟨F, cell, h1, h2, h3, h4⟩ := hout o ho
    have hF : Fs[o] = F := by rw [List.getElem?_eq_getElem ho'] at h1; exact Option.some.inj h1
    rw [hF]
    obtain ⟨x, x', e1, e2, e3, e4, e5⟩ := hd2 o ho
    rw [h3] at e1
    cases e1
    exact fetchable_of hws hn (hcombs o ho) e2 (b1.core _ _ e2) e3 rfl rfl h4 e4 e5 (hres o _ F h2 h1)
  obtain ⟨w3, hc3, hd3, hs3⟩ := collectAll_ok hord outs Fs (p.inputs.length + 1) w2 _ b1 hnodup hfetch
  refine ⟨w3, outs.map Prod.fst, ?_, ?_, ?_, ?_⟩
  · unfold execute
    rw [hal]
    simp only
    rw [if_neg (by simpa using hnd), hp, Res.ok_bind]
    simp only
    rw [hc2, Res.ok_bind, hc3, Res.ok_bind]
  · rw [List.forall₂_map_left_iff]
    exact hd3
  · intro r o ho
    have hr := hlt r o ho
    obtain ⟨o1, ho1, hv1⟩ := P.vals r o (by rw [a4 r hr]; exact ho)
    obtain ⟨o2, ho2, hv2⟩ := b3.vals r o1 ho1
    refine ⟨o2, ?_, hv2.trans hv1⟩
    rw [hs3 r (fun h => by have := hmemouts r h; omega)]
    exact ho2
  · intro r hr
    exact hi.fresh r (hmemouts r hr).1

end Verif.Dist
