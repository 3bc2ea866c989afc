/-
  C245-C248: arguments and definitions.
-/
import Verif.Call.Model
import Mathlib.Data.List.Forall2
import Mathlib.Tactic.Tauto

namespace Verif.Call
variable {V : Type}

/-! ### Keyword arguments -/

theorem place_never_ub (params : List String) : ∀ (args : List (Arg V)) p seen s, (∃ s', place params args p seen s = .ok s') ∨ (place params args p seen s).Throws
  | [], _, _, s => .inl ⟨s, rfl⟩
  | a :: as, p, seen, s => by
    unfold place
    split
    · split
      · exact .inr ⟨_, rfl⟩
      · split
        · exact .inr ⟨_, rfl⟩
        · exact place_never_ub params as _ _ _
    · split
      · exact .inr ⟨_, rfl⟩
      · split
        · exact .inr ⟨_, rfl⟩
        · exact place_never_ub params as _ _ _

theorem collect_never_ub (m : Nat) : ∀ (s : List (Option V)) i, (∃ r, collect m s i = .ok r) ∨ (collect m s i).Throws
  | [], _ => .inl ⟨[], rfl⟩
  | some v :: s, i => by
    rcases collect_never_ub m s (i + 1) with ⟨r, h⟩ | ⟨e, h⟩
    · exact .inl ⟨v :: r, by simp [collect, h, bind, Except.bind]⟩
    · exact .inr ⟨e, by simp [collect, h, bind, Except.bind]⟩
  | none :: s, i => by
    unfold collect
    split
    · exact .inr ⟨_, rfl⟩
    · exact .inr ⟨_, rfl⟩

/-- It returns or throws. -/
theorem order_never_ub (params : List String) (m : Nat) (args : List (Arg V)) : (∃ r, orderCallArguments params m args = .ok r) ∨ (orderCallArguments params m args).Throws := by
  unfold orderCallArguments
  split
  · split
    · exact .inr ⟨_, rfl⟩
    · exact .inl ⟨_, rfl⟩
  · split
    · exact .inr ⟨_, rfl⟩
    · rcases place_never_ub params args 0 false (List.replicate params.length none) with ⟨s, h⟩ | ⟨e, h⟩
      · rw [h]
        simp only [bind, Except.bind]
        split
        · exact .inl ⟨_, rfl⟩
        · exact collect_never_ub _ _ _
      · rw [h]
        exact .inr ⟨e, rfl⟩

/-- Collecting succeeds for values only. -/
theorem collect_ok (m : Nat) : ∀ (s : List (Option V)) i r, collect m s i = .ok r ↔ s = r.map some
  | [], _, r => by
    cases r <;> simp [collect]
  | some v :: s, i, r => by
    simp only [collect]
    constructor
    · intro h
      cases hc : collect m s (i + 1) with
      | error e => simp [hc, bind, Except.bind] at h
      | ok r' =>
        simp only [hc, bind, Except.bind, Except.ok.injEq] at h
        subst h
        rw [(collect_ok m s (i + 1) r').1 hc]
        rfl
    · intro h
      cases r with
      | nil => simp at h
      | cons a r =>
        simp only [List.map_cons, List.cons.injEq, Option.some.injEq] at h
        rw [(collect_ok m s (i + 1) r).2 h.2, h.1]
        rfl
  | none :: s, i, r => by
    simp only [collect]
    constructor
    · intro h
      split at h <;> simp at h
    · intro h
      cases r <;> simp at h

/-- The last slot with a value. -/
theorem lastProvided_none : ∀ (s : List (Option V)) i last, lastProvided s i last = none ↔ last = none ∧ ∀ x ∈ s, x = none
  | [], _, last => by simp [lastProvided]
  | some v :: s, i, last => by simp [lastProvided, lastProvided_none s]
  | none :: s, i, last => by simp [lastProvided, lastProvided_none s]

theorem lastProvided_some : ∀ (s : List (Option V)) i last k, lastProvided s i last = some k →
    (last = some k ∧ ∀ x ∈ s, x = none) ∨ ∃ j v, k = i + j ∧ s[j]? = some (some v) ∧ ∀ x ∈ s.drop (j + 1), x = none
  | [], _, last, k, h => .inl ⟨h, by simp⟩
  | some v :: s, i, last, k, h => by
    rcases lastProvided_some s (i + 1) (some i) k h with ⟨h1, h2⟩ | ⟨j, w, h1, h2, h3⟩
    · exact .inr ⟨0, v, by simpa using h1.symm, rfl, by simpa using h2⟩
    · exact .inr ⟨j + 1, w, by omega, by simpa using h2, by simpa using h3⟩
  | none :: s, i, last, k, h => by
    rcases lastProvided_some s (i + 1) last k h with ⟨h1, h2⟩ | ⟨j, w, h1, h2, h3⟩
    · exact .inl ⟨h1, by simpa using h2⟩
    · exact .inr ⟨j + 1, w, by omega, by simpa using h2, by simpa using h3⟩

/-- The end of `orderCallArguments`: the slots with values are an initial segment. -/
theorem tail_ok (m : Nat) (s : List (Option V)) (r : List V) :
    (match lastProvided s 0 none with
      | none => (.ok [] : Res (List V))
      | some last => collect m (s.take (last + 1)) 0) = .ok r ↔ ∃ k, s = r.map some ++ List.replicate k none := by
  cases hl : lastProvided s 0 none with
  | none =>
    rw [lastProvided_none] at hl
    have hs : s = List.replicate s.length none := List.eq_replicate_of_mem hl.2
    constructor
    · intro h
      simp only [Except.ok.injEq] at h
      subst h
      exact ⟨s.length, by simpa using hs⟩
    · rintro ⟨k, hk⟩
      cases r with
      | nil => rfl
      | cons a r =>
        have := hl.2 (some a) (by rw [hk]; simp)
        simp at this
  | some last =>
    rcases lastProvided_some s 0 none last hl with ⟨h1, _⟩ | ⟨j, v, h1, h2, h3⟩
    · cases h1
    · have hj : last = j := by omega
      subst hj
      simp only [collect_ok]
      constructor
      · intro h
        refine ⟨(s.drop (last + 1)).length, ?_⟩
        rw [← h, ← List.eq_replicate_of_mem h3, List.take_append_drop]
      · rintro ⟨k, hk⟩
        have hlen : last < r.length := by
          rcases Nat.lt_or_ge last r.length with h | h
          · exact h
          · rw [hk, List.getElem?_append_right (by simpa using h)] at h2
            simp [List.getElem?_replicate] at h2
        have hle : r.length ≤ last + 1 := by
          rcases Nat.lt_or_ge (last + 1) r.length with h | h
          · have hm : some (r[last + 1]) ∈ s.drop (last + 1) := by
              rw [hk, List.drop_append_of_le_length (by simp; omega)]
              refine List.mem_append_left _ ?_
              rw [List.mem_iff_getElem]
              exact ⟨0, by simp; omega, by simp⟩
            have := h3 _ hm
            simp at this
          · omega
        have : r.length = last + 1 := by omega
        rw [hk, ← this]
        simp

/-- Positional and keyword arguments. -/
def call (pos : List V) (named : List (String × V)) : List (Arg V) := pos.map (fun v => ⟨none, v⟩) ++ named.map fun p => ⟨some p.1, p.2⟩

theorem place_pos (params : List String) (rest : List (Arg V)) : ∀ (pos pre : List V) k, pos.length ≤ k → params.length = pre.length + k →
    place params (pos.map (fun v => ⟨none, v⟩) ++ rest) pre.length false (pre.map some ++ List.replicate k none) =
      place params rest (pre.length + pos.length) false ((pre ++ pos).map some ++ List.replicate (k - pos.length) none)
  | [], pre, k, _, _ => by simp
  | v :: pos, pre, k, hk, hp => by
    simp only [List.length_cons] at hk
    simp only [List.map_cons, List.cons_append, place, Bool.false_eq_true, if_false]
    rw [if_neg (by omega)]
    have h := place_pos params rest pos (pre ++ [v]) (k - 1) (by omega) (by simp; omega)
    have hs : (pre.map some ++ List.replicate k (none : Option V)).set pre.length (some v) = (pre ++ [v]).map some ++ List.replicate (k - 1) none := by
      rw [List.set_append_right _ _ (by simp)]
      obtain ⟨k', rfl⟩ : ∃ k', k = k' + 1 := ⟨k - 1, by omega⟩
      simp [List.replicate_succ]
    rw [hs]
    simp only [List.length_append, List.length_cons, List.length_nil] at h
    rw [show pre.length + 1 = pre.length + (0 + 1) by omega, h]
    simp only [List.length_cons, List.append_assoc, List.cons_append, List.nil_append]
    congr 1
    · omega
    · congr 2
      omega

theorem place_pos_many (params : List String) (rest : List (Arg V)) : ∀ (pos : List V) p s, params.length < p + pos.length → p ≤ params.length →
    (place params (pos.map (fun v => ⟨none, v⟩) ++ rest) p false s).Throws
  | [], p, s, h, h' => by simp at h; omega
  | v :: pos, p, s, h, h' => by
    simp only [List.map_cons, List.cons_append, place, Bool.false_eq_true, if_false]
    split
    · exact ⟨_, rfl⟩
    · exact place_pos_many params rest pos (p + 1) _ (by simp only [List.length_cons] at h; omega) (by omega)

theorem place_named (params : List String) (hn : params.Nodup) : ∀ (named : List (String × V)) p seen (s s' : List (Option V)), s.length = params.length →
    (place params (named.map fun q => ⟨some q.1, q.2⟩) p seen s = .ok s' ↔
      s'.length = params.length ∧ (named.map (·.1)).Nodup ∧ (∀ q ∈ named, ∃ i : Nat, params[i]? = some q.1 ∧ s[i]? = some none) ∧
      ∀ (i : Nat) (v : V), s'[i]? = some (some v) ↔ s[i]? = some (some v) ∨ ∃ n, params[i]? = some n ∧ (n, v) ∈ named)
  | [], p, seen, s, s', hs => by
    simp only [List.map_nil, place, Except.ok.injEq, List.nodup_nil, List.not_mem_nil, false_imp_iff, implies_true, and_false, exists_false, or_false, true_and]
    constructor
    · rintro rfl
      exact ⟨hs, fun _ _ => Iff.rfl⟩
    · rintro ⟨hl, h⟩
      refine List.ext_getElem? fun i => ?_
      rcases Nat.lt_or_ge i s.length with hi | hi
      · rw [List.getElem?_eq_getElem hi, List.getElem?_eq_getElem (by omega : i < s'.length)]
        cases hv : s[i] with
        | some v =>
          have := (h i v).2 (by rw [List.getElem?_eq_getElem hi, hv])
          rw [List.getElem?_eq_getElem (by omega : i < s'.length)] at this
          simpa using this.symm
        | none =>
          cases hv' : s'[i]'(by omega) with
          | none => rfl
          | some v =>
            have := (h i v).1 (by rw [List.getElem?_eq_getElem (by omega : i < s'.length), hv'])
            rw [List.getElem?_eq_getElem hi, hv] at this
            simp at this
      · rw [List.getElem?_eq_none hi, List.getElem?_eq_none (by omega)]
  | (n, v) :: named, p, seen, s, s', hs => by
    have uniq : ∀ {i j : Nat} {m : String}, params[i]? = some m → params[j]? = some m → i = j := by
      intro i j m hi hj
      obtain ⟨hi', _⟩ := List.getElem?_eq_some_iff.1 hi
      exact (List.getElem?_inj hi' hn).1 (hi.trans hj.symm)
    simp only [List.map_cons, place]
    cases hi : params.idxOf? n with
    | none =>
      simp only [reduceCtorEq, false_iff]
      rintro ⟨_, _, h, _⟩
      obtain ⟨i, h1, _⟩ := h (n, v) (by simp)
      have : n ∈ params := List.mem_of_getElem? h1
      rw [List.idxOf?_eq_none_iff] at hi
      exact hi this
    | some i =>
      obtain ⟨hil, hin, _⟩ := List.idxOf?_eq_some_iff.1 hi
      have hin' : params[i]? = some n := by rw [List.getElem?_eq_getElem hil]; simpa using hin
      have hsi : ∃ x, s[i]? = some x := ⟨s[i]'(by omega), List.getElem?_eq_getElem (by omega)⟩
      obtain ⟨x, hx⟩ := hsi
      cases x with
      | some w =>
        simp only [hx, Option.join_some, Option.isSome_some, if_true, reduceCtorEq, false_iff]
        rintro ⟨_, _, h, _⟩
        obtain ⟨j, h1, h2⟩ := h (n, v) (by simp)
        rw [uniq h1 hin', hx] at h2
        simp at h2
      | none =>
        simp only [hx, Option.join_some, Option.isSome_none, Bool.false_eq_true, if_false]
        rw [place_named params hn named p true _ s' (by simpa using hs)]
        have hset : ∀ j, (s.set i (some v))[j]? = if i = j then some (some v) else s[j]? := by
          intro j
          rw [List.getElem?_set]
          split
          · rw [if_pos (by omega)]
          · rfl
        constructor
        · rintro ⟨h0, h1, h2, h3⟩
          refine ⟨h0, ?_, ?_, ?_⟩
          · rw [List.nodup_cons]
            refine ⟨?_, h1⟩
            intro hm
            obtain ⟨q, hq, hqn⟩ := List.mem_map.1 hm
            obtain ⟨j, h4, h5⟩ := h2 q hq
            rw [hqn] at h4
            have := uniq h4 hin'
            subst this
            rw [hset, if_pos rfl] at h5
            simp at h5
          · intro q hq
            rcases List.mem_cons.1 hq with rfl | hq
            · exact ⟨i, hin', hx⟩
            · obtain ⟨j, h4, h5⟩ := h2 q hq
              rw [hset] at h5
              split at h5
              · simp at h5
              · exact ⟨j, h4, h5⟩
          · intro j w
            rw [h3, hset]
            constructor
            · rintro (h | ⟨m, hm, hw⟩)
              · split at h
                · next hij =>
                  subst hij
                  simp only [Option.some.injEq] at h
                  subst h
                  exact .inr ⟨n, hin', by simp⟩
                · exact .inl h
              · exact .inr ⟨m, hm, List.mem_cons_of_mem _ hw⟩
            · rintro (h | ⟨m, hm, hw⟩)
              · rw [if_neg (fun hij => by rw [← hij, hx] at h; simp at h)]
                exact .inl h
              · rcases List.mem_cons.1 hw with hw | hw
                · simp only [Prod.mk.injEq] at hw
                  obtain ⟨rfl, rfl⟩ := hw
                  rw [if_pos (uniq hin' hm)]
                  exact .inl rfl
                · exact .inr ⟨m, hm, hw⟩
        · rintro ⟨h0, h1, h2, h3⟩
          rw [List.nodup_cons] at h1
          refine ⟨h0, h1.2, ?_, ?_⟩
          · intro q hq
            obtain ⟨j, h4, h5⟩ := h2 q (List.mem_cons_of_mem _ hq)
            refine ⟨j, h4, ?_⟩
            rw [hset, if_neg]
            · exact h5
            · rintro rfl
              rw [hin'] at h4
              exact h1.1 (List.mem_map.2 ⟨q, hq, (Option.some.inj h4).symm⟩)
          · intro j w
            rw [h3, hset]
            constructor
            · rintro (h | ⟨m, hm, hw⟩)
              · rw [if_neg (fun hij => by rw [← hij, hx] at h; simp at h)]
                exact .inl h
              · rcases List.mem_cons.1 hw with hw | hw
                · simp only [Prod.mk.injEq] at hw
                  obtain ⟨rfl, rfl⟩ := hw
                  rw [if_pos (uniq hin' hm)]
                  exact .inl rfl
                · exact .inr ⟨m, hm, hw⟩
            · rintro (h | ⟨m, hm, hw⟩)
              · split at h
                · next hij =>
                  subst hij
                  simp only [Option.some.injEq] at h
                  subst h
                  exact .inr ⟨n, hin', by simp⟩
                · exact .inl h
              · exact .inr ⟨m, hm, List.mem_cons_of_mem _ hw⟩

theorem map_fst_zip_take {α β : Type} : ∀ (l : List α) (m : List β), (l.zip m).map Prod.fst = l.take m.length
  | [], _ => by simp
  | _ :: _, [] => by simp
  | a :: l, b :: m => by simp [map_fst_zip_take l m]

theorem nodup_of_map {α β : Type} {f : α → β} {l : List α} (h : (l.map f).Nodup) : l.Nodup := by
  rw [List.Nodup, List.pairwise_map] at h
  exact h.imp fun {a b} hab (he : a = b) => hab (congrArg f he)

/-- **Keyword arguments** (C245): a call with the positional arguments `pos` and the keyword arguments `named` is accepted exactly if the keyword arguments, in
some order, belong to the parameters that follow the positional ones, without gaps, and no others; the values then come in the order of the parameters. -/
theorem C245_keyword_arguments (params : List String) (hn : params.Nodup) (hne : params ≠ []) (m : Nat) (pos : List V) (named : List (String × V)) (r : List V) :
    orderCallArguments params m (call pos named) = .ok r ↔
      ∃ vals : List V, r = pos ++ vals ∧ r.length ≤ params.length ∧ vals.length = named.length ∧ List.Perm named ((params.drop pos.length).zip vals) := by
  unfold orderCallArguments
  rw [if_neg hne]
  have hcl : (call pos named).length = pos.length + named.length := by simp [call]
  by_cases hlen : params.length < (call pos named).length
  · rw [if_pos hlen]
    simp only [reduceCtorEq, false_iff]
    rintro ⟨vals, rfl, h1, h2, _⟩
    simp only [List.length_append] at h1
    omega
  rw [if_neg hlen]
  have hp := place_pos params (named.map fun p => ⟨some p.1, p.2⟩) pos [] params.length (by omega) (by simp)
  simp only [List.map_nil, List.nil_append, List.length_nil, Nat.zero_add] at hp
  rw [show call pos named = pos.map (fun v => ⟨none, v⟩) ++ named.map fun p => ⟨some p.1, p.2⟩ from rfl, hp]
  have hs0 : (pos.map some ++ List.replicate (params.length - pos.length) (none : Option V)).length = params.length := by simp; omega
  have hs0i : ∀ i, i < pos.length → (pos.map some ++ List.replicate (params.length - pos.length) (none : Option V))[i]? = some (pos[i]?) := by
    intro i hi
    rw [List.getElem?_append_left (by simpa using hi)]
    simp [List.getElem?_eq_getElem hi]
  have hs0n : ∀ i, pos.length ≤ i → i < params.length → (pos.map some ++ List.replicate (params.length - pos.length) (none : Option V))[i]? = some none := by
    intro i hi hi'
    rw [List.getElem?_append_right (by simpa using hi), List.getElem?_replicate, if_pos (by simp; omega)]
  have key : (∃ s', place params (named.map fun p => ⟨some p.1, p.2⟩) pos.length false (pos.map some ++ List.replicate (params.length - pos.length) none) = .ok s' ∧
      ∃ k, s' = r.map some ++ List.replicate k none) ↔
      ∃ vals : List V, r = pos ++ vals ∧ r.length ≤ params.length ∧ vals.length = named.length ∧ List.Perm named ((params.drop pos.length).zip vals) := by
    have uniq : ∀ {i j : Nat} {m : String}, params[i]? = some m → params[j]? = some m → i = j := by
      intro i j m hi hj
      obtain ⟨hi', _⟩ := List.getElem?_eq_some_iff.1 hi
      exact (List.getElem?_inj hi' hn).1 (hi.trans hj.symm)
    have hzip : ∀ (vals : List V) n v, (n, v) ∈ (params.drop pos.length).zip vals ↔ ∃ j, params[pos.length + j]? = some n ∧ vals[j]? = some v := by
      intro vals n v
      rw [List.mem_iff_getElem?]
      simp only [List.getElem?_zip_eq_some, List.getElem?_drop]
    have hzn : ∀ vals : List V, ((params.drop pos.length).zip vals).Nodup := by
      intro vals
      have h1 : (((params.drop pos.length).zip vals).map Prod.fst).Nodup := by
        rw [map_fst_zip_take]
        exact (hn.sublist (List.drop_sublist _ _)).sublist (List.take_sublist _ _)
      exact nodup_of_map h1
    constructor
    · rintro ⟨s', h, k, rfl⟩
      obtain ⟨h0, h1, h2, h3⟩ := (place_named params hn named _ _ _ _ hs0).1 h
      have hr : ∀ (i : Nat) (v : V), r[i]? = some v ↔ (r.map some ++ List.replicate k (none : Option V))[i]? = some (some v) := by
        intro i v
        rcases Nat.lt_or_ge i r.length with hi | hi
        · rw [List.getElem?_append_left (by simpa using hi)]
          simp
        · rw [List.getElem?_append_right (by simpa using hi), List.getElem?_eq_none hi]
          simp [List.getElem?_replicate]
      have hrl : r.length ≤ params.length := by simp only [List.length_append, List.length_map, List.length_replicate] at h0; omega
      have hpre : pos <+: r := by
        rw [List.prefix_iff_getElem?]
        intro i hi
        rw [hr, h3, hs0i i hi]
        left
        rw [List.getElem?_eq_getElem hi]
      obtain ⟨vals, rfl⟩ := hpre
      have hmem : ∀ q : String × V, q ∈ named ↔ q ∈ (params.drop pos.length).zip vals := by
        rintro ⟨n, v⟩
        rw [hzip]
        constructor
        · intro hq
          obtain ⟨i, h4, h5⟩ := h2 _ hq
          have hip : pos.length ≤ i := by
            rcases Nat.lt_or_ge i pos.length with hi | hi
            · rw [hs0i i hi, List.getElem?_eq_getElem hi] at h5
              simp at h5
            · exact hi
          refine ⟨i - pos.length, by rw [Nat.add_sub_cancel' hip]; exact h4, ?_⟩
          have := (hr i v).2 ((h3 i v).2 (.inr ⟨n, h4, hq⟩))
          rwa [List.getElem?_append_right hip] at this
        · rintro ⟨j, h4, h5⟩
          have := (h3 (pos.length + j) v).1 ((hr _ _).1 (by rw [List.getElem?_append_right (by omega), Nat.add_sub_cancel_left]; exact h5))
          rcases this with h | ⟨m, hm, hq⟩
          · obtain ⟨hlt, _⟩ := List.getElem?_eq_some_iff.1 h4
            rw [hs0n _ (by omega) hlt] at h
            simp at h
          · rw [h4] at hm
            cases hm
            exact hq
      have hperm : List.Perm named ((params.drop pos.length).zip vals) :=
        (List.perm_ext_iff_of_nodup (nodup_of_map h1) (hzn vals)).2 hmem
      refine ⟨vals, rfl, hrl, ?_, hperm⟩
      have := hperm.length_eq
      simp only [List.length_zip, List.length_drop] at this
      simp only [List.length_append] at hrl
      omega
    · rintro ⟨vals, rfl, hrl, hvl, hperm⟩
      simp only [List.length_append] at hrl
      refine ⟨(pos ++ vals).map some ++ List.replicate (params.length - (pos ++ vals).length) none, ?_, _, rfl⟩
      rw [place_named params hn named _ _ _ _ hs0]
      refine ⟨by simp; omega, ?_, ?_, ?_⟩
      · rw [(hperm.map Prod.fst).nodup_iff, map_fst_zip_take]
        exact (hn.sublist (List.drop_sublist _ _)).sublist (List.take_sublist _ _)
      · rintro ⟨n, v⟩ hq
        obtain ⟨j, h4, h5⟩ := (hzip vals n v).1 (hperm.mem_iff.1 hq)
        obtain ⟨hlt, _⟩ := List.getElem?_eq_some_iff.1 h4
        exact ⟨pos.length + j, h4, hs0n _ (by omega) hlt⟩
      · intro i v
        rcases Nat.lt_or_ge i pos.length with hi | hi
        · rw [hs0i i hi, List.getElem?_append_left (by simp; omega)]
          simp only [List.getElem?_map, List.getElem?_append_left hi, List.getElem?_eq_getElem hi, Option.map_some, Option.some.injEq]
          constructor
          · exact .inl
          · rintro (h | ⟨n, h4, hq⟩)
            · exact h
            · obtain ⟨j, h5, h6⟩ := (hzip vals n v).1 (hperm.mem_iff.1 hq)
              have := uniq h4 h5
              omega
        · rcases Nat.lt_or_ge i params.length with hip | hip
          · rw [hs0n i hi hip]
            simp only [Option.some.injEq, reduceCtorEq, false_or]
            rcases Nat.lt_or_ge i (pos.length + vals.length) with hiv | hiv
            · rw [List.getElem?_append_left (by simp; omega)]
              simp only [List.getElem?_map, List.getElem?_append_right hi, Option.map_eq_some_iff, Option.some.injEq, exists_eq_right]
              constructor
              · intro h
                refine ⟨params[i], List.getElem?_eq_getElem hip, hperm.mem_iff.2 ((hzip vals _ v).2 ⟨i - pos.length, ?_, h⟩)⟩
                rw [Nat.add_sub_cancel' hi]
                exact List.getElem?_eq_getElem hip
              · rintro ⟨n, h4, hq⟩
                obtain ⟨j, h5, h6⟩ := (hzip vals n v).1 (hperm.mem_iff.1 hq)
                have := uniq h4 h5
                subst this
                simpa using h6
            · rw [List.getElem?_append_right (by simp; omega)]
              simp only [List.getElem?_replicate, Option.ite_none_right_eq_some, Option.some.injEq, reduceCtorEq, and_false, false_iff]
              rintro ⟨n, h4, hq⟩
              obtain ⟨j, h5, h6⟩ := (hzip vals n v).1 (hperm.mem_iff.1 hq)
              have := uniq h4 h5
              obtain ⟨hlt, _⟩ := List.getElem?_eq_some_iff.1 h6
              omega
          · rw [List.getElem?_eq_none (by simp; omega), List.getElem?_eq_none (by omega)]
            simp only [reduceCtorEq, false_or, false_iff]
            rintro ⟨n, h4, _⟩
            rw [List.getElem?_eq_none hip] at h4
            cases h4
  rw [← key]
  cases hpl : place params (named.map fun p => ⟨some p.1, p.2⟩) pos.length false (pos.map some ++ List.replicate (params.length - pos.length) none) with
  | error e => simp [bind, Except.bind]
  | ok s' =>
    simp only [bind, Except.bind, Except.ok.injEq, exists_eq_left']
    exact tail_ok _ s' r

/-- A positional argument after a keyword argument is rejected. -/
theorem C245_positional_after_keyword (params : List String) (m : Nat) (as bs cs : List (Arg V)) (n : String) (v w : V) :
    (orderCallArguments params m (as ++ ⟨some n, v⟩ :: bs ++ ⟨none, w⟩ :: cs)).Throws := by
  have hp : ∀ (as : List (Arg V)) p seen s, (seen = true ∨ ∃ a ∈ as, a.name.isSome) → ∀ s', place params (as ++ ⟨none, w⟩ :: cs) p seen s ≠ .ok s' := by
    intro as
    induction as with
    | nil =>
      intro p seen s h s'
      have : seen = true := by simpa using h
      simp [place, this]
    | cons a as ih =>
      intro p seen s h s'
      simp only [List.cons_append, place]
      split
      · next hn =>
        split
        · simp
        · split
          · simp
          · refine ih _ _ _ ?_ _
            rcases h with h | ⟨b, hb, hs⟩
            · exact .inl h
            · rcases List.mem_cons.1 hb with rfl | hb
              · rw [hn] at hs; cases hs
              · exact .inr ⟨b, hb, hs⟩
      · split
        · simp
        · split
          · simp
          · exact ih _ _ _ (.inl rfl) _
  rcases order_never_ub params m (as ++ ⟨some n, v⟩ :: bs ++ ⟨none, w⟩ :: cs) with ⟨r, h⟩ | h
  · exfalso
    unfold orderCallArguments at h
    split at h
    · simp at h
    · split at h
      · cases h
      · cases hpl : place params (as ++ ⟨some n, v⟩ :: bs ++ ⟨none, w⟩ :: cs) 0 false (List.replicate params.length none) with
        | error e => rw [hpl] at h; cases h
        | ok s' => exact hp _ _ _ _ (.inr ⟨⟨some n, v⟩, by simp, rfl⟩) _ hpl
  · exact h

/-- `f(1, d = 4, c = 3)` for the parameters `a, b, c, d` has a gap at `b`; `f(1, c = 3, b = 2)` has none. -/
example : (orderCallArguments ["a", "b", "c", "d"] 4 (call [1] [("d", 4), ("c", 3)])).Throws ∧
    orderCallArguments ["a", "b", "c", "d"] 4 (call [1] [("c", 3), ("b", 2)]) = .ok [1, 2, 3] := ⟨⟨_, rfl⟩, rfl⟩

/-! ### Overloading -/

/-- A value of type `t` may be passed to a parameter of type `p`: they are the same, one is not known, or they are matrices and the value type of one is not known. -/
def Ty.Passes (t p : Ty) : Prop :=
  t = p ∨ t = .unknown ∨ p = .unknown ∨ ∃ e r c e' r' c', t = .mat e r c ∧ p = .mat e' r' c' ∧ (e = none ∨ e' = none)

/-- A definition accepts values of these types. -/
def Def.Accepts (d : Def) (ts : List Ty) : Prop := List.Forall₂ Ty.Passes ts d.params

theorem compatible_iff (t p : Ty) : compatible t p = true ↔ t.Passes p := by
  unfold compatible Ty.Passes
  cases t <;> cases p <;> simp <;> aesop

theorem fits_iff (ts : List Ty) (d : Def) : fits ts d = true ↔ d.Accepts ts := by
  unfold fits Def.Accepts
  generalize d.params = ps
  induction ts generalizing ps with
  | nil => cases ps <;> simp
  | cons t ts ih =>
    cases ps with
    | nil => simp
    | cons p ps =>
      have := ih ps
      simp only [Bool.and_eq_true, beq_iff_eq] at this
      simp only [List.length_cons, List.zip_cons_cons, List.all_cons, compatible_iff, Bool.and_eq_true, beq_iff_eq, decide_eq_true_eq, Nat.add_right_cancel_iff, List.forall₂_cons, ← this]
      tauto

theorem udfParamNames_some (n : Nat) (ns : List String) : ∀ (ds : List Def), (∀ d ∈ ds, d.params.length = n → d.names = some ns) →
    udfParamNames ds n (some ns) = .ok (some ns)
  | [], _ => rfl
  | d :: ds, h => by
    unfold udfParamNames
    split
    · exact udfParamNames_some n ns ds fun e he => h e (List.mem_cons_of_mem _ he)
    · next hd =>
      rw [h d (by simp) (by simpa using hd)]
      simpa using udfParamNames_some n ns ds fun e he => h e (List.mem_cons_of_mem _ he)

theorem udfParamNames_ok (n : Nat) (ns : List String) : ∀ (ds : List Def), (∀ d ∈ ds, d.params.length = n → d.names = some ns) → (∃ d ∈ ds, d.params.length = n) →
    udfParamNames ds n none = .ok (some ns)
  | [], _, h => by simp at h
  | d :: ds, h, he => by
    unfold udfParamNames
    split
    · next hd =>
      refine udfParamNames_ok n ns ds (fun e he => h e (List.mem_cons_of_mem _ he)) ?_
      obtain ⟨e, he, hen⟩ := he
      rcases List.mem_cons.1 he with rfl | he
      · exact absurd hen hd
      · exact ⟨e, he, hen⟩
    · next hd =>
      rw [h d (by simp) (by simpa using hd)]
      exact udfParamNames_some n ns ds fun e he => h e (List.mem_cons_of_mem _ he)

theorem find_first {α : Type} (p : α → Bool) (a : α) : ∀ l : List α, l.find? p = some a ↔ p a = true ∧ ∃ l1 l2, l = l1 ++ a :: l2 ∧ ∀ b ∈ l1, p b = false := by
  intro l
  rw [List.find?_eq_some_iff_append]
  simp

/-- **Overloaded functions** (C246): if the definitions of a function with as many parameters as the call has arguments agree on the names `ns` of the parameters,
a call goes to the first of the definitions that accepts the types of the arguments, with the arguments in the order of the parameters (C245). -/
theorem C246_overloads (ty : V → Ty) (ds : List Def) (args : List (Arg V)) (ns : List String) (hd : ∀ d ∈ ds, d.params.length = args.length → d.names = some ns)
    (he : ∃ d ∈ ds, d.params.length = args.length) (d : Def) (vs : List V) :
    callUDF ty ds args = .ok (some (d, vs)) ↔ orderCallArguments ns ns.length args = .ok vs ∧ d.Accepts (vs.map ty) ∧
      ∃ before after, ds = before ++ d :: after ∧ ∀ e ∈ before, ¬ e.Accepts (vs.map ty) := by
  have hne : ds ≠ [] := by rintro rfl; simp at he
  unfold callUDF
  rw [if_neg hne]
  unfold udfArgs
  rw [udfParamNames_ok _ ns ds hd he]
  simp only [bind, Except.bind]
  cases ho : orderCallArguments ns ns.length args with
  | error e => simp
  | ok ws =>
    simp only [Except.ok.injEq]
    unfold findUDF
    cases hf : ds.find? (fits (ws.map ty)) with
    | none =>
      simp only [hne, ne_eq, not_false_eq_true, if_true, reduceCtorEq, false_iff]
      rintro ⟨rfl, h, b, a, hb, _⟩
      rw [List.find?_eq_none] at hf
      exact hf d (by rw [hb]; simp) ((fits_iff _ _).2 h)
    | some e =>
      simp only [Option.map_some, Except.ok.injEq, Option.some.injEq, Prod.mk.injEq]
      constructor
      · rintro ⟨rfl, rfl⟩
        obtain ⟨h1, b, a, h2, h3⟩ := (find_first _ _ _).1 hf
        exact ⟨rfl, (fits_iff _ _).1 h1, b, a, h2, fun x hx hacc => by have := h3 x hx; rw [(fits_iff _ _).2 hacc] at this; cases this⟩
      · rintro ⟨rfl, h1, b, a, h2, h3⟩
        refine ⟨?_, rfl⟩
        have : ds.find? (fits (ws.map ty)) = some d := by
          rw [find_first]
          refine ⟨(fits_iff _ _).2 h1, b, a, h2, fun x hx => ?_⟩
          cases hx' : fits (ws.map ty) x with
          | false => rfl
          | true => exact absurd ((fits_iff _ _).1 hx') (h3 x hx)
        rw [hf] at this
        exact Option.some.inj this

/-- Two definitions `f(a: matrix<f64>)` and `f(a: si64)`, and the call `f(a = 7)`. -/
example : callUDF (fun v : Nat => if v = 7 then .other "si64" else .unknown) [⟨"f-1", [.mat (some "f64") none none], some ["a"]⟩, ⟨"f-2", [.other "si64"], some ["a"]⟩] (call [] [("a", 7)])
    = .ok (some (⟨"f-2", [.other "si64"], some ["a"]⟩, [7])) := rfl

/-- **The most specific definition is not preferred** (C247): a definition without types that comes first takes all calls, even those for which a later
definition has exactly the types of the arguments. -/
theorem C247_most_specific_partial (ty : V → Ty) (f : Def) (ds : List Def) (args : List (Arg V)) (hp : ∀ a ∈ args, a.name = none) (ns : List String)
    (hf : f.params = List.replicate args.length .unknown) (hn : f.names = some ns) (hl : ns.length = args.length) (hns : ns.Nodup) (hpos : args ≠ [])
    (hd : ∀ d ∈ ds, d.params.length = args.length → d.names = some ns) : callUDF ty (f :: ds) args = .ok (some (f, args.map (·.val))) := by
  have hfl : f.params.length = args.length := by simp [hf]
  rw [C246_overloads ty (f :: ds) args ns (by
    intro d hdm hlen
    rcases List.mem_cons.1 hdm with rfl | h
    · exact hn
    · exact hd d h hlen) ⟨f, by simp, hfl⟩]
  have hargs : args = call (args.map (·.val)) [] := by
    unfold call
    simp only [List.map_map, List.map_nil, List.append_nil]
    refine (List.ext_getElem (by simp) fun i h1 h2 => ?_)
    have := hp args[i] (by simp)
    simp only [List.getElem_map, Function.comp_apply, ← this]
  have hnn : ns ≠ [] := by
    rintro rfl
    simp only [List.length_nil] at hl
    exact hpos (List.length_eq_zero_iff.1 hl.symm)
  refine ⟨?_, ?_, [], ds, rfl, by simp⟩
  · conv => lhs; rw [hargs]
    rw [C245_keyword_arguments ns hns hnn]
    exact ⟨[], by simp, by simp; omega, rfl, by simp⟩
  · unfold Def.Accepts
    rw [hf]
    clear * -
    induction args with
    | nil => simp
    | cons a args ih => simpa [List.replicate_succ, Ty.Passes] using ih

/-- `f(x)` is defined before `f(x: f64)`: the call `f(1.5)` goes to the former. -/
example : callUDF (fun _ : Nat => .other "f64") [⟨"f-1", [.unknown], some ["x"]⟩, ⟨"f-2", [.other "f64"], some ["x"]⟩] (call [3] [])
    = .ok (some (⟨"f-1", [.unknown], some ["x"]⟩, [3])) := rfl

/-- Two definitions with as many parameters as there are arguments, but with different names of parameters. -/
theorem udfParamNames_differ (n : Nat) : ∀ (ds : List Def) (found : Option (List String)), (∀ d ∈ ds, d.names.isSome) →
    ((∃ ms, found = some ms ∧ ∃ e ∈ ds, e.params.length = n ∧ e.names ≠ some ms) ∨ ∃ d ∈ ds, ∃ e ∈ ds, d.params.length = n ∧ e.params.length = n ∧ d.names ≠ e.names) →
    (udfParamNames ds n found).Throws
  | [], _, _, h => by simp at h
  | d :: ds, found, hs, h => by
    have hs' : ∀ e ∈ ds, e.names.isSome := fun e he => hs e (List.mem_cons_of_mem _ he)
    unfold udfParamNames
    split
    · next hd =>
      refine udfParamNames_differ n ds found hs' ?_
      rcases h with ⟨ms, hm, e, he, hl, hn⟩ | ⟨a, ha, b, hb, hla, hlb, hn⟩
      · rcases List.mem_cons.1 he with rfl | he
        · exact absurd hl hd
        · exact .inl ⟨ms, hm, e, he, hl, hn⟩
      · rcases List.mem_cons.1 ha with rfl | ha
        · exact absurd hla hd
        · rcases List.mem_cons.1 hb with rfl | hb
          · exact absurd hlb hd
          · exact .inr ⟨a, ha, b, hb, hla, hlb, hn⟩
    · next hd =>
      have hd : d.params.length = n := by simpa using hd
      obtain ⟨ns, hns⟩ := Option.isSome_iff_exists.1 (hs d (by simp))
      rw [hns]
      cases found with
      | none =>
        refine udfParamNames_differ n ds (some ns) hs' ?_
        rcases h with ⟨ms, hm, _⟩ | ⟨a, ha, b, hb, hla, hlb, hn⟩
        · cases hm
        · rcases List.mem_cons.1 ha with rfl | ha
          · rcases List.mem_cons.1 hb with rfl | hb
            · exact absurd rfl hn
            · exact .inl ⟨ns, rfl, b, hb, hlb, fun h => hn (hns.trans h.symm)⟩
          · rcases List.mem_cons.1 hb with rfl | hb
            · exact .inl ⟨ns, rfl, a, by assumption, hla, fun h => hn (h.trans hns.symm)⟩
            · exact .inr ⟨a, ha, b, hb, hla, hlb, hn⟩
      | some ms =>
        simp only
        split
        · exact ⟨_, rfl⟩
        · next hms =>
          have hms : ms = ns := by simpa using hms
          subst hms
          refine udfParamNames_differ n ds (some ms) hs' ?_
          rcases h with ⟨ms', hm, e, he, hl, hn⟩ | ⟨a, ha, b, hb, hla, hlb, hn⟩
          · cases hm
            rcases List.mem_cons.1 he with rfl | he
            · exact absurd hns hn
            · exact .inl ⟨ms, rfl, e, he, hl, hn⟩
          · rcases List.mem_cons.1 ha with rfl | ha
            · rcases List.mem_cons.1 hb with rfl | hb
              · exact absurd rfl hn
              · exact .inl ⟨ms, rfl, b, hb, hlb, fun h => hn (hns.trans h.symm)⟩
            · rcases List.mem_cons.1 hb with rfl | hb
              · exact .inl ⟨ms, rfl, a, by assumption, hla, fun h => hn (h.trans hns.symm)⟩
              · exact .inr ⟨a, ha, b, hb, hla, hlb, hn⟩

theorem udfParamNames_none (n : Nat) : ∀ (ds : List Def), (∀ d ∈ ds, d.params.length = n → d.names = none) → udfParamNames ds n none = .ok none
  | [], _ => rfl
  | d :: ds, h => by
    unfold udfParamNames
    split
    · exact udfParamNames_none n ds fun e he => h e (List.mem_cons_of_mem _ he)
    · next hd =>
      rw [h d (by simp) (by simpa using hd)]
      exact udfParamNames_none n ds fun e he => h e (List.mem_cons_of_mem _ he)

/-- **Calls that are rejected although they make sense** (C248). (1) If two definitions of a function have the same number of parameters but other names for them,
every call with this number of arguments is rejected, even without keyword arguments. (2) A recursive call (the names of the parameters of a function are
not known in its body) with keyword arguments is rejected. (3) `map(udf = f, arg = X)` is rejected, or dereferences a null pointer if there is a variable `f`. -/
theorem C248_rejected_calls_partial :
    (∀ (ty : V → Ty) (ds : List Def) (args : List (Arg V)), (∀ d ∈ ds, d.names.isSome) →
      (∃ d ∈ ds, ∃ e ∈ ds, d.params.length = args.length ∧ e.params.length = args.length ∧ d.names ≠ e.names) → (callUDF ty ds args).Throws) ∧
    (∀ (ty : V → Ty) (d : Def) (ds : List Def) (args : List (Arg V)), (∀ e ∈ d :: ds, e.params.length = args.length → e.names = none) → (∃ a ∈ args, a.name.isSome) →
      (callUDF ty (d :: ds) args).Throws) ∧
    (∀ (E : Type) (eval : E → Res V) (f X : E), ((eval f).Throws → (mapArgs eval [(some "udf", f), (some "arg", X)]).Throws) ∧
      ∀ v, eval f = .ok v → (mapArgs eval [(some "udf", f), (some "arg", X)]).IsUB) := by
  refine ⟨?_, ?_, ?_⟩
  · intro ty ds args hs h
    have hne : ds ≠ [] := by rintro rfl; simp at h
    obtain ⟨e, he⟩ := udfParamNames_differ args.length ds none hs (.inr h)
    refine ⟨e, ?_⟩
    unfold callUDF udfArgs
    rw [if_neg hne, he]
    rfl
  · intro ty d ds args h hn
    refine ⟨"missing parameter names", ?_⟩
    unfold callUDF udfArgs
    rw [if_neg (by simp), udfParamNames_none _ _ h]
    have : args.any (·.name.isSome) = true := by simpa using hn
    simp only [bind, Except.bind, this, if_true]
  · intro E eval f X
    constructor
    · rintro ⟨e, he⟩
      exact ⟨e, by simp [mapArgs, he, bind, Except.bind]⟩
    · intro v hv
      refine ⟨"type of a null value", ?_⟩
      simp only [mapArgs, hv, bind, Except.bind]
      rfl

end Verif.Call
