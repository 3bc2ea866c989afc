/-
  Kernel ids (C321, C322) and casts for kernels of uniform value type (C323, C324).
-/
import Verif.Disp.Call

namespace Verif.Disp

/-! ### Kernel ids -/

/-- Registering kernel calls one after the other: the ids. -/
def registerAll : Mapping → List (List Char × Option Loc) → Option (List Nat × Mapping)
  | m, [] => some ([], m)
  | m, x :: xs => (m.register x.1 x.2).bind fun r => (registerAll r.2 xs).map fun q => (r.1 :: q.1, q.2)

/-- The location reported for call number `i`: its own, or else that of the last call before it which has one. -/
def LocAt (xs : List (List Char × Option Loc)) (i : Nat) (l : Loc) : Prop :=
  ∃ j, j ≤ i ∧ (∃ n, xs[j]? = some (n, some l)) ∧ ∀ j' y, j < j' → j' ≤ i → xs[j']? = some y → y.2 = none

theorem info_cons (m : Mapping) (id : Nat) (x : List Char × Loc) (n : Nat) (cur : Option Loc) (k : Nat) (hk : k ≠ 0) :
    (Mapping.mk n ((id, x) :: m.infos) cur).info k = if id = k then some x else m.info k := by
  unfold Mapping.info
  rw [if_neg hk, if_neg hk, List.find?_cons]
  by_cases h : id = k <;> simp [h]

theorem registerAll_ok (xs done : List (List Char × Option Loc)) (m : Mapping) (hc : m.counter = done.length + 1)
    (hcur : ∀ l, m.cur = some l → done ≠ [] ∧ LocAt done (done.length - 1) l)
    (hinf : ∀ i x, done[i]? = some x → ∃ l, m.info (i + 1) = some (x.1, l) ∧ LocAt done i l)
    (hfirst : m.cur.isSome ∨ ∃ n l xs', xs = (n, some l) :: xs') :
    ∃ m', registerAll m xs = some ((List.range xs.length).map (fun i => done.length + 1 + i), m') ∧
      ∀ i x, (done ++ xs)[i]? = some x → ∃ l, m'.info (i + 1) = some (x.1, l) ∧ LocAt (done ++ xs) i l := by
  induction xs generalizing done m with
  | nil =>
    refine ⟨m, rfl, ?_⟩
    intro i x hx
    rw [List.append_nil] at hx ⊢
    exact hinf i x hx
  | cons x xs ih =>
    obtain ⟨nm, lo⟩ := x
    have hreg : ∃ l, m.register nm lo = some (m.counter, ⟨m.counter + 1, (m.counter, (nm, l)) :: m.infos, some l⟩) ∧ LocAt (done ++ [(nm, lo)]) done.length l := by
      cases lo with
      | some l =>
        refine ⟨l, rfl, done.length, le_refl _, ⟨nm, by simp⟩, ?_⟩
        intro j' y h1 h2 _
        omega
      | none =>
        have hs : m.cur.isSome := by
          rcases hfirst with h | ⟨n, l, xs', h⟩
          · exact h
          · simp at h
        obtain ⟨l, hl⟩ := Option.isSome_iff_exists.mp hs
        obtain ⟨hne, j, hj, ⟨n, hn⟩, hlast⟩ := hcur l hl
        have hpos : 0 < done.length := List.length_pos_iff.mpr hne
        refine ⟨l, by simp [Mapping.register, hl], j, by omega, ⟨n, by rw [List.getElem?_append_left (by omega)]; exact hn⟩, ?_⟩
        intro j' y h1 h2 h3
        by_cases hlt : j' < done.length
        · rw [List.getElem?_append_left hlt] at h3
          exact hlast j' y h1 (by omega) h3
        · have : j' = done.length := by omega
          subst this
          simp at h3
          rw [← h3]
    obtain ⟨l, hr, hloc⟩ := hreg
    have hext : ∀ i l', i < done.length → LocAt done i l' → LocAt (done ++ [(nm, lo)]) i l' := by
      rintro i l' hi ⟨j, h1, ⟨n, h2⟩, h3⟩
      refine ⟨j, h1, ⟨n, by rw [List.getElem?_append_left (by omega)]; exact h2⟩, fun j' y a b c => h3 j' y a b ?_⟩
      rwa [List.getElem?_append_left (by omega)] at c
    obtain ⟨m', h1, h2⟩ := ih (done ++ [(nm, lo)]) ⟨m.counter + 1, (m.counter, (nm, l)) :: m.infos, some l⟩ (by simp [hc])
      (by
        intro l' hl'
        simp only [Option.some.injEq] at hl'
        subst hl'
        exact ⟨by simp, by simpa using hloc⟩)
      (by
        intro i x hx
        rw [info_cons _ _ _ _ _ _ (by omega), hc]
        by_cases hi : i < done.length
        · rw [if_neg (by omega)]
          rw [List.getElem?_append_left hi] at hx
          obtain ⟨l', h3, h4⟩ := hinf i x hx
          exact ⟨l', h3, hext i l' hi h4⟩
        · have hi' : i = done.length := by
            have := (List.getElem?_eq_some_iff.mp hx).1
            simp at this
            omega
          subst hi'
          simp at hx
          subst hx
          exact ⟨l, by simp, hloc⟩)
      (.inl rfl)
    refine ⟨m', ?_, ?_⟩
    · simp only [registerAll, hr, Option.bind_some, h1, Option.map_some, Option.some.injEq, Prod.mk.injEq, and_true, List.length_cons, List.length_append,
        List.length_nil]
      rw [List.range_succ_eq_map, List.map_cons, List.map_map]
      simp only [Nat.add_zero, List.cons.injEq]
      refine ⟨hc, List.map_congr_left fun i _ => ?_⟩
      simp only [Function.comp]
      omega
    · intro i x hx
      have : done ++ [(nm, lo)] ++ xs = done ++ (nm, lo) :: xs := by simp
      rw [this] at h2
      exact h2 i x hx

/-- **C321.** For every sequence of kernel calls whose first one has a source location: the calls get the ids one, two, and so on, so no two share one, and the id of
a call leads to its kernel and its location — for an operation without location, to that of the last one before it which has one. No call has the id zero. -/
theorem C321_kernel_ids (n : List Char) (l : Loc) (xs : List (List Char × Option Loc)) :
    ∃ ids m, registerAll .empty ((n, some l) :: xs) = some (ids, m) ∧ ids.Nodup ∧ 0 ∉ ids ∧ ids.length = xs.length + 1 ∧
      ∀ i x, ((n, some l) :: xs)[i]? = some x → ∃ id l', ids[i]? = some id ∧ m.info id = some (x.1, l') ∧ LocAt ((n, some l) :: xs) i l' := by
  obtain ⟨m, h1, h2⟩ := registerAll_ok ((n, some l) :: xs) [] .empty rfl (by simp [Mapping.empty]) (by simp) (.inr ⟨n, l, xs, rfl⟩)
  refine ⟨_, m, h1, ?_, ?_, by simp, ?_⟩
  · exact List.Pairwise.map _ (fun a b h e => h (by simpa using e)) List.nodup_range
  · simp
  · intro i x hx
    obtain ⟨l', h3, h4⟩ := h2 i x (by simpa using hx)
    have hi := (List.getElem?_eq_some_iff.mp hx).1
    refine ⟨i + 1, l', ?_, h3, by simpa using h4⟩
    rw [List.getElem?_map, List.getElem?_range (by simpa using hi)]
    simp
    omega

/-- **C322.** A call whose operation has no file location is undefined if none before it has one, and otherwise is reported at the place of another operation. So the
claim "the id of a call leads to the location of its operation, if it has one, and to no other" fails. -/
theorem C322_missing_location_partial :
    (∀ n xs, registerAll .empty ((n, none) :: xs) = none) ∧
    (∀ (n n' : List Char) (l : Loc), ∃ ids m id, registerAll .empty [(n, some l), (n', none)] = some (ids, m) ∧ ids[1]? = some id ∧ m.info id = some (n', l)) := by
  constructor
  · intro n xs
    rfl
  · intro n n' l
    exact ⟨_, _, 2, rfl, rfl, rfl⟩

/-! ### Casts -/

/-- From the least to the most general value type. -/
def byGenerality : List Vt := [.i1, .si8, .ui8, .si32, .ui32, .index, .si64, .ui64, .f32, .f64, .string, .unknown]

/-- The same type but for the value type, which is `v`: shape, sparsity, representation and symmetry are kept. -/
inductive Recast (v : Vt) : Ty → Ty → Prop
  | sca (w : Vt) : Recast v (.sca w) (.sca v)
  | matrix (w : Vt) (r c s rep sym) : Recast v (.matrix w r c s rep sym) (.matrix v r c s rep sym)
  | column (w : Vt) (r) : Recast v (.column w r) (.column v r)

/-- Operands whose value type can be changed: scalars, matrices and columns of known type. -/
def Castable : Ty → Prop
  | .sca w => w ≠ .unknown
  | .matrix w _ _ _ _ _ => w ≠ .unknown
  | .column w _ => w ≠ .unknown
  | _ => False

/-- The value type of an operand. -/
def HasVt (t : Ty) (v : Vt) : Prop := Recast v t t

/-- The operands a trait is about. -/
def Concerned : Trait → Nat → Prop
  | .mostGeneral, _ => True
  | .argsToRes, _ => True
  | .firstToRes, i => i = 0
  | .firstTwoToRes, i => i = 0 ∨ i = 1
  | .randMatrix, i => i = 2 ∨ i = 3
  | .nothing, _ => False

theorem getVt_castable (t : Ty) (h : Castable t) (v : Vt) : getVt t = some v ↔ HasVt t v := by
  cases t <;> simp only [Castable] at h <;> simp only [getVt, Option.some.injEq]
  · constructor
    · rintro rfl; exact .sca _
    · intro h; cases h; rfl
  · constructor
    · rintro rfl; exact .matrix ..
    · intro h; cases h; rfl
  · constructor
    · rintro rfl; exact .column ..
    · intro h; cases h; rfl

theorem setVt_castable (t : Ty) (h : Castable t) (v : Vt) : ∃ t', setVt t v = some t' ∧ Recast v t t' := by
  cases t with
  | sca w => cases w <;> first | exact absurd rfl h | exact ⟨_, rfl, .sca _⟩
  | matrix w r c s rep sym => exact ⟨_, rfl, .matrix ..⟩
  | column w r => exact ⟨_, rfl, .column ..⟩
  | _ => exact h.elim

theorem hasVt_exists (t : Ty) (h : Castable t) : ∃ v, getVt t = some v := by
  cases t <;> first | exact h.elim | exact ⟨_, rfl⟩

theorem castLoop_ok (v : Vt) (is : List Nat) (args : List Ty) (hnd : is.Nodup) (hin : ∀ i ∈ is, i < args.length) (hc : ∀ i ∈ is, ∀ t, args[i]? = some t → Castable t) :
    ∃ args', castLoop v is args = some args' ∧ args'.length = args.length ∧
      ∀ i t, args[i]? = some t → ∃ t', args'[i]? = some t' ∧ (i ∉ is → t' = t) ∧ (i ∈ is → Recast v t t' ∧ (HasVt t v → t' = t)) := by
  induction is generalizing args with
  | nil => exact ⟨args, rfl, rfl, fun i t h => ⟨t, h, fun _ => rfl, by simp⟩⟩
  | cons k is ih =>
    obtain ⟨hk, hnd⟩ := List.nodup_cons.mp hnd
    have hkl := hin k List.mem_cons_self
    have hget : args[k]? = some args[k] := List.getElem?_eq_getElem hkl
    have hcast := hc k List.mem_cons_self _ hget
    obtain ⟨w, hw⟩ := hasVt_exists _ hcast
    by_cases hwv : w = v
    · subst hwv
      obtain ⟨args', h1, h2, h3⟩ := ih args hnd (fun i hi => hin i (List.mem_cons_of_mem _ hi)) (fun i hi => hc i (List.mem_cons_of_mem _ hi))
      refine ⟨args', by simp only [castLoop, hget, hw, Option.bind_some, ne_eq, not_true, if_false]; exact h1, h2, ?_⟩
      intro i t ht
      obtain ⟨t', h4, h5, h6⟩ := h3 i t ht
      refine ⟨t', h4, fun h => h5 fun hi => h (List.mem_cons_of_mem _ hi), fun hi => ?_⟩
      by_cases hik : i = k
      · subst hik
        have e := h5 hk
        subst e
        rw [hget] at ht
        obtain rfl := Option.some.inj ht
        exact ⟨(getVt_castable _ hcast _).mp hw, fun _ => rfl⟩
      · exact h6 ((List.mem_cons.mp hi).resolve_left hik)
    · obtain ⟨tk, htk, hrec⟩ := setVt_castable _ hcast v
      obtain ⟨args', h1, h2, h3⟩ := ih (args.set k tk) hnd (fun i hi => by simpa using hin i (List.mem_cons_of_mem _ hi))
        (fun i hi t ht => by
          have hik : k ≠ i := fun e => hk (e ▸ hi)
          rw [List.getElem?_set_ne hik] at ht
          exact hc i (List.mem_cons_of_mem _ hi) t ht)
      refine ⟨args', by simp only [castLoop, hget, hw, Option.bind_some, ne_eq, hwv, not_false_eq_true, if_true, htk]; exact h1, by simpa using h2, ?_⟩
      intro i t ht
      by_cases hik : i = k
      · subst hik
        obtain ⟨t', h4, h5, -⟩ := h3 i tk (by rw [List.getElem?_set_self hkl])
        rw [h5 hk] at h4
        rw [hget] at ht
        obtain rfl := Option.some.inj ht
        refine ⟨tk, h4, fun h => absurd List.mem_cons_self h, fun _ => ⟨hrec, fun hv => ?_⟩⟩
        rw [(getVt_castable _ hcast _).mpr hv] at hw
        exact absurd (Option.some.inj hw).symm hwv
      · obtain ⟨t', h4, h5, h6⟩ := h3 i t (by rw [List.getElem?_set_ne (Ne.symm hik)]; exact ht)
        exact ⟨t', h4, fun h => h5 fun hi => h (List.mem_cons_of_mem _ hi), fun hi => h6 ((List.mem_cons.mp hi).resolve_left hik)⟩

theorem generality_order (v w : Vt) : generality v ≤ generality w ↔ byGenerality.idxOf v ≤ byGenerality.idxOf w := by
  cases v <;> cases w <;> decide

theorem mostGeneral_ok (v : Vt) (vs : List Vt) : ∃ w, mostGeneral (v :: vs) = some w ∧ w ∈ v :: vs ∧ ∀ u ∈ v :: vs, generality u ≤ generality w := by
  unfold mostGeneral
  induction vs generalizing v with
  | nil => exact ⟨v, rfl, by simp, by simp⟩
  | cons x xs ih =>
    simp only [List.foldl_cons]
    obtain ⟨w, h1, h2, h3⟩ := ih (if generality x > generality v then x else v)
    refine ⟨w, h1, ?_, ?_⟩
    · rcases List.mem_cons.mp h2 with h | h
      · rw [h]; split <;> simp
      · simp [h]
    · intro u hu
      have hacc := h3 _ List.mem_cons_self
      rcases List.mem_cons.mp hu with rfl | hu
      · split at hacc <;> omega
      · rcases List.mem_cons.mp hu with rfl | hu
        · split at hacc <;> omega
        · exact h3 u (List.mem_cons_of_mem _ hu)

theorem castable_noframe (args : List Ty) (h : ∀ t ∈ args, Castable t) : args.any isFrame = false := by
  rw [List.any_eq_false]
  intro t ht
  have := h t ht
  cases t <;> simp_all [Castable, isFrame]

theorem mapM_getVt (args : List Ty) (h : ∀ t ∈ args, Castable t) : ∃ vs, args.mapM getVt = some vs ∧ List.Forall₂ HasVt args vs := by
  induction args with
  | nil => exact ⟨[], rfl, .nil⟩
  | cons t ts ih =>
    obtain ⟨vs, h1, h2⟩ := ih fun t ht => h t (List.mem_cons_of_mem _ ht)
    obtain ⟨v, hv⟩ := hasVt_exists t (h t List.mem_cons_self)
    exact ⟨v :: vs, by simp [List.mapM_cons, hv, h1], .cons ((getVt_castable t (h t List.mem_cons_self) v).mp hv) h2⟩

theorem hasVt_unique {t : Ty} {v w : Vt} (h : HasVt t v) (h' : HasVt t w) : v = w := by
  cases h <;> cases h' <;> rfl

/-- The value type the operands concerned get: the most general one of the operands, or that of the first result. -/
def Target (tr : Trait) (args : List Ty) (res : Ty) (v : Vt) : Prop :=
  if tr = .mostGeneral then (∃ t ∈ args, HasVt t v) ∧ ∀ t ∈ args, ∀ w, HasVt t w → byGenerality.idxOf w ≤ byGenerality.idxOf v
  else HasVt res v

/-- **C323.** For every operation on scalars, matrices and columns: casts are inserted exactly for the operands its trait concerns which have another value type than the target — the
most general value type of the operands, or that of the result — so that afterwards all of those have the target value type; a cast keeps shape, sparsity, representation and
symmetry, and the other operands stay. A second run changes nothing. -/
theorem C323_adapted_operands (tr : Trait) (args : List Ty) (res : Ty) (ha : ∀ t ∈ args, Castable t) (hne : args ≠ []) (hres : Castable res)
    (hlen : ∀ i, Concerned tr i → tr ≠ .mostGeneral → tr ≠ .argsToRes → i < args.length) :
    ∃ v args', Target tr args res v ∧ adapt tr args [res] = some args' ∧ args'.length = args.length ∧
      (∀ i t, args[i]? = some t → ∃ t', args'[i]? = some t' ∧ (¬ Concerned tr i → t' = t) ∧ (Concerned tr i → Recast v t t' ∧ (HasVt t v → t' = t))) ∧
      adapt tr args' [res] = some args' := by
  have hnf := castable_noframe args ha
  have hrf : isFrame res = false := by cases res <;> simp_all [Castable, isFrame]
  obtain ⟨rv, hrv⟩ := hasVt_exists res hres
  have hrvt := (getVt_castable res hres rv).mp hrv
  -- the plan
  have plan : ∀ (as : List Ty), as.length = args.length → (∀ t ∈ as, Castable t) →
      ∃ v is, Target tr as res v ∧ adaptPlan tr as [res] = some (is, v) ∧ is.Nodup ∧ (∀ i ∈ is, i < as.length) ∧ ∀ i, i < as.length → (i ∈ is ↔ Concerned tr i) := by
    intro as hlen' has
    have hnf' := castable_noframe as has
    have hne' : as ≠ [] := by
      intro e
      rw [e] at hlen'
      exact hne (List.length_eq_zero_iff.mp hlen'.symm)
    by_cases htr : tr = .mostGeneral
    · subst htr
      obtain ⟨vs, h1, h2⟩ := mapM_getVt as has
      cases as with
      | nil => exact absurd rfl hne'
      | cons a as =>
        cases h2 with
        | cons hv h2 =>
          rename_i v vs
          obtain ⟨w, h3, h4, h5⟩ := mostGeneral_ok v vs
          refine ⟨w, List.range (a :: as).length, ?_, ?_, List.nodup_range, fun i hi => List.mem_range.mp hi, fun i hi => ?_⟩
          · rw [Target, if_pos rfl]
            have hall : List.Forall₂ HasVt (a :: as) (v :: vs) := .cons hv h2
            constructor
            · have : ∀ (xs : List Ty) (ys : List Vt), List.Forall₂ HasVt xs ys → ∀ y ∈ ys, ∃ x ∈ xs, HasVt x y := by
                intro xs ys hf
                induction hf with
                | nil => simp
                | cons hd _ ih =>
                  intro y hy
                  rcases List.mem_cons.mp hy with rfl | hy
                  · exact ⟨_, List.mem_cons_self, hd⟩
                  · obtain ⟨x, hx, hxy⟩ := ih y hy
                    exact ⟨x, List.mem_cons_of_mem _ hx, hxy⟩
              exact this _ _ hall w h4
            · intro t ht u hu
              have : ∀ (xs : List Ty) (ys : List Vt), List.Forall₂ HasVt xs ys → ∀ x ∈ xs, ∃ y ∈ ys, HasVt x y := by
                intro xs ys hf
                induction hf with
                | nil => simp
                | cons hd _ ih =>
                  intro y hy
                  rcases List.mem_cons.mp hy with rfl | hy
                  · exact ⟨_, List.mem_cons_self, hd⟩
                  · obtain ⟨x, hx, hxy⟩ := ih y hy
                    exact ⟨x, List.mem_cons_of_mem _ hx, hxy⟩
              obtain ⟨y, hy, hty⟩ := this _ _ hall t ht
              rw [hasVt_unique hu hty]
              exact (generality_order _ _).mp (h5 y hy)
          · simp only [adaptPlan, hnf', Bool.false_eq_true, if_false, h1, Option.bind_some, h3, Option.map_some]
          · simp only [List.mem_range, Concerned, iff_true]
            exact hi
    · refine ⟨rv, ?_⟩
      have htar : Target tr as res rv := by rw [Target, if_neg htr]; exact hrvt
      cases tr with
      | mostGeneral => exact absurd rfl htr
      | argsToRes =>
        refine ⟨List.range as.length, htar, ?_, List.nodup_range, fun i hi => List.mem_range.mp hi, fun i hi => by simpa [Concerned] using hi⟩
        simp [adaptPlan, hnf', hrf, hrv]
      | firstToRes =>
        refine ⟨[0], htar, by simp [adaptPlan, hnf', hrf, hrv], by simp, ?_, fun i _ => by simp [Concerned]⟩
        intro i hi
        rw [hlen']
        exact hlen i (by simpa [Concerned] using hi) (by simp) (by simp)
      | firstTwoToRes =>
        refine ⟨[0, 1], htar, by simp [adaptPlan, hnf', hrf, hrv], by simp, ?_, fun i _ => by simp [Concerned]⟩
        intro i hi
        rw [hlen']
        exact hlen i (by simpa [Concerned] using hi) (by simp) (by simp)
      | randMatrix =>
        refine ⟨[2, 3], htar, by simp [adaptPlan, hnf', hrf, hrv], by simp, ?_, fun i _ => by simp [Concerned]⟩
        intro i hi
        rw [hlen']
        exact hlen i (by simpa [Concerned] using hi) (by simp) (by simp)
      | nothing =>
        exact ⟨[], htar, by simp [adaptPlan, hnf', hrf, hrv], by simp, by simp, fun i _ => by simp [Concerned]⟩
  obtain ⟨v, is, h1, h2, h3, h4, h5⟩ := plan args rfl ha
  obtain ⟨args', h6, h7, h8⟩ := castLoop_ok v is args h3 h4 (fun i hi t ht => ha t (List.mem_of_getElem? ht))
  have hpt : ∀ i t, args[i]? = some t → ∃ t', args'[i]? = some t' ∧ (¬ Concerned tr i → t' = t) ∧ (Concerned tr i → Recast v t t' ∧ (HasVt t v → t' = t)) := by
    intro i t ht
    have hi := (List.getElem?_eq_some_iff.mp ht).1
    obtain ⟨t', a, b, c⟩ := h8 i t ht
    exact ⟨t', a, fun h => b (fun h' => h ((h5 i hi).mp h')), fun h => c ((h5 i hi).mpr h)⟩
  refine ⟨v, args', h1, by simp only [adapt, h2, Option.bind_some, h6], h7, hpt, ?_⟩
  -- the second run
  have hrec : ∀ i t', args'[i]? = some t' → ∃ t, args[i]? = some t ∧ (¬ Concerned tr i → t' = t) ∧ (Concerned tr i → Recast v t t' ∧ (HasVt t v → t' = t)) := by
    intro i t' ht'
    have hi : i < args.length := by rw [← h7]; exact (List.getElem?_eq_some_iff.mp ht').1
    obtain ⟨t'', a, b, c⟩ := hpt i args[i] (List.getElem?_eq_getElem hi)
    rw [a] at ht'
    obtain rfl := Option.some.inj ht'
    exact ⟨args[i], List.getElem?_eq_getElem hi, b, c⟩
  have hvk : v ≠ .unknown := by
    have : ∀ t, Castable t → HasVt t v → v ≠ .unknown := by
      intro t hc hv
      cases hv <;> exact hc
    by_cases htr : tr = .mostGeneral
    · rw [Target, if_pos htr] at h1
      obtain ⟨⟨t, ht, hv⟩, -⟩ := h1
      exact this t (ha t ht) hv
    · rw [Target, if_neg htr] at h1
      exact this res hres h1
  by_cases hcast' : ∀ t ∈ args', Castable t
  · obtain ⟨v2, is2, g1, g2, g3, g4, g5⟩ := plan args' h7 hcast'
    have hvv : v2 = v := by
      by_cases htr : tr = .mostGeneral
      · subst htr
        rw [Target, if_pos rfl] at g1
        obtain ⟨⟨t', ht', hv2⟩, -⟩ := g1
        obtain ⟨i, hi⟩ := List.getElem?_of_mem ht'
        obtain ⟨t, -, -, hc⟩ := hrec i t' hi
        have hr := (hc trivial).1
        have : HasVt t' v := by cases hr <;> constructor
        exact hasVt_unique hv2 this
      · rw [Target, if_neg htr] at g1 h1
        exact hasVt_unique g1 h1
    subst hvv
    obtain ⟨args'', g6, g7, g8⟩ := castLoop_ok v2 is2 args' g3 g4 (fun i hi t ht => hcast' t (List.mem_of_getElem? ht))
    simp only [adapt, g2, Option.bind_some, g6, Option.some.injEq]
    apply List.ext_getElem? 
    intro i
    cases hi : args'[i]? with
    | none =>
      rw [List.getElem?_eq_none_iff] at hi ⊢
      omega
    | some t' =>
      obtain ⟨t'', a, b, c⟩ := g8 i t' hi
      rw [a]
      congr 1
      by_cases hin : i ∈ is2
      · apply (c hin).2
        obtain ⟨t, -, -, hc⟩ := hrec i t' hi
        have hilt : i < args'.length := (List.getElem?_eq_some_iff.mp hi).1
        have hr := (hc ((g5 i hilt).mp hin)).1
        cases hr <;> constructor
      · exact b hin
  · exfalso
    apply hcast'
    intro t' ht'
    obtain ⟨i, hi⟩ := List.getElem?_of_mem ht'
    obtain ⟨t, ht, hb, hc⟩ := hrec i t' hi
    have hct := ha t (List.mem_of_getElem? ht)
    by_cases hcon : Concerned tr i
    · have hr := (hc hcon).1
      cases hr <;> exact hvk
    · rw [hb hcon]; exact hct

/-- **C324.** Changing the value type of a list yields a matrix: wherever the pass casts a list operand, the operand becomes a matrix. So the claim "a cast changes nothing
but the value type" fails for lists. -/
theorem C324_list_operand_partial (v w : Vt) (h : w ≠ v) (r c : Option Nat) (sp : Option ℚ) (rep : Rep) (sym : Option Bool) (res : Ty) (hres : HasVt res v) (hc : Castable res) :
    adapt .firstToRes [.list (.matrix w r c sp rep sym)] [res] = some [.matrix v r c sp rep sym] := by
  have hrv := (getVt_castable res hc v).mpr hres
  have hrf : isFrame res = false := by cases res <;> simp_all [Castable, isFrame]
  have hlf : isFrame (.list (.matrix w r c sp rep sym)) = false := rfl
  simp [adapt, adaptPlan, hlf, hrf, hrv, castLoop, getVt, setVt, h]

/-! ### Examples -/

example : adapt .mostGeneral [.matrix .si64 (some 2) (some 3) none .sparse none, .sca .f64] [.sca .i1] = some [.matrix .f64 (some 2) (some 3) none .sparse none, .sca .f64] := rfl

example : ∀ t ∈ [Ty.matrix .si64 (some 2) (some 3) none .sparse none, .sca .f64], Castable t := by simp [Castable]

example : LocAt [(['a'], some ⟨"f", 1, 1⟩), (['b'], none)] 1 ⟨"f", 1, 1⟩ := by
  refine ⟨0, by decide, ⟨_, rfl⟩, ?_⟩
  intro j' y h1 h2 h3
  obtain rfl : j' = 1 := by omega
  cases h3
  rfl

end Verif.Disp
