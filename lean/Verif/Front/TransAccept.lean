/-
  Which scripts the parser accepts, as far as variables are concerned.
-/
import Verif.Front.TransMain

namespace Verif.Front
open Verif

/-! ### Specification: a scope check without SSA values

A scope says of each existing variable whether it is read-only (the variable of an enclosing for-loop). -/

section
variable {ν F : Type} [DecidableEq ν]

mutual
/-- All variables read exist. -/
def Expr.reads (D : Vars ν Bool) : Expr ν F → Bool
  | .var n => (D n).isSome
  | .app _ as => as.reads D
def Args.reads (D : Vars ν Bool) : Args ν F → Bool
  | .nil => true
  | .cons e as => e.reads D && as.reads D
end

/-- Assigning creates a variable or changes an existing one that is not read-only. -/
def declare (D : Vars ν Bool) (x : ν) : Option (Vars ν Bool) :=
  if D x = some true then none else some (D.set x false)

def declareAll (D : Vars ν Bool) : List ν → Option (Vars ν Bool)
  | [] => some D
  | x :: xs => (declare D x).bind fun D => declareAll D xs

/-- The scope after the statement, or `none` if it reads a variable that does not exist or assigns a read-only one. -/
def Stmt.check : Stmt ν F → Vars ν Bool → Option (Vars ν Bool)
  | .skip, D => some D
  | .seq s t, D => (s.check D).bind t.check
  | .expr e, D => if e.reads D then some D else none
  | .assign x e, D => if e.reads D then declare D x else none
  | .assigns xs _ as, D => if as.reads D then declareAll D xs else none
  | .block s, D => (s.check D).bind fun D1 => some (leave D D1)
  | .ifThen c t, D => if c.reads D then (t.check D).bind fun D1 => some (leave D D1) else none
  | .ifElse c t e, D =>
    if c.reads D then (t.check D).bind fun D1 => (e.check D).bind fun D2 =>
      some (leave D fun n => if D1 n = some false ∨ D2 n = some false then some false else D n)
    else none
  | .while c s, D => if c.reads D then (s.check D).bind fun D1 => some (leave D D1) else none
  | .doWhile s c, D => (s.check D).bind fun D1 => if c.reads (leave D D1) then some (leave D D1) else none
  | .for x lo hi s, D =>
    if lo.reads D && hi.reads D then (s.check (D.set x true)).bind fun D1 => some (leave D (D1.set x false)) else none
  | .forStep x lo hi st s, D =>
    if lo.reads D && (hi.reads D && st.reads D) then (s.check (D.set x true)).bind fun D1 => some (leave D (D1.set x false)) else none

/-- The script reads variables only where they exist and never assigns a loop variable. -/
def Stmt.WellScoped (s : Stmt ν F) : Prop := ∃ D, s.check (fun _ => none) = some D

/-! ### Proof -/

/-- The scope a symbol table stands for. -/
def ro (s : Syms ν) : Vars ν Bool := fun n => (s.look n).map Info.readOnly

theorem ro_isSome (s : Syms ν) (n : ν) : (ro s n).isSome = (s.look n).isSome := by simp [ro]

/-- The outcome of the translation matches the outcome of a check. -/
def Agree {α β : Type} (P : α → β → Prop) (r : Res α) (o : Option β) : Prop :=
  match o with
  | none => ∃ m, r = .error (.throw m)
  | some b => ∃ a, r = .ok a ∧ P a b

theorem Agree.bind {α β γ δ : Type} {P : α → β → Prop} {Q : γ → δ → Prop} {r : Res α} {o : Option β} {f : α → Res γ} {g : β → Option δ}
    (h : Agree P r o) (hf : ∀ a b, r = .ok a → o = some b → P a b → Agree Q (f a) (g b)) : Agree Q (r >>= f) (o.bind g) := by
  cases o with
  | none => obtain ⟨m, rfl⟩ := h; exact ⟨m, rfl⟩
  | some b => obtain ⟨a, rfl, hp⟩ := h; exact hf a b rfl rfl hp

theorem Agree.bind_ok {α β γ δ : Type} {P : α → β → Prop} {Q : γ → δ → Prop} {r : Res α} {o : Option β} {f : α → Res γ} {g : β → δ}
    (h : Agree P r o) (hf : ∀ a b, r = .ok a → P a b → ∃ c, f a = .ok c ∧ Q c (g b)) : Agree Q (r >>= f) (o.bind fun b => some (g b)) :=
  h.bind fun a b ha _ hp => hf a b ha hp

theorem Agree.ite {α β γ : Type} {Q : α → β → Prop} {r : Res γ} {b : Bool} {f : γ → Res α} {o : Option β}
    (h : if b = true then ∃ a, r = .ok a else ∃ m, r = .error (.throw m))
    (hf : ∀ a, b = true → r = .ok a → Agree Q (f a) o) : Agree Q (r >>= f) (if b = true then o else none) := by
  cases b with
  | false => simp only [Bool.false_eq_true, if_false] at h ⊢; obtain ⟨m, rfl⟩ := h; exact ⟨m, rfl⟩
  | true => simp only [if_true] at h ⊢; obtain ⟨a, rfl⟩ := h; exact hf a rfl rfl

mutual
theorem transE_reads (e : Expr ν F) (nx : Nat) (s : Syms ν) :
    if e.reads (ro s) = true then ∃ r, transE e nx s = .ok r else ∃ m, transE e nx s = .error (.throw m) := by
  match e with
  | .var n =>
    simp only [Expr.reads, ro_isSome, transE, Scopes.get_eq]
    cases s.look n with
    | none => exact ⟨_, rfl⟩
    | some i => exact ⟨_, rfl⟩
  | .app f as =>
    have := transA_reads as nx s
    have hx : Expr.reads (ro s) (.app f as) = as.reads (ro s) := by rw [Expr.reads]
    by_cases h : as.reads (ro s) = true
    · rw [if_pos h] at this
      rw [if_pos (hx.trans h)]
      obtain ⟨r, hr⟩ := this
      simp only [transE, hr]
      exact ⟨_, rfl⟩
    · rw [if_neg h] at this
      rw [if_neg (by rw [hx]; exact h)]
      obtain ⟨m, hr⟩ := this
      simp only [transE, hr]
      exact ⟨_, rfl⟩
theorem transA_reads (as : Args ν F) (nx : Nat) (s : Syms ν) :
    if as.reads (ro s) = true then ∃ r, transA as nx s = .ok r else ∃ m, transA as nx s = .error (.throw m) := by
  match as with
  | .nil => simp [Args.reads, transA]
  | .cons e as =>
    have h1 := transE_reads e nx s
    have hx : Args.reads (ro s) (.cons e as) = (e.reads (ro s) && as.reads (ro s)) := by rw [Args.reads]
    by_cases he : e.reads (ro s) = true
    · rw [if_pos he] at h1
      obtain ⟨r, hr⟩ := h1
      have h2 := transA_reads as r.2.2 s
      by_cases ha : as.reads (ro s) = true
      · rw [if_pos ha] at h2
        obtain ⟨r2, hr2⟩ := h2
        rw [if_pos (by rw [hx, he, ha]; rfl)]
        simp only [transA, hr, Res.ok_bind, hr2]
        exact ⟨_, rfl⟩
      · rw [if_neg ha] at h2
        obtain ⟨m, hr2⟩ := h2
        rw [if_neg (by rw [hx, he]; exact ha)]
        simp only [transA, hr, Res.ok_bind, hr2]
        exact ⟨m, rfl⟩
    · rw [if_neg he] at h1
      obtain ⟨m, hr⟩ := h1
      rw [if_neg (by rw [hx]; simp [he])]
      simp only [transA, hr]
      exact ⟨m, rfl⟩
end

/-- Read-only entries are put into a scope only when it is opened. -/
def Top (s s' : Syms ν) : Prop :=
  (∀ n i, Tab.find (s'.headD []) n = some i → i.readOnly = true → ∃ j, Tab.find (s.headD []) n = some j ∧ j.readOnly = true) ∧
  ∀ n, (Tab.find (s.headD []) n).isSome → (Tab.find (s'.headD []) n).isSome

theorem Top.refl (s : Syms ν) : Top s s := ⟨fun _ i h hr => ⟨i, h, hr⟩, fun _ h => h⟩

theorem Top.trans {s s' s'' : Syms ν} (h : Top s s') (h' : Top s' s'') : Top s s'' :=
  ⟨fun n i hi hr => by
    obtain ⟨j, hj, hr'⟩ := h'.1 n i hi hr
    exact h.1 n j hj hr', fun n hn => h'.2 n (h.2 n hn)⟩

theorem putTab_top {s s' : Syms ν} {t : Tab ν Nat} (hne : s ≠ []) (hu : t.Uniq) (hf : ∀ n i, t.find n = some i → i.readOnly = true → False)
    (h : s.putTab t = .ok s') : Top s s' ∧ ∀ n, s'.look n = (t.find n).orElse fun _ => s.look n := by
  obtain ⟨u, s0, rfl⟩ : ∃ t s0, s = t :: s0 := by
    cases s with
    | nil => exact absurd rfl hne
    | cons t s0 => exact ⟨t, s0, rfl⟩
  rw [putTab_eq] at h
  cases h
  refine ⟨⟨fun n i hi hr => ?_, fun n hn => ?_⟩, look_putTab hu⟩
  rotate_left
  · simp only [List.headD_cons] at hn ⊢
    rw [find_foldl _ _ hu]
    cases t.find n with
    | some i => rfl
    | none => exact hn
  simp only [List.headD_cons] at hi ⊢
  rw [find_foldl _ _ hu] at hi
  cases ht : t.find n with
  | some j =>
    rw [ht] at hi
    simp at hi; subst hi
    exact (hf n _ ht hr).elim
  | none =>
    rw [ht] at hi
    simp at hi
    exact ⟨i, hi, hr⟩

/-- Binding results to names makes these names assignable. -/
theorem putVals_ro {s : Syms ν} {nx a : Nat} {ns : List ν} (hi : Inv s nx) (hn : ns.Nodup) (hns : ∀ n ∈ ns, (s.look n).isSome) (ha : nx ≤ a) :
    ∃ s', putVals s ns (news a ns.length) = .ok s' ∧ Top s s' ∧ ∀ n, ro s' n = if n ∈ ns then some false else ro s n := by
  obtain ⟨s', h, _⟩ := putVals_ok (Val := Unit) hi hn hns ha
  have hl : ns.length = (news a ns.length).length := (length_news _ _).symm
  obtain ⟨h1, h2⟩ := putTab_top (t := newTab ns (news a ns.length)) hi.ne (newTab_uniq hn)
    (fun n i hf hr => by have := ((find_newTab hn n i).1 hf).2; rw [hr] at this; cases this) h
  refine ⟨s', h, h1, fun n => ?_⟩
  rw [ro, h2]
  split
  next hm =>
    cases hf : (newTab ns (news a ns.length)).find n with
    | none => exact absurd hm ((find_newTab_none hl n).1 hf)
    | some i => simp [((find_newTab hn n i).1 hf).2]
  next hm =>
    rw [(find_newTab_none hl n).2 hm]
    rfl

/-- What `popScope` returns: the entries of the top scope for names that exist outside. -/
theorem pop_find {s s1 : Syms ν} {nx : Nat} (hi : Inv s1 nx) (ht : s1.drop 1 = s) :
    ∃ ow, s1.pop = .ok (ow, s) ∧ Ow s s1 ow ∧ ∀ n, ow.find n = if (s.look n).isSome then Tab.find (s1.headD []) n else none := by
  cases s1 with
  | nil => exact absurd rfl hi.ne
  | cons t s2 =>
    simp only [List.drop_succ_cons, List.drop_zero] at ht
    subst ht
    obtain ⟨ow, h1, h2⟩ := pop_ok (s := s2) hi rfl
    refine ⟨ow, h1, h2, fun n => ?_⟩
    cases h1
    rw [Tab.find_filter (fun n => Scopes.hasFrom (t :: s2) n 1), Scopes.hasFrom_eq]
    rfl

theorem mem_map_fst {t : Tab ν Nat} {n : ν} : n ∈ t.map Prod.fst ↔ (t.find n).isSome := by
  constructor
  · intro h
    cases hf : t.find n with
    | some i => rfl
    | none =>
      exfalso
      simp only [Tab.find, List.lookup_eq_none_iff] at hf
      obtain ⟨e, he, rfl⟩ := List.mem_map.1 h
      have := hf e he
      simp at this
  · intro h
    obtain ⟨i, hi⟩ := Option.isSome_iff_exists.1 h
    exact List.mem_map.2 ⟨_, mem_of_find hi, rfl⟩

/-- The flags inside and outside of a scope opened empty. -/
theorem ow_ro {s s1 : Syms ν} {ow : Tab ν Nat} (ho : Ow s s1 ow) (hf : ∀ n, ow.find n = if (s.look n).isSome then Tab.find (s1.headD []) n else none)
    (ht : Top s.push s1) (n : ν) (hn : (s.look n).isSome) :
    (n ∈ ow.map Prod.fst → ro s1 n = some false) ∧ (n ∉ ow.map Prod.fst → ro s1 n = ro s n) := by
  have hl := ho.look n hn
  refine ⟨fun hm => ?_, fun hm => ?_⟩
  · obtain ⟨i, hi⟩ := Option.isSome_iff_exists.1 (mem_map_fst.1 hm)
    rw [ro, hl, hi]
    simp only [Option.orElse, Option.map_some, Option.some.injEq]
    cases hr : i.readOnly with
    | false => rfl
    | true =>
      rw [hf, if_pos hn] at hi
      obtain ⟨j, hj, _⟩ := ht.1 n i hi hr
      simp [Scopes.push, Tab.find] at hj
  · rw [ro, hl]
    cases hx : ow.find n with
    | some i => exact absurd (mem_map_fst.2 (by rw [hx]; rfl)) hm
    | none => rfl

/-- The same for the scope of a for-loop over `x`. -/
theorem ow_ro_for {s s1 : Syms ν} {x : ν} {p : Nat} {ow : Tab ν Nat} (ho : Ow s s1 ow)
    (hf : ∀ n, ow.find n = if (s.look n).isSome then Tab.find (s1.headD []) n else none)
    (ht : Top ([(x, ⟨p, true⟩)] :: s) s1) (n : ν) (hnx : n ≠ x) (hn : (s.look n).isSome) :
    (n ∈ ow.map Prod.fst → ro s1 n = some false) ∧ (n ∉ ow.map Prod.fst → ro s1 n = ro s n) := by
  have hl := ho.look n hn
  refine ⟨fun hm => ?_, fun hm => ?_⟩
  · obtain ⟨i, hi⟩ := Option.isSome_iff_exists.1 (mem_map_fst.1 hm)
    rw [ro, hl, hi]
    simp only [Option.orElse, Option.map_some, Option.some.injEq]
    cases hr : i.readOnly with
    | false => rfl
    | true =>
      rw [hf, if_pos hn] at hi
      obtain ⟨j, hj, _⟩ := ht.1 n i hi hr
      simp [Tab.find, List.lookup, show (n == x) = false by simpa using hnx] at hj
  · rw [ro, hl]
    cases hx : ow.find n with
    | some i => exact absurd (mem_map_fst.2 (by rw [hx]; rfl)) hm
    | none => rfl

/-- What a statement leaves behind. -/
def SAgree (s : Syms ν) (r : Code F × Nat × Syms ν) (D : Vars ν Bool) : Prop := ro r.2.2 = D ∧ Top s r.2.2

theorem look_none_of {s : Syms ν} {n : ν} (h : ¬ (s.look n).isSome = true) : s.look n = none := by
  cases hx : s.look n with
  | none => rfl
  | some i => rw [hx] at h; exact absurd rfl h

theorem assignPart_check (x : ν) (v nx : Nat) (s : Syms ν) (hne : s ≠ []) :
    Agree (SAgree (F := F) s) (assignPart x v nx s) (declare (ro s) x) := by
  obtain ⟨t, s0, rfl⟩ : ∃ t s0, s = t :: s0 := by
    cases s with
    | nil => exact absurd rfl hne
    | cons t s0 => exact ⟨t, s0, rfl⟩
  have put : ∀ i : Info Nat, i.readOnly = false → SAgree (F := F) (t :: s0) (Code.done, 0, t.assign x i :: s0) ((ro (t :: s0)).set x false) := by
    intro i hi
    refine ⟨?_, ?_⟩
    · funext n
      simp only [ro, look_put, Vars.set]
      by_cases e : x = n
      · subst e; simp [hi]
      · simp [e, Ne.symm e]
    · refine ⟨fun n j hj hr => ?_, fun n hn => ?_⟩
      · simp only [List.headD_cons] at hj ⊢
        rw [Tab.find_assign] at hj
        split at hj
        · cases hj; rw [hi] at hr; cases hr
        · exact ⟨j, hj, hr⟩
      · simp only [List.headD_cons] at hn ⊢
        rw [Tab.find_assign]
        split
        · rfl
        · exact hn
  unfold assignPart declare
  simp only [Scopes.has, Scopes.hasFrom_eq, List.drop_zero, Scopes.get_eq]
  cases hl : Scopes.look (t :: s0) x with
  | none =>
    simp only [Option.isSome_none, Bool.false_eq_true, if_false]
    have : ro (t :: s0) x = none := by simp [ro, hl]
    rw [this, if_neg (by simp)]
    exact ⟨_, rfl, (put _ rfl).1, (put _ rfl).2⟩
  | some i =>
    have e : ro (t :: s0) x = some i.readOnly := by simp [ro, hl]
    simp only [Option.isSome_some, if_true, e]
    cases hr : i.readOnly with
    | true =>
      simp only [if_true]
      refine ⟨"trying to assign read-only variable", ?_⟩
      rw [Res.ok_bind, if_pos hr]
    | false =>
      simp only [Option.some.injEq, Bool.false_eq_true, if_false]
      have := put ⟨(renameIf (F := F) v nx (t :: s0)).2.1, false⟩ rfl
      refine ⟨((renameIf v nx (t :: s0)).1, (renameIf (F := F) v nx (t :: s0)).2.2, _), ?_, this.1, this.2⟩
      rw [Res.ok_bind, if_neg (by rw [hr]; simp)]
      rfl

theorem assignParts_check (xs : List ν) (vs : List Nat) (nx : Nat) (s : Syms ν) (hi : Inv s nx) (hv : ∀ v ∈ vs, v < nx) (hl : xs.length = vs.length) :
    Agree (SAgree (F := F) s) (assignParts xs vs nx s) (declareAll (ro s) xs) := by
  induction xs generalizing vs nx s with
  | nil =>
    cases vs with
    | cons => simp at hl
    | nil => exact ⟨_, rfl, rfl, Top.refl _⟩
  | cons x xs ih =>
    cases vs with
    | nil => simp at hl
    | cons v vs =>
      simp only [assignParts, declareAll]
      refine (assignPart_check x v nx s hi.ne).bind fun ⟨c, nx1, s1⟩ D h1 _ ⟨p1, p2⟩ => ?_
      dsimp only at p1 p2 ⊢
      subst p1
      have hp := assignPart_ok (S := (⟨fun _ _ w => ([], w), fun _ => true, fun z => z, fun z => z⟩ : Sem F Int Unit)) hi (hv v (by simp)) h1
      have l := hp.le
      have := ih vs nx1 s1 hp.inv (fun u hu => Nat.lt_of_lt_of_le (hv u (by simp [hu])) l) (by simpa using hl)
      rw [show declareAll (ro s1) xs = (declareAll (ro s1) xs).bind some by cases declareAll (ro s1) xs <;> rfl]
      refine this.bind fun ⟨d, nx2, s2⟩ D2 _ _ ⟨q1, q2⟩ => ?_
      exact ⟨_, rfl, q1, p2.trans q2⟩

end

section
variable {ν F : Type} [DecidableEq ν]

/-- Some meaning for the operations; the outcome of the translation does not depend on it. -/
def sem0 (F : Type) : Sem F Int Unit := ⟨fun _ _ w => ([], w), fun _ => true, fun z => z, fun z => z⟩

theorem sem0_lawful : (sem0 F).Lawful := fun _ _ => rfl

theorem leave_eq {s s1 : Syms ν} {ow : Tab ν Nat} {s' : Syms ν} (h : ∀ n, ro s' n = if n ∈ ow.map Prod.fst then some false else ro s n)
    (hd : ∀ n ∈ ow.map Prod.fst, (s.look n).isSome) (hro : ∀ n, (s.look n).isSome → (n ∈ ow.map Prod.fst → ro s1 n = some false) ∧ (n ∉ ow.map Prod.fst → ro s1 n = ro s n)) :
    ro s' = leave (ro s) (ro s1) := by
  funext n
  rw [h n, leave, ro_isSome]
  by_cases hn : (s.look n).isSome = true
  · rw [if_pos hn]
    split
    · next hm => exact ((hro n hn).1 hm).symm
    · next hm => exact ((hro n hn).2 hm).symm
  · rw [if_neg hn, if_neg fun hm => hn (hd n hm), ro, look_none_of hn]; rfl

theorem leave_eq_for {s s1 : Syms ν} {x : ν} {ow : Tab ν Nat} {s' : Syms ν} (h : ∀ n, ro s' n = if n ∈ ow.map Prod.fst then some false else ro s n)
    (hd : ∀ n ∈ ow.map Prod.fst, (s.look n).isSome)
    (hro : ∀ n, n ≠ x → (s.look n).isSome → (n ∈ ow.map Prod.fst → ro s1 n = some false) ∧ (n ∉ ow.map Prod.fst → ro s1 n = ro s n))
    (hx : (s.look x).isSome → x ∈ ow.map Prod.fst) :
    ro s' = leave (ro s) ((ro s1).set x false) := by
  funext n
  rw [h n, leave, ro_isSome]
  by_cases hn : (s.look n).isSome = true
  · rw [if_pos hn]
    by_cases e : n = x
    · subst e
      rw [if_pos (hx hn)]; simp [Vars.set]
    · simp only [Vars.set, if_neg e]
      split
      · next hm => exact ((hro n e hn).1 hm).symm
      · next hm => exact ((hro n e hn).2 hm).symm
  · rw [if_neg hn, if_neg fun hm => hn (hd n hm), ro, look_none_of hn]; rfl

theorem for_top {x : ν} {s s1 : Syms ν} (hx : (Tab.find (s1.headD []) x).isSome) {ow : Tab ν Nat}
    (hf : ∀ n, ow.find n = if (s.look n).isSome then Tab.find (s1.headD []) n else none) (hn : (s.look x).isSome) : x ∈ ow.map Prod.fst := by
  rw [mem_map_fst, hf, if_pos hn]; exact hx

theorem reads_and {e f : Expr ν F} {nx : Nat} {s : Syms ν} {α : Type} {β : Type} {Q : α → β → Prop} {o : Option β}
    {g : Code F × Nat × Nat → Code F × Nat × Nat → Res α}
    (h : ∀ a b, transE e nx s = .ok a → transE f a.2.2 s = .ok b → Agree Q (g a b) o) :
    Agree Q (transE e nx s >>= fun a => transE f a.2.2 s >>= fun b => g a b) (if (e.reads (ro s) && f.reads (ro s)) = true then o else none) := by
  have : (if (e.reads (ro s) && f.reads (ro s)) = true then o else none) =
      if e.reads (ro s) = true then (if f.reads (ro s) = true then o else none) else none := by
    cases e.reads (ro s) <;> cases f.reads (ro s) <;> rfl
  rw [this]
  refine Agree.ite (transE_reads e nx s) fun a _ ha => ?_
  exact Agree.ite (transE_reads f _ s) fun b _ hb => h a b ha hb

theorem ro_push (s : Syms ν) : ro s.push = ro s := by funext n; simp only [ro, look_push]

theorem ro_for (s : Syms ν) (x : ν) (p : Nat) : ro ([(x, ⟨p, true⟩)] :: s) = (ro s).set x true := by
  funext n
  simp only [ro, Scopes.look, Tab.find, List.lookup, Vars.set]
  by_cases e : n = x
  · subst e; simp
  · simp [e, show (n == x) = false by simpa using e]

/-- The end of an if-statement without else-branch. -/
theorem finishIf_check {s : Syms ν} {nx nx0 v : Nat} {tc ec : Code F} {owT owE : Tab ν Nat} (hi : Inv s nx0) (hle : nx0 ≤ nx)
    (uT : owT.Uniq) (uE : owE.Uniq) (dT : ∀ n ∈ owT.map Prod.fst, (s.look n).isSome) (dE : ∀ n ∈ owE.map Prod.fst, (s.look n).isSome) :
    ∃ c nx' s', finishIf s v tc ec owT owE nx = .ok (c, nx', s') ∧ Top s s' ∧
      ∀ n, ro s' n = if n ∈ owT.map Prod.fst ∨ n ∈ owE.map Prod.fst then some false else ro s n := by
  have hns : ∀ n ∈ mergeSymbols owT owE, (s.look n).isSome := fun n hn => (mem_mergeSymbols.1 hn).elim (dT n) (dE n)
  obtain ⟨s', h1, h2, h3⟩ := putVals_ro hi (mergeSymbols_nodup uT uE) hns hle
  have e : ∃ c nx', finishIf s v tc ec owT owE nx = .ok (c, nx', s') := by
    simp only [finishIf, getValsWith_ok hns, h1]; exact ⟨_, _, rfl⟩
  obtain ⟨c, nx', e⟩ := e
  exact ⟨c, nx', s', e, h2, fun n => by rw [h3]; simp only [mem_mergeSymbols]⟩

theorem finishWhile_check {isDo : Bool} {s : Syms ν} {nx nx0 v : Nat} {bc ac : Code F} {ow : Tab ν Nat} (hi : Inv s nx0) (hle : nx0 ≤ nx)
    (u : ow.Uniq) (d : ∀ n ∈ ow.map Prod.fst, (s.look n).isSome) :
    ∃ c nx' s', finishWhile isDo s bc v ac ow nx = .ok (c, nx', s') ∧ Top s s' ∧
      ∀ n, ro s' n = if n ∈ ow.map Prod.fst then some false else ro s n := by
  obtain ⟨s', h1, h2, h3⟩ := putVals_ro (a := nx + 2 * ow.length) hi u d (by omega)
  rw [show (ow.map Prod.fst).length = ow.length by simp] at h1
  have e : ∃ c nx', finishWhile isDo s bc v ac ow nx = .ok (c, nx', s') := by
    simp only [finishWhile, getVals_ok d, h1]; exact ⟨_, _, rfl⟩
  obtain ⟨c, nx', e⟩ := e
  exact ⟨c, nx', s', e, h2, h3⟩

theorem finishFor_check {s : Syms ν} {nx nx0 lb ub st ph : Nat} {body : Code F} {ow : Tab ν Nat} (hi : Inv s nx0) (hle : nx0 ≤ nx)
    (u : ow.Uniq) (d : ∀ n ∈ ow.map Prod.fst, (s.look n).isSome) :
    ∃ c nx' s', finishFor s lb ub st ph body ow nx = .ok (c, nx', s') ∧ Top s s' ∧
      ∀ n, ro s' n = if n ∈ ow.map Prod.fst then some false else ro s n := by
  obtain ⟨s', h1, h2, h3⟩ := putVals_ro (a := nx + 1 + ow.length) hi u d (by omega)
  rw [show (ow.map Prod.fst).length = ow.length by simp] at h1
  have e : ∃ c nx', finishFor s lb ub st ph body ow nx = .ok (c, nx', s') := by
    simp only [finishFor, getVals_ok d, h1]; exact ⟨_, _, rfl⟩
  obtain ⟨c, nx', e⟩ := e
  exact ⟨c, nx', s', e, h2, h3⟩

/-- The statement visitor succeeds exactly on the statements that pass the check, and fails with an exception otherwise. -/
theorem transS_check (st : Stmt ν F) (nx : Nat) (s : Syms ν) (hi : Inv s nx) : Agree (SAgree (F := F) s) (transS st nx s) (st.check (ro s)) := by
  induction st generalizing nx s with
  | skip => exact ⟨_, rfl, rfl, Top.refl _⟩
  | seq a b iha ihb =>
    simp only [transS, Stmt.check]
    refine (iha nx s hi).bind fun ⟨c, nx1, s1⟩ D h1 _ ⟨p1, p2⟩ => ?_
    dsimp only at p1 p2 ⊢
    subst p1
    have hb := transS_ok sem0_lawful a nx s hi c nx1 s1 h1
    rw [show Stmt.check b (ro s1) = (Stmt.check b (ro s1)).bind some by cases Stmt.check b (ro s1) <;> rfl]
    refine (ihb nx1 s1 hb.inv).bind fun ⟨d, nx2, s2⟩ D2 _ _ ⟨q1, q2⟩ => ?_
    exact ⟨_, rfl, q1, p2.trans q2⟩
  | expr e =>
    simp only [transS, Stmt.check]
    exact Agree.ite (transE_reads e nx s) fun a _ _ => ⟨_, rfl, rfl, Top.refl _⟩
  | assign x e =>
    simp only [transS, Stmt.check]
    refine Agree.ite (transE_reads e nx s) fun ⟨c, v, nx1⟩ _ _ => ?_
    dsimp only
    rw [show declare (ro s) x = (declare (ro s) x).bind some by cases declare (ro s) x <;> rfl]
    refine (assignPart_check x v nx1 s hi.ne).bind fun ⟨d, nx2, s2⟩ D _ _ ⟨p1, p2⟩ => ?_
    exact ⟨_, rfl, p1, p2⟩
  | assigns xs f as =>
    simp only [transS, Stmt.check]
    refine Agree.ite (transA_reads as nx s) fun ⟨c, vs, nx1⟩ _ h1 => ?_
    dsimp only
    have ha := transA_ok (S := sem0 F) as nx s hi c vs nx1 h1
    rw [show declareAll (ro s) xs = (declareAll (ro s) xs).bind some by cases declareAll (ro s) xs <;> rfl]
    have hl := ha.le
    refine (assignParts_check xs _ _ s (hi.mono (show nx ≤ nx1 + xs.length by omega)) (fun v hv => (mem_news.1 hv).2) (length_news _ _).symm).bind
      fun ⟨d, nx2, s2⟩ D _ _ ⟨p1, p2⟩ => ?_
    exact ⟨_, rfl, p1, p2⟩
  | block b ih =>
    simp only [transS, Stmt.check]
    rw [← ro_push s]
    refine (ih nx s.push hi.push).bind_ok fun ⟨c, nx1, s1⟩ D h1 ⟨p1, p2⟩ => ?_
    dsimp only at p1 p2 ⊢
    subst p1
    have hb := transS_ok sem0_lawful b nx s.push hi.push c nx1 s1 h1
    obtain ⟨ow, e1, ho, hf⟩ := pop_find (s := s) hb.inv (by rw [hb.tail]; rfl)
    have hd : ∀ n, (s.look n).isSome → (s1.look n).isSome := fun n hn => hb.dom n (by rw [look_push]; exact hn)
    obtain ⟨s2, q1, _, _, q4, q5, _⟩ := putOw_ok (Val := Unit) hi.ne hi.uniq (hi.mono hb.le).lt hb.inv ho hd
    have ht := putTab_top hi.ne ho.uniq (fun n i hn hr => by
      have hn' := ho.dom n (mem_map_fst.2 (by rw [hn]; rfl))
      rw [hf, if_pos hn'] at hn
      obtain ⟨j, hj, _⟩ := p2.1 n i hn hr
      simp [Scopes.push, Tab.find] at hj) q1
    refine ⟨(c, nx1, s2), by rw [e1, Res.ok_bind]; dsimp only; rw [q1]; rfl, ?_, ht.1⟩
    funext n
    rw [ro_push, leave, ro_isSome]
    by_cases hn : (s.look n).isSome = true
    · rw [if_pos hn, ro, q5 n hn]; rfl
    · rw [if_neg hn]
      have := q4 n
      simp only [Bool.not_eq_true] at hn
      rw [hn] at this
      rw [ro, look_none_of (by rw [this]; simp)]; rfl
  | ifThen e t ih =>
    simp only [transS, Stmt.check]
    refine Agree.ite (transE_reads e nx s) fun ⟨c, v, nx1⟩ _ h1 => ?_
    dsimp only
    have he := transE_ok (S := sem0 F) e nx s hi c v nx1 h1
    have hi1 := hi.mono he.le
    rw [← ro_push s]
    refine (ih nx1 s.push hi1.push).bind_ok fun ⟨tc, nx2, s1⟩ D h2 ⟨p1, p2⟩ => ?_
    dsimp only at p1 p2 ⊢
    subst p1
    have hb := transS_ok sem0_lawful t nx1 s.push hi1.push tc nx2 s1 h2
    obtain ⟨ow, e1, ho, hf⟩ := pop_find (s := s) hb.inv (by rw [hb.tail]; rfl)
    obtain ⟨d, nx3, s3, q1, q2, q3⟩ := finishIf_check (v := v) (tc := tc) (ec := .done) (owE := []) hi1 hb.le ho.uniq (by simp [Tab.Uniq]) ho.dom (by simp)
    refine ⟨(c.app d, nx3, s3), by rw [e1, Res.ok_bind]; dsimp only; rw [q1]; rfl, ?_, q2⟩
    rw [ro_push]
    have q3' : ∀ n, ro s3 n = if n ∈ ow.map Prod.fst then some false else ro s n := fun n => by rw [q3 n]; simp only [List.map_nil, List.not_mem_nil, or_false]
    exact leave_eq q3' ho.dom fun n hn => ow_ro ho hf p2 n hn
  | ifElse e t f iht ihf =>
    simp only [transS, Stmt.check]
    refine Agree.ite (transE_reads e nx s) fun ⟨c, v, nx1⟩ _ h1 => ?_
    dsimp only
    have he := transE_ok (S := sem0 F) e nx s hi c v nx1 h1
    have hi1 := hi.mono he.le
    rw [← ro_push s]
    refine (iht nx1 s.push hi1.push).bind fun ⟨tc, nx2, s1⟩ D h2 _ ⟨p1, p2⟩ => ?_
    dsimp only at p1 p2 ⊢
    subst p1
    have hb := transS_ok sem0_lawful t nx1 s.push hi1.push tc nx2 s1 h2
    obtain ⟨ow, e1, ho, hf⟩ := pop_find (s := s) hb.inv (by rw [hb.tail]; rfl)
    rw [e1, Res.ok_bind]
    dsimp only
    have hi2 := hi1.mono hb.le
    refine (ihf nx2 s.push hi2.push).bind_ok fun ⟨ec, nx3, s2⟩ D2 h3 ⟨r1, r2⟩ => ?_
    dsimp only at r1 r2 ⊢
    subst r1
    have hb2 := transS_ok sem0_lawful f nx2 s.push hi2.push ec nx3 s2 h3
    obtain ⟨ow2, e2, ho2, hf2⟩ := pop_find (s := s) hb2.inv (by rw [hb2.tail]; rfl)
    obtain ⟨d, nx4, s3, q1, q2, q3⟩ := finishIf_check (v := v) (tc := tc) (ec := ec) hi2 hb2.le ho.uniq ho2.uniq ho.dom ho2.dom
    refine ⟨(c.app d, nx4, s3), by rw [e2, Res.ok_bind]; dsimp only; rw [q1]; rfl, ?_, q2⟩
    rw [ro_push]
    funext n
    rw [q3, leave, ro_isSome]
    by_cases hn : (s.look n).isSome = true
    · rw [if_pos hn]
      obtain ⟨a1, a2⟩ := ow_ro ho hf p2 n hn
      obtain ⟨b1, b2⟩ := ow_ro ho2 hf2 r2 n hn
      by_cases m1 : n ∈ ow.map Prod.fst
      · rw [if_pos (.inl m1), if_pos (.inl (a1 m1))]
      · by_cases m2 : n ∈ ow2.map Prod.fst
        · rw [if_pos (.inr m2), if_pos (.inr (b1 m2))]
        · rw [if_neg (by simp only [not_or]; exact ⟨m1, m2⟩), a2 m1, b2 m2]
          simp only [or_self]
          split
          · next h => exact h
          · rfl
    · rw [if_neg hn, if_neg (fun h => hn (h.elim (ho.dom n) (ho2.dom n))), ro, look_none_of hn]; rfl
  | «while» e b ih =>
    simp only [transS, Stmt.check]
    refine Agree.ite (transE_reads e nx s) fun ⟨c, v, nx1⟩ _ h1 => ?_
    dsimp only
    have he := transE_ok (S := sem0 F) e nx s hi c v nx1 h1
    have hi1 := hi.mono he.le
    rw [← ro_push s]
    refine (ih nx1 s.push hi1.push).bind_ok fun ⟨tc, nx2, s1⟩ D h2 ⟨p1, p2⟩ => ?_
    dsimp only at p1 p2 ⊢
    subst p1
    have hb := transS_ok sem0_lawful b nx1 s.push hi1.push tc nx2 s1 h2
    obtain ⟨ow, e1, ho, hf⟩ := pop_find (s := s) hb.inv (by rw [hb.tail]; rfl)
    obtain ⟨d, nx3, s3, q1, q2, q3⟩ := finishWhile_check (isDo := false) (v := v) (bc := c) (ac := tc) hi1 hb.le ho.uniq ho.dom
    refine ⟨(d, nx3, s3), by rw [e1, Res.ok_bind]; exact q1, ?_, q2⟩
    rw [ro_push]
    exact leave_eq q3 ho.dom fun n hn => ow_ro ho hf p2 n hn
  | doWhile b e ih =>
    simp only [transS, Stmt.check]
    rw [show ro s = ro s.push.push by rw [ro_push, ro_push]]
    refine (ih nx s.push.push hi.push.push).bind fun ⟨bc, nx1, s1⟩ D h1 _ ⟨p1, p2⟩ => ?_
    dsimp only at p1 p2 ⊢
    subst p1
    rw [ro_push, ro_push]
    have hb := transS_ok sem0_lawful b nx s.push.push hi.push.push bc nx1 s1 h1
    obtain ⟨ow, e1, ho, hf⟩ := pop_find (s := s.push) hb.inv (by rw [hb.tail]; rfl)
    rw [e1, Res.ok_bind]
    dsimp only
    have hd : ∀ n, (Scopes.look s.push n).isSome → (s1.look n).isSome := fun n hn => hb.dom n (by rw [look_push]; exact hn)
    have hp := hi.push
    obtain ⟨s3, q1, q2, q3, q4, q5, _⟩ := putOw_ok (Val := Unit) hp.ne hp.uniq (hp.mono hb.le).lt hb.inv ho hd
    rw [q1, Res.ok_bind]
    have hro : ro s3 = leave (ro s) (ro s1) := by
      funext n
      rw [leave, ro_isSome]
      by_cases hn : (s.look n).isSome = true
      · rw [if_pos hn, ro, q5 n (by rw [look_push]; exact hn)]; rfl
      · rw [if_neg hn]
        have := q4 n
        rw [look_push] at this
        simp only [Bool.not_eq_true] at hn
        rw [hn] at this
        rw [ro, look_none_of (by rw [this]; simp)]; rfl
    rw [← hro]
    refine Agree.ite (transE_reads e nx1 s3) fun ⟨dc, v, nx2⟩ _ h2 => ?_
    dsimp only
    have he := transE_ok (S := sem0 F) e nx1 s3 q2 dc v nx2 h2
    obtain ⟨ow2, e2, _⟩ := pop_ok (s := s) q2 (by rw [q3]; rfl)
    have hod : ∀ n ∈ ow.map Prod.fst, (s.look n).isSome := fun n hn => by have := ho.dom n hn; rwa [look_push] at this
    obtain ⟨d, nx3, s4, r1, r2, r3⟩ := finishWhile_check (isDo := true) (v := v) (bc := bc.app dc) (ac := .done) (nx := nx2) hi
      (show nx ≤ nx2 from Nat.le_trans hb.le he.le) ho.uniq hod
    refine ⟨(d, nx3, s4), by rw [e2, Res.ok_bind]; exact r1, ?_, r2⟩
    rw [hro]
    refine leave_eq r3 hod fun n hn => ?_
    have := ow_ro ho hf p2 n (by rw [look_push]; exact hn)
    rwa [ro_push] at this
  | «for» x lo hi' b ih =>
    simp only [transS, Stmt.check, startFor_eq, Res.ok_bind]
    refine reads_and (g := fun a b' => _) fun ⟨c1, vlo, nx1⟩ ⟨c2, vhi, nx2⟩ h1 h2 => ?_
    dsimp only [forBounds]
    dsimp only at h2
    have he := transE_ok (S := sem0 F) lo nx s hi c1 vlo nx1 h1
    have he2 := transE_ok (S := sem0 F) hi' nx1 s (hi.mono he.le) c2 vhi nx2 h2
    have hi2 := hi.mono (Nat.le_trans he.le he2.le)
    have hi3 := startFor_inv (x := x) hi2 (show nx2 ≤ nx2 + 5 + 4 by omega)
    rw [← ro_for s x (nx2 + 5 + 4 + 1)]
    refine (ih _ _ hi3).bind_ok fun ⟨c6, nx4, s1⟩ D h3 ⟨p1, p2⟩ => ?_
    dsimp only at p1 p2 ⊢
    subst p1
    have hb := transS_ok sem0_lawful b _ _ hi3 c6 nx4 s1 h3
    have l := hb.le
    obtain ⟨ow, e1, ho, hf⟩ := pop_find (s := s) hb.inv (by rw [hb.tail]; rfl)
    rw [e1, Res.ok_bind]
    dsimp only
    have htop : (Tab.find (s1.headD []) x).isSome := p2.2 x (by simp [Tab.find])
    obtain ⟨d, nx5, s4, r1, r2, r3⟩ := finishFor_check (lb := nx2 + 5 + 1) (ub := nx2 + 5 + 2) (st := nx2 + 5 + 3) (ph := nx2 + 5 + 4)
      (body := (Code.arith (nx2 + 5 + 4) (.const 123) [] (.arith (nx2 + 5 + 4 + 1) .mul [nx2 + 5 + 4, nx2 + 4] .done)).app c6) (nx := nx4) hi2
      (by omega) ho.uniq ho.dom
    rw [r1]
    refine ⟨_, rfl, ?_, r2⟩
    exact leave_eq_for r3 ho.dom (fun n e hn => ow_ro_for ho hf p2 n e hn) (for_top htop hf)
  | forStep x lo hi' step b ih =>
    simp only [transS, Stmt.check, startFor_eq, Res.ok_bind]
    have : ∀ o : Option (Vars ν Bool), (if (lo.reads (ro s) && (hi'.reads (ro s) && step.reads (ro s))) = true then o else none) =
        if lo.reads (ro s) = true then (if (hi'.reads (ro s) && step.reads (ro s)) = true then o else none) else none := fun o => by
      cases lo.reads (ro s) <;> simp
    rw [this]
    refine Agree.ite (transE_reads lo nx s) fun ⟨c1, vlo, nx1⟩ _ h1 => ?_
    dsimp only
    refine reads_and (g := fun a b' => _) fun ⟨c2, vhi, nx2⟩ ⟨c3, vst, nx3⟩ h2 h2' => ?_
    dsimp only [forBounds]
    dsimp only at h2'
    have he := transE_ok (S := sem0 F) lo nx s hi c1 vlo nx1 h1
    have he2 := transE_ok (S := sem0 F) hi' nx1 s (hi.mono he.le) c2 vhi nx2 h2
    have hi2 := hi.mono (Nat.le_trans he.le he2.le)
    have he3 := transE_ok (S := sem0 F) step nx2 s hi2 c3 vst nx3 h2'
    have hi2 := hi2.mono he3.le
    have hi3 := startFor_inv (x := x) hi2 (show nx3 ≤ nx3 + 1 + 4 by omega)
    rw [← ro_for s x (nx3 + 1 + 4 + 1)]
    refine (ih _ _ hi3).bind_ok fun ⟨c6, nx4, s1⟩ D h3 ⟨p1, p2⟩ => ?_
    dsimp only at p1 p2 ⊢
    subst p1
    have hb := transS_ok sem0_lawful b _ _ hi3 c6 nx4 s1 h3
    have l := hb.le
    obtain ⟨ow, e1, ho, hf⟩ := pop_find (s := s) hb.inv (by rw [hb.tail]; rfl)
    rw [e1, Res.ok_bind]
    dsimp only
    have htop : (Tab.find (s1.headD []) x).isSome := p2.2 x (by simp [Tab.find])
    obtain ⟨d, nx5, s4, r1, r2, r3⟩ := finishFor_check (lb := nx3 + 1 + 1) (ub := nx3 + 1 + 2) (st := nx3 + 1 + 3) (ph := nx3 + 1 + 4)
      (body := (Code.arith (nx3 + 1 + 4) (.const 123) [] (.arith (nx3 + 1 + 4 + 1) .mul [nx3 + 1 + 4, nx3] .done)).app c6) (nx := nx4) hi2
      (by omega) ho.uniq ho.dom
    rw [r1]
    refine ⟨_, rfl, ?_, r2⟩
    exact leave_eq_for r3 ho.dom (fun n e hn => ow_ro_for ho hf p2 n e hn) (for_top htop hf)

theorem inv_init : Inv (Scopes.init : Syms ν) 0 := by
  refine ⟨by simp [Scopes.init], ?_, ?_, ?_⟩
  · intro t ht; simp [Scopes.init] at ht; subst ht; simp [Tab.Uniq]
  · intro t ht e he; simp [Scopes.init] at ht; subst ht; cases he
  · intro n m i j h; simp [Scopes.init, Scopes.look, Tab.find] at h

theorem ro_init : ro (Scopes.init : Syms ν) = fun _ => none := by
  funext n; simp [ro, Scopes.init, Scopes.look, Tab.find]

end

end Verif.Front
