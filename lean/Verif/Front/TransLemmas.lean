/-
  Lemmas for the correctness of the translation: comparing runs, replacement of uses, the symbol table.
-/
import Verif.Front.Trans

namespace Verif.Front

/-! ### Comparing two runs -/

section
variable {α β γ δ : Type}

/-- The second run does what the first does: it ends if the first ends, with a related result; it runs out of fuel if the first does.
The first does not read anything that does not exist. Nothing is claimed if it is undefined otherwise. -/
def RunRel (P : α → β → Prop) (r : Run α) (t : Run β) : Prop :=
  match r with
  | .ok a => ∃ b, t = .ok b ∧ P a b
  | .error .fuel => t = .error .fuel
  | .error .unbound => False
  | .error .undef => True

theorem RunRel.ok {P : α → β → Prop} {a : α} {b : β} (h : P a b) : RunRel P (.ok a) (.ok b) := ⟨b, rfl, h⟩

theorem RunRel.bind {P : α → β → Prop} {Q : γ → δ → Prop} {r : Run α} {t : Run β} {f : α → Run γ} {g : β → Run δ}
    (h : RunRel P r t) (hf : ∀ a b, r = .ok a → t = .ok b → P a b → RunRel Q (f a) (g b)) : RunRel Q (r >>= f) (t >>= g) := by
  cases r with
  | ok a =>
    obtain ⟨b, e, hp⟩ := h
    subst e
    exact hf a b rfl rfl hp
  | error s =>
    cases s with
    | fuel => simp only [RunRel] at h; subst h; rfl
    | unbound => exact h.elim
    | undef => trivial

theorem RunRel.mono {P Q : α → β → Prop} {r : Run α} {t : Run β} (h : RunRel P r t) (hpq : ∀ a b, r = .ok a → t = .ok b → P a b → Q a b) :
    RunRel Q r t := by
  cases r with
  | ok a => obtain ⟨b, e, hp⟩ := h; exact ⟨b, e, hpq a b rfl e hp⟩
  | error s => cases s <;> exact h

/-- The left side is first computed and then continued. -/
theorem RunRel.bind_left {P : α → β → Prop} {Q : γ → β → Prop} {r : Run α} {t : Run β} {f : α → Run γ}
    (h : RunRel P r t) (hf : ∀ a b, r = .ok a → t = .ok b → P a b → ∃ c, f a = .ok c ∧ Q c b) : RunRel Q (r >>= f) t := by
  cases r with
  | ok a =>
    obtain ⟨b, e, hp⟩ := h
    obtain ⟨c, ec, hq⟩ := hf a b rfl e hp
    simp only [Run.ok_bind, ec]
    exact ⟨b, e, hq⟩
  | error s => cases s <;> exact h

theorem RunRel.bind_right {P : α → β → Prop} {Q : α → δ → Prop} {r : Run α} {t : Run β} {g : β → Run δ}
    (h : RunRel P r t) (hf : ∀ a b, r = .ok a → t = .ok b → P a b → ∃ c, g b = .ok c ∧ Q a c) : RunRel Q r (t >>= g) := by
  cases r with
  | ok a =>
    obtain ⟨b, e, hp⟩ := h
    obtain ⟨c, ec, hq⟩ := hf a b rfl e hp
    exact ⟨c, by rw [e]; exact ec, hq⟩
  | error s =>
    cases s with
    | fuel => simp only [RunRel] at h; subst h; rfl
    | unbound => exact h.elim
    | undef => trivial

/-- A right side that is a renamed run. -/
theorem RunRel.of_map {P : α → δ → Prop} {r : Run α} {t : Run β} {g : β → δ} (h : RunRel P r (t >>= fun b => .ok (g b))) :
    RunRel (fun a b => P a (g b)) r t := by
  cases r with
  | ok a =>
    obtain ⟨d, e, hp⟩ := h
    obtain ⟨b, eb, e⟩ := run_bind_ok e
    cases e
    exact ⟨b, eb, hp⟩
  | error s =>
    cases s with
    | fuel =>
      simp only [RunRel] at h ⊢
      cases t with
      | ok b => cases h
      | error s => simpa using h
    | unbound => exact h.elim
    | undef => trivial

/-- Both sides go on, or both sides stop. -/
def StepRel (P : α → γ → Prop) (Q : β → δ → Prop) : α ⊕ β → γ ⊕ δ → Prop
  | .inl a, .inl c => P a c
  | .inr b, .inr d => Q b d
  | _, _ => False

theorem RunRel.iterate {P : α → γ → Prop} {Q : β → δ → Prop} {f : α → Run (α ⊕ β)} {g : γ → Run (γ ⊕ δ)}
    (h : ∀ a c, P a c → RunRel (StepRel P Q) (f a) (g c))
    (n : Nat) (a : α) (c : γ) (hp : P a c) : RunRel Q (Front.iterate f n a) (Front.iterate g n c) := by
  induction n generalizing a c with
  | zero => rfl
  | succ n ih =>
    simp only [Front.iterate]
    refine (h a c hp).bind fun x y _ _ hxy => ?_
    cases x <;> cases y <;> simp only [StepRel] at hxy ⊢
    · exact ih _ _ hxy
    · exact RunRel.ok hxy

theorem RunRel.fold {P : β → δ → Prop} {f : β → α → Run β} {g : δ → γ → Run δ} {m : α → γ}
    (l : List α) (h : ∀ a ∈ l, ∀ b d, P b d → RunRel P (f b a) (g d (m a))) (b : β) (d : δ) (hp : P b d) :
    RunRel P (foldRun f b l) (foldRun g d (l.map m)) := by
  induction l generalizing b d with
  | nil => exact RunRel.ok hp
  | cons a l ih =>
    exact (h a (by simp) b d hp).bind fun b d _ _ hp => ih (fun a ha => h a (by simp [ha])) b d hp

end

/-! ### Reading and setting several values -/

section
variable {Val : Type}

theorem get_eq {ρ : Env Val} {v : Nat} {x : Val} : ρ.get v = .ok x ↔ ρ v = some x := by
  unfold Env.get; split <;> simp_all

theorem getAll_eq {ρ : Env Val} {vs : List Nat} {xs : List Val} : ρ.getAll vs = .ok xs ↔ vs.map ρ = xs.map some := by
  induction vs generalizing xs with
  | nil => cases xs <;> simp [Env.getAll]
  | cons v vs ih =>
    simp only [Env.getAll]
    constructor
    · intro h
      obtain ⟨x, h1, h⟩ := run_bind_ok h
      obtain ⟨ys, h2, h⟩ := run_bind_ok h
      cases h
      simp [get_eq.1 h1, ih.1 h2]
    · intro h
      cases xs with
      | nil => simp at h
      | cons x xs =>
        simp only [List.map_cons, List.cons.injEq] at h
        rw [get_eq.2 h.1, ih.2 h.2]; rfl

theorem setAll_ok {rs : List Nat} {xs : List Val} (ρ : Env Val) (hl : rs.length = xs.length) (hn : rs.Nodup) :
    ∃ ρ', ρ.setAll rs xs = .ok ρ' ∧ rs.map ρ' = xs.map some ∧ ∀ v, v ∉ rs → ρ' v = ρ v := by
  induction rs generalizing xs ρ with
  | nil => cases xs with
    | nil => exact ⟨ρ, rfl, rfl, fun _ _ => rfl⟩
    | cons x xs => simp at hl
  | cons r rs ih =>
    cases xs with
    | nil => simp at hl
    | cons x xs =>
      obtain ⟨ρ', h1, h2, h3⟩ := ih (ρ.upd r x) (by simpa using hl) (List.nodup_cons.1 hn).2
      refine ⟨ρ', h1, ?_, fun v hv => ?_⟩
      · simp only [List.map_cons, h2, List.cons.injEq, and_true]
        rw [h3 r (List.nodup_cons.1 hn).1]; simp [Env.upd]
      · simp only [List.mem_cons, not_or] at hv
        rw [h3 v hv.2]; simp [Env.upd, hv.1]

/-- Two lists pointing to the same values position by position. -/
theorem zip_of_map {α β γ : Type} {as : List α} {bs : List β} {f : α → γ} {g : β → γ} (h : as.map f = bs.map g) :
    ∀ p ∈ as.zip bs, f p.1 = g p.2 := by
  induction as generalizing bs with
  | nil => simp
  | cons a as ih =>
    cases bs with
    | nil => simp
    | cons b bs =>
      simp only [List.map_cons, List.cons.injEq] at h
      simp only [List.zip_cons_cons, List.mem_cons]
      rintro p (rfl | hp)
      · exact h.1
      · exact ih h.2 p hp

theorem exists_zip {α β : Type} {as : List α} {bs : List β} (hl : as.length = bs.length) {a : α} (h : a ∈ as) : ∃ b, (a, b) ∈ as.zip bs := by
  induction as generalizing bs with
  | nil => simp at h
  | cons x as ih =>
    cases bs with
    | nil => simp at hl
    | cons y bs =>
      rcases List.mem_cons.1 h with rfl | h
      · exact ⟨y, by simp⟩
      · obtain ⟨b, hb⟩ := ih (by simpa using hl) h
        exact ⟨b, by simp [hb]⟩

end

/-! ### Replacing uses -/

theorem mapUses_id {F : Type} (c : Code F) : c.mapUses (fun v => v) = c := by
  induction c <;> simp_all [Code.mapUses]

theorem replCode_eq {F : Type} (os ns : List Nat) (c : Code F) : replCode os ns c = c.mapUses (replAll os ns) := by
  induction os generalizing ns c with
  | nil => exact (mapUses_id c).symm
  | cons o os ih =>
    cases ns with
    | nil => exact (mapUses_id c).symm
    | cons n ns => rw [replCode, ih, mapUses_mapUses]; rfl

theorem replAll_other (os ns : List Nat) (v : Nat) (hv : v ∉ os) : replAll os ns v = v := by
  induction os generalizing ns with
  | nil => rfl
  | cons o os ih =>
    simp only [List.mem_cons, not_or] at hv
    cases ns with
    | nil => rfl
    | cons n ns => simp only [replAll, repl, if_neg hv.1]; exact ih ns hv.2

theorem replAll_zip (os ns : List Nat) (ho : os.Nodup) (hd : ∀ o ∈ os, o ∉ ns) : ∀ p ∈ os.zip ns, replAll os ns p.1 = p.2 := by
  induction os generalizing ns with
  | nil => simp
  | cons o os ih =>
    cases ns with
    | nil => simp
    | cons n ns =>
      simp only [List.zip_cons_cons, List.mem_cons]
      have ho' := List.nodup_cons.1 ho
      rintro p (rfl | hp)
      · simp only [replAll, repl, if_true]
        exact replAll_other os ns n fun h => hd n (by simp [h]) (by simp)
      · have h1 : p.1 ∈ os := (List.of_mem_zip hp).1
        simp only [replAll, repl]
        rw [if_neg (fun e => ho'.1 (by rw [← e]; exact h1))]
        exact ih ns ho'.2 (fun o ho h => hd o (by simp [ho]) (by simp [h])) p hp

theorem replAll_range (os ns : List Nat) (v : Nat) : replAll os ns v = v ∨ replAll os ns v ∈ ns := by
  induction os generalizing ns v with
  | nil => exact .inl rfl
  | cons o os ih =>
    cases ns with
    | nil => exact .inl rfl
    | cons n ns =>
      simp only [replAll, repl]
      split
      · rcases ih ns n with h | h
        · exact .inr (by simp [h])
        · exact .inr (by simp [h])
      · rcases ih ns v with h | h
        · exact .inl h
        · exact .inr (by simp [h])

theorem mem_news {nx k v : Nat} : v ∈ news nx k ↔ nx ≤ v ∧ v < nx + k := by simp [news]

theorem nodup_news (nx k : Nat) : (news nx k).Nodup := List.nodup_range'

theorem length_news (nx k : Nat) : (news nx k).length = k := by simp [news]

/-- Replacing old values by new arguments does not touch what is defined in between. -/
theorem keeps_replAll {os ns ds : List Nat} {a b : Nat} (ho : ∀ o ∈ os, o < a) (hn : ∀ n ∈ ns, b ≤ n) (hd : ∀ d ∈ ds, a ≤ d ∧ d < b) :
    Keeps (replAll os ns) ds := by
  intro r hr
  have h := hd r hr
  refine ⟨replAll_other _ _ _ fun hm => by have := ho r hm; omega, fun v hv => ?_⟩
  rcases replAll_range os ns v with e | e
  · rw [e] at hv; exact hv
  · rw [hv] at e; have := hn r e; omega

/-! ### The symbol table -/

section
variable {ν : Type} [DecidableEq ν]

/-- What holds of the symbol table between two visits: no two names share a value, and all values are numbered below `nx`. -/
structure Inv (s : Syms ν) (nx : Nat) : Prop where
  ne : s ≠ []
  uniq : ∀ t ∈ s, t.Uniq
  lt : ∀ t ∈ s, ∀ e ∈ t, e.2.value < nx
  inj : ∀ n m i j, s.look n = some i → s.look m = some j → i.value = j.value → n = m

theorem mem_of_find {t : Tab ν Nat} {n : ν} {i : Info Nat} (h : t.find n = some i) : (n, i) ∈ t := by
  induction t with
  | nil => cases h
  | cons e t ih =>
    obtain ⟨k, j⟩ := e
    simp only [Tab.find, List.lookup] at h ih
    split at h
    · next hk => cases h; simp at hk; simp [hk]
    · exact List.mem_cons_of_mem _ (ih h)

theorem mem_of_look {s : Syms ν} {n : ν} {i : Info Nat} (h : s.look n = some i) : ∃ t ∈ s, (n, i) ∈ t := by
  induction s with
  | nil => cases h
  | cons t s ih =>
    simp only [Scopes.look] at h
    cases hf : t.find n with
    | some j => rw [hf] at h; cases h; exact ⟨t, by simp, mem_of_find hf⟩
    | none =>
      rw [hf] at h
      obtain ⟨u, hu, hm⟩ := ih h
      exact ⟨u, by simp [hu], hm⟩

theorem Inv.look_lt {s : Syms ν} {nx : Nat} (h : Inv s nx) {n : ν} {i : Info Nat} (hl : s.look n = some i) : i.value < nx := by
  obtain ⟨t, ht, hm⟩ := mem_of_look hl
  exact h.lt t ht _ hm

theorem Inv.mono {s : Syms ν} {nx nx' : Nat} (h : Inv s nx) (hle : nx ≤ nx') : Inv s nx' :=
  ⟨h.ne, h.uniq, fun t ht e he => Nat.lt_of_lt_of_le (h.lt t ht e he) hle, h.inj⟩

theorem Inv.push {s : Syms ν} {nx : Nat} (h : Inv s nx) : Inv s.push nx := by
  refine ⟨by simp [Scopes.push], ?_, ?_, ?_⟩
  · intro t ht
    rcases List.mem_cons.1 ht with rfl | ht
    · simp [Tab.Uniq]
    · exact h.uniq t ht
  · intro t ht
    rcases List.mem_cons.1 ht with rfl | ht
    · simp
    · exact h.lt t ht
  · intro n m i j hn hm
    exact h.inj n m i j (by simpa [Scopes.push, Scopes.look, Tab.find] using hn) (by simpa [Scopes.push, Scopes.look, Tab.find] using hm)

theorem look_push (s : Syms ν) (n : ν) : Scopes.look s.push n = s.look n := by simp [Scopes.push, Scopes.look, Tab.find]

theorem get_ok {s : Syms ν} {n : ν} {i : Info Nat} : s.get n = .ok i ↔ s.look n = some i := by
  rw [Scopes.get_eq]; cases s.look n <;> simp

theorem look_put {t : Tab ν Nat} {s : Syms ν} (x n : ν) (i : Info Nat) :
    Scopes.look (t.assign x i :: s) n = if x = n then some i else Scopes.look (t :: s) n := by
  simp only [Scopes.look, Tab.find_assign]
  split <;> simp

/-- Binding a name to a value no name has. -/
theorem Inv.put {t : Tab ν Nat} {s : Syms ν} {nx nx' : Nat} (h : Inv (t :: s) nx) (x : ν) (i : Info Nat) (hle : nx ≤ nx') (hi : i.value < nx')
    (hf : ∀ n j, Scopes.look (t :: s) n = some j → j.value ≠ i.value) : Inv (t.assign x i :: s) nx' := by
  refine ⟨by simp, ?_, ?_, ?_⟩
  · intro u hu
    rcases List.mem_cons.1 hu with rfl | hu
    · exact (h.uniq t (by simp)).assign _ _
    · exact h.uniq u (by simp [hu])
  · intro u hu e he
    rcases List.mem_cons.1 hu with rfl | hu
    · have : e = (x, i) ∨ e ∈ t := by
        clear h hf hu
        induction t with
        | nil => simp [Tab.assign] at he; exact .inl he
        | cons a t ih =>
          obtain ⟨m, j⟩ := a
          simp only [Tab.assign] at he
          split at he
          · next hm =>
            subst hm
            rcases List.mem_cons.1 he with rfl | he
            · exact .inl rfl
            · exact .inr (by simp [he])
          · rcases List.mem_cons.1 he with rfl | he
            · exact .inr (by simp)
            · rcases ih he with e | e
              · exact .inl e
              · exact .inr (by simp [e])
      rcases this with rfl | he
      · exact hi
      · exact Nat.lt_of_lt_of_le (h.lt t (by simp) e he) hle
    · exact Nat.lt_of_lt_of_le (h.lt u (by simp [hu]) e he) hle
  · intro n m a b hn hm hab
    rw [look_put] at hn hm
    split at hn
    · next e1 =>
      cases hn
      split at hm
      · next e2 => exact e1.symm.trans e2
      · exact absurd hab.symm (hf m b hm)
    · split at hm
      · cases hm; exact absurd hab (hf n a hn)
      · exact h.inj n m a b hn hm hab

/-- `has(v)` is false: no visible name has the value. -/
theorem not_hasVal {s : Syms ν} {v : Nat} (h : s.hasVal v = false) (n : ν) (j : Info Nat) (hl : s.look n = some j) : j.value ≠ v := by
  obtain ⟨t, ht, hm⟩ := mem_of_look hl
  rw [Scopes.hasVal, List.any_eq_false] at h
  have h1 := h t ht
  rw [Bool.not_eq_true, List.any_eq_false] at h1
  have := h1 _ hm
  simpa using this

/-- Value of a visible name. -/
def valOf (s : Syms ν) (n : ν) : Nat := ((s.look n).map Info.value).getD 0

theorem getVals_ok {s : Syms ν} {ns : List ν} (h : ∀ n ∈ ns, (s.look n).isSome) : getVals s ns = .ok (ns.map (valOf s)) := by
  induction ns with
  | nil => rfl
  | cons n ns ih =>
    obtain ⟨i, hi⟩ := Option.isSome_iff_exists.1 (h n (by simp))
    simp only [getVals, get_ok.2 hi, ih fun m hm => h m (by simp [hm]), List.map_cons, valOf, hi]
    rfl

/-- Value of a name according to `get(name, tab)`. -/
def valOfWith (s : Syms ν) (t : Tab ν Nat) (n : ν) : Nat := (((t.find n).orElse fun _ => s.look n).map Info.value).getD 0

theorem getValsWith_ok {s : Syms ν} {t : Tab ν Nat} {ns : List ν} (h : ∀ n ∈ ns, (s.look n).isSome) :
    getValsWith s t ns = .ok (ns.map (valOfWith s t)) := by
  induction ns with
  | nil => rfl
  | cons n ns ih =>
    obtain ⟨i, hi⟩ := Option.isSome_iff_exists.1 (h n (by simp))
    simp only [getValsWith, Scopes.getWith, ih fun m hm => h m (by simp [hm]), List.map_cons, valOfWith]
    cases hf : t.find n with
    | some j => rfl
    | none => simp only [get_ok.2 hi, hi]; rfl

/-- The table of new entries built by `putVals`. -/
def newTab (ns : List ν) (vs : List Nat) : Tab ν Nat := (ns.zip vs).map fun p => (p.1, ⟨p.2, false⟩)

theorem newTab_uniq {ns : List ν} {vs : List Nat} (hn : ns.Nodup) : (newTab ns vs).Uniq := by
  unfold Tab.Uniq newTab
  rw [List.map_map]
  have : (ns.zip vs).map (Prod.fst ∘ fun p => (p.1, (⟨p.2, false⟩ : Info Nat))) = (ns.zip vs).map Prod.fst := rfl
  rw [this]
  clear this
  induction ns generalizing vs with
  | nil => simp
  | cons n ns ih =>
    cases vs with
    | nil => simp
    | cons v vs =>
      simp only [List.zip_cons_cons, List.map_cons, List.nodup_cons] at hn ⊢
      refine ⟨fun h => ?_, ih hn.2⟩
      obtain ⟨p, hp, e⟩ := List.mem_map.1 h
      exact hn.1 (by rw [← e]; exact (List.of_mem_zip hp).1)

theorem find_newTab {ns : List ν} {vs : List Nat} (hn : ns.Nodup) (n : ν) (i : Info Nat) :
    (newTab ns vs).find n = some i ↔ (n, i.value) ∈ ns.zip vs ∧ i.readOnly = false := by
  rw [Tab.find_mem (newTab_uniq hn)]
  unfold newTab
  simp only [List.mem_map, Prod.mk.injEq, Prod.exists]
  constructor
  · rintro ⟨a, b, h, rfl, rfl⟩; exact ⟨h, rfl⟩
  · rintro ⟨h, hr⟩
    refine ⟨n, i.value, h, rfl, ?_⟩
    cases i; simp_all

theorem find_newTab_none {ns : List ν} {vs : List Nat} (hl : ns.length = vs.length) (n : ν) :
    (newTab ns vs).find n = none ↔ n ∉ ns := by
  induction ns generalizing vs with
  | nil => simp [newTab, Tab.find]
  | cons m ns ih =>
    cases vs with
    | nil => simp at hl
    | cons v vs =>
      have := ih (vs := vs) (by simpa using hl)
      simp only [newTab, Tab.find, List.zip_cons_cons, List.map_cons, List.lookup] at this ⊢
      by_cases h : n = m
      · subst h; simp
      · simp [show (n == m) = false by simpa using h, h, this]

theorem look_putTab {u : Tab ν Nat} {s : Syms ν} {t : Tab ν Nat} (hu : t.Uniq) (n : ν) :
    Scopes.look (t.foldl (fun u e => u.assign e.1 e.2) u :: s) n = (t.find n).orElse fun _ => Scopes.look (u :: s) n := by
  simp only [Scopes.look, find_foldl _ _ hu]
  cases t.find n <;> simp

theorem mem_foldl_assign {t u : Tab ν Nat} {e : ν × Info Nat} (h : e ∈ t.foldl (fun u e => u.assign e.1 e.2) u) : e.2 ∈ (t ++ u).map Prod.snd := by
  have key : ∀ (u : Tab ν Nat) (x : ν) (i : Info Nat) (e : ν × Info Nat), e ∈ u.assign x i → e.2 = i ∨ e ∈ u := by
    intro u x i e he
    induction u with
    | nil => simp [Tab.assign] at he; exact .inl (by rw [he])
    | cons a u ih =>
      obtain ⟨m, j⟩ := a
      simp only [Tab.assign] at he
      split at he
      · rcases List.mem_cons.1 he with rfl | he
        · exact .inl rfl
        · exact .inr (by simp [he])
      · rcases List.mem_cons.1 he with rfl | he
        · exact .inr (by simp)
        · rcases ih he with e | e
          · exact .inl e
          · exact .inr (by simp [e])
  induction t generalizing u with
  | nil => exact List.mem_map_of_mem h
  | cons a t ih =>
    have := ih h
    simp only [List.map_append, List.mem_append, List.map_cons, List.mem_cons, List.mem_map, List.cons_append] at this ⊢
    rcases this with ⟨x, hx, hxe⟩ | ⟨x, hx, hxe⟩
    · exact .inr (.inl ⟨x, hx, hxe⟩)
    · rcases key u a.1 a.2 x hx with h' | h'
      · exact .inl (by rw [← hxe, h'])
      · exact .inr (.inr ⟨x, h', hxe⟩)

end

end Verif.Front
