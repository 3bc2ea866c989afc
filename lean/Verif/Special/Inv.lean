/-
  What the pass keeps: every function does what the function it was made from does.
-/
import Verif.Special.Lemmas

namespace Verif.Special
variable {V F W : Type}

/-! ### The function a function was made from -/

/-- The characters before the dash number `k + 1`. -/
def upTo : Nat → List Char → List Char
  | _, [] => []
  | 0, c :: cs => if c = '-' then [] else c :: upTo 0 cs
  | k + 1, c :: cs => if c = '-' then c :: upTo k cs else c :: upTo (k + 1) cs

theorem upTo_eq : ∀ (l : List Char) (k : Nat), l.count '-' ≤ k → upTo k l = l
  | [], k, _ => by cases k <;> rfl
  | c :: cs, 0, h => by
    by_cases hc : c = '-'
    · subst hc
      simp at h
    · rw [List.count_cons_of_ne hc] at h
      simp [upTo, hc, upTo_eq cs 0 h]
  | c :: cs, k + 1, h => by
    by_cases hc : c = '-'
    · subst hc
      simp only [List.count_cons_self] at h
      simp [upTo, upTo_eq cs k (by omega)]
    · rw [List.count_cons_of_ne hc] at h
      simp [upTo, hc, upTo_eq cs (k + 1) h]

theorem upTo_append (r : List Char) : ∀ (l : List Char) (k : Nat), k ≤ l.count '-' → upTo k (l ++ '-' :: r) = upTo k l
  | [], k, h => by
    obtain rfl : k = 0 := by simpa using h
    simp [upTo]
  | c :: cs, 0, h => by
    by_cases hc : c = '-'
    · simp [upTo, hc]
    · simp [upTo, hc, upTo_append r cs 0 (by omega)]
  | c :: cs, k + 1, h => by
    by_cases hc : c = '-'
    · subst hc
      simp only [List.count_cons_self] at h
      simp [upTo, upTo_append r cs k (by omega)]
    · rw [List.count_cons_of_ne hc] at h
      simp [upTo, hc, upTo_append r cs (k + 1) h]

theorem upTo_idem : ∀ (l : List Char) (k : Nat), upTo k (upTo k l) = upTo k l
  | [], k => by cases k <;> rfl
  | c :: cs, 0 => by by_cases hc : c = '-' <;> simp [upTo, hc, upTo_idem cs 0]
  | c :: cs, k + 1 => by by_cases hc : c = '-' <;> simp [upTo, hc, upTo_idem cs]

/-- `f-1` for `f-1`, `f-1-7`, `f-1-7-12`; names without a dash stand for themselves. -/
def origin (s : String) : String := String.ofList (upTo 1 s.toList)

theorem origin_eq {s : String} (h : dashes s ≤ 1) : origin s = s := by
  unfold origin
  rw [upTo_eq _ _ h, String.ofList_toList]

theorem origin_uniqueName {g : String} (n : Nat) (h : 1 ≤ dashes g) : origin (uniqueName g n) = origin g := by
  unfold origin
  rw [uniqueName_toList, upTo_append _ _ _ h]

theorem origin_idem (s : String) : origin (origin s) = origin s := by
  unfold origin
  rw [String.toList_ofList, upTo_idem]

/-! ### Hypotheses -/

/-- The program before the pass: a name has at most one dash (`f-1`), functions that are called exist and have a dash, no constants have been inserted. -/
structure Prog (P : String → Option (Func V F)) : Prop where
  names : ∀ g G, P g = some G → dashes g ≤ 1
  plain : ∀ g G, P g = some G → ∀ p ∈ G.preset, p = none
  calls : ∀ g G, P g = some G → ∀ h cs, (h, cs) ∈ calls G.body G.preset → 1 ≤ dashes h ∧ (P h).isSome

/-- Canonicalisation does not change what code does, provided that the constants are what they are, and it adds no calls. -/
structure Sound (sem : Sem V F W) (env : Env V F) : Prop where
  eval : ∀ co kn c vs w, kn.length = vs.length → Agree kn vs → evalC sem co (env.canon kn c) vs w = evalC sem co c vs w
  calls : ∀ kn c g cs', (g, cs') ∈ calls (env.canon kn c) kn → ∃ cs, (g, cs) ∈ calls c kn ∧ Sub cs cs'

/-! ### The invariant -/

/-- `G` does what `Fn` does if calls of a function do what the original function does. -/
def Same (sem : Sem V F W) (G Fn : Func V F) : Prop :=
  G.preset.length = Fn.preset.length ∧ ∀ co : String → List V → W → Option (V × W), (∀ x, co x = co (origin x)) → ∀ vs w, vs.length = G.preset.length → Agree G.preset vs →
    evalC sem co G.body vs w = evalC sem co Fn.body vs w

structure Inv (sem : Sem V F W) (P : String → Option (Func V F)) (cfg : Cfg V F) : Prop where
  dom : ∀ g Fn, P g = some Fn → ∃ G, cfg.funcs g = some G ∧ G.tys = Fn.tys ∧ G.preset = Fn.preset
  func : ∀ g G, cfg.funcs g = some G → ∃ Fn, P (origin g) = some Fn ∧ Same sem G Fn
  call : ∀ g G, cfg.funcs g = some G → ∀ h cs, (h, cs) ∈ calls G.body G.preset → 1 ≤ dashes h ∧ ∃ H, cfg.funcs h = some H ∧ Sub H.preset cs
  spec : ∀ g h, (g, h) ∈ cfg.specialised → origin h = origin g ∧ 2 ≤ dashes h ∧ ∃ G H, cfg.funcs g = some G ∧ cfg.funcs h = some H ∧ H.preset = G.preset
  fresh : ∀ g G, cfg.funcs g = some G → dashes g ≤ 1 ∨ ∃ h n, g = uniqueName h n ∧ n < cfg.next
  tmpl : ∀ g ∈ cfg.templates, 1 ≤ dashes g

theorem inv_init (sem : Sem V F W) {P : String → Option (Func V F)} (hP : Prog P) : Inv sem P (.init P) where
  dom g Fn h := ⟨Fn, h, rfl, rfl⟩
  func g G h := ⟨G, by rw [origin_eq (hP.names g G h)]; exact h, rfl, fun _ _ _ _ _ _ => rfl⟩
  call g G h h' cs hm := by
    obtain ⟨h1, h2⟩ := hP.calls g G h h' cs hm
    obtain ⟨H, hH⟩ := Option.isSome_iff_exists.1 h2
    refine ⟨h1, H, hH, fun i v hi => ?_⟩
    have := hP.plain h' H hH _ (List.mem_of_getElem? hi)
    cases this
  spec g h hm := by simp [Cfg.init] at hm
  fresh g G h := .inl (hP.names g G h)
  tmpl g h := by simp [Cfg.init] at h

/-- A new name. -/
theorem Inv.new {sem : Sem V F W} {P : String → Option (Func V F)} {cfg : Cfg V F} (hi : Inv sem P cfg) {g : String} (hg : 1 ≤ dashes g) : cfg.funcs (uniqueName g cfg.next) = none := by
  cases h : cfg.funcs (uniqueName g cfg.next) with
  | none => rfl
  | some G =>
    exfalso
    rcases hi.fresh _ _ h with h1 | ⟨h', n, he, hn⟩
    · rw [dashes_uniqueName] at h1
      omega
    · have := (uniqueName_inj he).2
      omega

theorem newPreset_length (env : Env V F) (G : Func V F) (cs : List (Option V)) : (newPreset env G cs).length = G.preset.length := by
  unfold newPreset
  split
  · simp
  · rfl

theorem newPreset_sup (env : Env V F) (G : Func V F) (cs : List (Option V)) : Sub G.preset (newPreset env G cs) := by
  intro i v h
  unfold newPreset
  split
  · rw [List.getElem?_zipWith, h]
    have : i < (cs ++ List.replicate G.preset.length none).length := by
      have := (List.getElem?_eq_some_iff.1 h).1
      simp
      omega
    rw [List.getElem?_eq_getElem this]
    rfl
  · exact h

theorem newPreset_sub {env : Env V F} {G : Func V F} {cs : List (Option V)} (hs : Sub G.preset cs) : Sub (newPreset env G cs) cs := by
  intro i v h
  unfold newPreset at h
  split at h
  · rw [List.getElem?_zipWith] at h
    cases hp : G.preset[i]? with
    | none => rw [hp] at h; cases h
    | some p =>
      rw [hp] at h
      cases hc : (cs ++ List.replicate G.preset.length none)[i]? with
      | none => rw [hc] at h; cases h
      | some c =>
        rw [hc] at h
        simp only [Option.some.injEq] at h
        cases p with
        | some u =>
          cases h
          exact hs i v hp
        | none =>
          simp only [Option.none_or, Option.orElse_eq_orElse, Option.orElse_eq_or] at h
          subst h
          rcases Nat.lt_or_ge i cs.length with hlt | hge
          · rwa [List.getElem?_append_left hlt] at hc
          · rw [List.getElem?_append_right hge] at hc
            have := List.mem_of_getElem? hc
            simp at this
  · exact hs i v h

theorem newPreset_eq {env : Env V F} {G : Func V F} {cs : List (Option V)} (h : insertsConst env G cs = false) : newPreset env G cs = G.preset := by
  unfold newPreset
  split
  · next hc =>
    unfold insertsConst at h
    rw [hc, Bool.true_and] at h
    apply List.ext_getElem?
    intro i
    rw [List.getElem?_zipWith]
    cases hp : G.preset[i]? with
    | none => rfl
    | some p =>
      have hlt : i < (cs ++ List.replicate G.preset.length none).length := by
        have := (List.getElem?_eq_some_iff.1 hp).1
        simp
        omega
      have hn : (cs ++ List.replicate G.preset.length none)[i] = none := by
        have hm := List.getElem_mem hlt
        rw [List.mem_append] at hm
        rcases hm with hm | hm
        · have := List.any_eq_false.1 h _ hm
          simpa using this
        · exact (List.mem_replicate.1 hm).2
      rw [List.getElem?_eq_getElem hlt, hn]
      cases p <;> rfl
  · rfl

theorem upd_self (m : String → Option (Func V F)) (g : String) (G : Func V F) : upd m g G g = some G := by simp [upd]
theorem upd_ne (m : String → Option (Func V F)) {g x : String} (G : Func V F) (h : x ≠ g) : upd m g G x = m x := by simp [upd, h]

/-- What a change of the state leaves in place. -/
theorem inv_create {sem : Sem V F W} {env : Env V F} {P : String → Option (Func V F)} {cfg : Cfg V F} (hs : Sound sem env) (hi : Inv sem P cfg) {g : String} {G : Func V F}
    (hg : cfg.funcs g = some G) (hd : 1 ≤ dashes g) (ts : List Ty) (cs : List (Option V)) : Inv sem P { (create env cfg g G ts cs).2 with templates := g :: cfg.templates } := by
  have hnew := hi.new hd
  have hold : ∀ {x X}, cfg.funcs x = some X → (create env cfg g G ts cs).2.funcs x = some X := by
    intro x X hx
    show upd _ _ _ x = _
    rw [upd_ne _ _ (by rintro rfl; rw [hnew] at hx; cases hx)]
    exact hx
  have hself : (create env cfg g G ts cs).2.funcs (uniqueName g cfg.next) = some ⟨ts, newPreset env G cs, env.canon (newPreset env G cs) G.body⟩ := upd_self _ _ _
  have hcase : ∀ {x X}, (create env cfg g G ts cs).2.funcs x = some X → (x = uniqueName g cfg.next ∧ X = ⟨ts, newPreset env G cs, env.canon (newPreset env G cs) G.body⟩) ∨ cfg.funcs x = some X := by
    intro x X hx
    by_cases he : x = uniqueName g cfg.next
    · subst he
      rw [hself] at hx
      exact .inl ⟨rfl, (Option.some.inj hx).symm⟩
    · right
      have : upd _ _ _ x = some X := hx
      rwa [upd_ne _ _ he] at this
  constructor
  · intro x Fn hx
    obtain ⟨X, h1, h2⟩ := hi.dom x Fn hx
    exact ⟨X, hold h1, h2⟩
  · intro x X hx
    rcases hcase hx with ⟨rfl, rfl⟩ | hx
    · obtain ⟨Fn, h1, h2, h3⟩ := hi.func g G hg
      refine ⟨Fn, by rw [origin_uniqueName _ hd]; exact h1, by rw [← h2]; exact newPreset_length env G cs, ?_⟩
      intro co hco vs w hl ha
      simp only at hl ha ⊢
      rw [hs.eval co _ _ _ _ hl.symm ha]
      exact h3 co hco vs w (by rw [hl, newPreset_length]) ((newPreset_sup env G cs).agree ha)
    · exact hi.func x X hx
  · intro x X hx h' cs' hm
    rcases hcase hx with ⟨rfl, rfl⟩ | hx
    · obtain ⟨cs1, hm1, hs1⟩ := hs.calls _ _ _ _ hm
      obtain ⟨cs0, hm0, hs0⟩ := calls_mono _ G.preset _ (newPreset_length env G cs).symm (newPreset_sup env G cs) _ _ hm1
      obtain ⟨h1, H, h2, h3⟩ := hi.call g G hg h' cs0 hm0
      exact ⟨h1, H, hold h2, h3.trans (hs0.trans hs1)⟩
    · obtain ⟨h1, H, h2, h3⟩ := hi.call x X hx h' cs' hm
      exact ⟨h1, H, hold h2, h3⟩
  · intro x h' hm
    have hm : (x, h') ∈ (if insertsConst env G cs then cfg.specialised else cfg.specialised ++ [(g, uniqueName g cfg.next)]) := hm
    have hm : (x, h') ∈ cfg.specialised ∨ (insertsConst env G cs = false ∧ x = g ∧ h' = uniqueName g cfg.next) := by
      split at hm
      · exact .inl hm
      · next hc =>
        rcases List.mem_append.1 hm with hm | hm
        · exact .inl hm
        · simp only [List.mem_singleton, Prod.mk.injEq] at hm
          exact .inr ⟨by simpa using hc, hm⟩
    rcases hm with hm | ⟨hc, rfl, rfl⟩
    · obtain ⟨h1, h2, X, H, h3, h4, h5⟩ := hi.spec x h' hm
      exact ⟨h1, h2, X, H, hold h3, hold h4, h5⟩
    · refine ⟨origin_uniqueName _ hd, by rw [dashes_uniqueName]; omega, G, _, hold hg, hself, newPreset_eq hc⟩
  · intro x X hx
    rcases hcase hx with ⟨rfl, rfl⟩ | hx
    · exact .inr ⟨g, cfg.next, rfl, Nat.lt_succ_self _⟩
    · rcases hi.fresh x X hx with h | ⟨h, n, h1, h2⟩
      · exact .inl h
      · exact .inr ⟨h, n, h1, Nat.lt_succ_of_lt h2⟩
  · intro x hx
    rcases List.mem_cons.1 hx with rfl | hx
    · exact hd
    · exact hi.tmpl x hx

theorem inv_redirect {sem : Sem V F W} {P : String → Option (Func V F)} {cfg : Cfg V F} (hi : Inv sem P cfg) {f : String} {Fn : Func V F} (hf : cfg.funcs f = some Fn) {i : Nat} {g h : String}
    {cs : List (Option V)} (hc : (calls Fn.body Fn.preset)[i]? = some (g, cs)) {H : Func V F} (hh : cfg.funcs h = some H) (hs : Sub H.preset cs) (ho : origin h = origin g) (hd : 1 ≤ dashes h) :
    Inv sem P (redirect cfg f Fn i h) := by
  have hself : (redirect cfg f Fn i h).funcs f = some { Fn with body := setCall h Fn.body i } := upd_self _ _ _
  have hne : ∀ {x}, x ≠ f → (redirect cfg f Fn i h).funcs x = cfg.funcs x := fun hx => upd_ne _ _ hx
  have hold : ∀ {x X}, cfg.funcs x = some X → ∃ X', (redirect cfg f Fn i h).funcs x = some X' ∧ X'.preset = X.preset ∧ X'.tys = X.tys := by
    intro x X hx
    by_cases he : x = f
    · subst he
      obtain rfl := Option.some.inj (hf.symm.trans hx)
      exact ⟨_, hself, rfl, rfl⟩
    · exact ⟨X, by rw [hne he]; exact hx, rfl, rfl⟩
  constructor
  · intro x Gx hx
    obtain ⟨X, h1, h2, h3⟩ := hi.dom x Gx hx
    obtain ⟨X', h4, h5, h6⟩ := hold h1
    exact ⟨X', h4, h6.trans h2, h5.trans h3⟩
  · intro x X hx
    by_cases he : x = f
    · subst he
      rw [hself] at hx
      obtain rfl := Option.some.inj hx
      obtain ⟨F0, h1, h2, h3⟩ := hi.func x Fn hf
      refine ⟨F0, h1, h2, fun co hco vs w hl ha => ?_⟩
      rw [eval_setCall sem co h _ _ i hc (by rw [hco h, hco g, ho])]
      exact h3 co hco vs w hl ha
    · rw [hne he] at hx
      exact hi.func x X hx
  · intro x X hx h' cs' hm
    have : 1 ≤ dashes h' ∧ ∃ H, cfg.funcs h' = some H ∧ Sub H.preset cs' := by
      by_cases he : x = f
      · subst he
        rw [hself] at hx
        obtain rfl := Option.some.inj hx
        simp only at hm
        rw [calls_setCall h _ _ i hc] at hm
        rcases List.mem_or_eq_of_mem_set hm with hm | hm
        · exact hi.call x Fn hf h' cs' hm
        · cases hm
          exact ⟨hd, H, hh, hs⟩
      · rw [hne he] at hx
        exact hi.call x X hx h' cs' hm
    obtain ⟨h1, H', h2, h3⟩ := this
    obtain ⟨X', h4, h5, h6⟩ := hold h2
    exact ⟨h1, X', h4, by rw [h5]; exact h3⟩
  · intro x h' hm
    obtain ⟨h1, h2, X, H', h3, h4, h5⟩ := hi.spec x h' hm
    obtain ⟨X', h6, h7, h8⟩ := hold h3
    obtain ⟨H'', h9, h10, h11⟩ := hold h4
    exact ⟨h1, h2, X', H'', h6, h9, by rw [h10, h7, h5]⟩
  · intro x X hx
    by_cases he : x = f
    · subst he
      exact hi.fresh x Fn hf
    · rw [hne he] at hx
      exact hi.fresh x X hx
  · exact hi.tmpl

/-- Parts of the state that the invariant does not mention. -/
theorem inv_other {sem : Sem V F W} {P : String → Option (Func V F)} {cfg : Cfg V F} (hi : Inv sem P cfg) (vs ca : List String) : Inv sem P { cfg with visited := vs, called := ca } :=
  ⟨hi.dom, hi.func, hi.call, hi.spec, hi.fresh, hi.tmpl⟩

/-- The result of `createOrReuse`. -/
theorem createOrReuse_spec {sem : Sem V F W} {env : Env V F} {P : String → Option (Func V F)} {cfg : Cfg V F} (hs : Sound sem env) (hi : Inv sem P cfg) {g : String} {G : Func V F}
    (hg : cfg.funcs g = some G) (hd : 1 ≤ dashes g) {ts : List Ty} {cs : List (Option V)} (hsub : Sub G.preset cs) {r : String × Cfg V F} (h : createOrReuse env cfg g G ts cs = .ok r) :
    Inv sem P r.2 ∧ origin r.1 = origin g ∧ 2 ≤ dashes r.1 ∧ (∃ H, r.2.funcs r.1 = some H ∧ Sub H.preset cs) ∧
    (∀ x X, cfg.funcs x = some X → r.2.funcs x = some X) ∧ (∀ x X, r.2.funcs x = some X → cfg.funcs x = some X ∨ (x = r.1 ∧ ∀ h' cs', (h', cs') ∈ calls X.body X.preset → ∃ cs0, (h', cs0) ∈ calls G.body G.preset)) ∧
    r.2.visited = cfg.visited ∧ r.2.called = cfg.called ∧ r.2.templates = g :: cfg.templates := by
  unfold createOrReuse at h
  split at h
  · next h0 hr =>
    cases h
    unfold reuse at hr
    split at hr
    · cases hr
    · rw [Option.map_eq_some_iff] at hr
      obtain ⟨⟨g', h'⟩, hf, rfl⟩ := hr
      have hm := List.mem_of_find?_eq_some hf
      have hp := List.find?_some hf
      simp only [Bool.and_eq_true, decide_eq_true_eq] at hp
      obtain ⟨rfl, -⟩ := hp
      obtain ⟨h1, h2, G', H, h3, h4, h5⟩ := hi.spec _ _ hm
      obtain rfl := Option.some.inj (hg.symm.trans h3)
      refine ⟨⟨hi.dom, hi.func, hi.call, hi.spec, hi.fresh, ?_⟩, h1, h2, ⟨H, h4, by rw [h5]; exact hsub⟩, fun x X hx => hx, fun x X hx => .inl hx, rfl, rfl, rfl⟩
      intro x hx
      rcases List.mem_cons.1 hx with rfl | hx
      · exact hd
      · exact hi.tmpl x hx
  · split at h
    · cases h
      refine ⟨inv_create hs hi hg hd ts cs, origin_uniqueName _ hd, ?_, ⟨_, upd_self _ _ _, newPreset_sub hsub⟩, ?_, ?_, rfl, rfl, rfl⟩
      · show 2 ≤ dashes (uniqueName _ _)
        rw [dashes_uniqueName]
        omega
      · intro x X hx
        show upd _ _ _ x = _
        rw [upd_ne _ _ (by rintro rfl; rw [hi.new hd] at hx; cases hx)]
        exact hx
      · intro x X hx
        by_cases he : x = uniqueName g cfg.next
        · right
          refine ⟨he, ?_⟩
          subst he
          have hx : upd _ _ _ _ = some X := hx
          rw [upd_self] at hx
          cases hx
          intro h' cs' hm
          obtain ⟨cs1, hm1, -⟩ := hs.calls _ _ _ _ hm
          obtain ⟨cs0, hm0, -⟩ := calls_mono _ G.preset _ (newPreset_length env G cs).symm (newPreset_sup env G cs) _ _ hm1
          exact ⟨cs0, hm0⟩
        · left
          have : upd _ _ _ x = some X := hx
          rwa [upd_ne _ _ he] at this
    · cases h

end Verif.Special
