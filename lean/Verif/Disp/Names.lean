/-
  Kernel catalog files: C++ type names and entries (C319, C320).
-/
import Verif.Disp.Call

namespace Verif.Disp

/-- The name of a class. -/
def clsName : Cls → Option (List Char)
  | .value v => vtName v
  | .denseMatrix v => (eltName v).map fun n => ['D', 'e', 'n', 's', 'e', 'M', 'a', 't', 'r', 'i', 'x', '<'] ++ (n ++ ['>'])
  | .csrMatrix v => (eltName v).map fun n => ['C', 'S', 'R', 'M', 'a', 't', 'r', 'i', 'x', '<'] ++ (n ++ ['>'])
  | .frame => some ['F', 'r', 'a', 'm', 'e']
  | .column v => (eltName v).map fun n => ['C', 'o', 'l', 'u', 'm', 'n', '<'] ++ (n ++ ['>'])
  | .list c => (clsName c).map fun n => ['L', 'i', 's', 't', '<'] ++ (n ++ ['>'])
  | .memref v r =>
    (vtName v).map fun n => ['S', 't', 'r', 'i', 'd', 'e', 'd', 'M', 'e', 'm', 'R', 'e', 'f', 'T', 'y', 'p', 'e', '<'] ++ (n ++ (',' :: (Nat.toDigits 10 r ++ ['>'])))
  | .structure => some ['S', 't', 'r', 'u', 'c', 't', 'u', 'r', 'e']
  | .context => some ['D', 'a', 'p', 'h', 'n', 'e', 'C', 'o', 'n', 't', 'e', 'x', 't']
  | .file => some ['F', 'i', 'l', 'e']
  | .descriptor => some ['D', 'e', 's', 'c', 'r', 'i', 'p', 't', 'o', 'r']
  | .target => some ['T', 'a', 'r', 'g', 'e', 't']

theorem cppName_cls (t : Ty) : cppName t = clsName (cls t) := by
  induction t with
  | matrix v r c s rep sym => cases rep <;> rfl
  | list e ih => simp only [cppName, cls, clsName, ih]
  | _ => rfl

theorem vtName_inj (v v' : Vt) (n : List Char) (h : vtName v = some n) (h' : vtName v' = some n) : v = v' := by
  cases v <;> cases v' <;> first | rfl | exact absurd (h.trans h'.symm) (by decide)

theorem eltName_inj (v v' : Vt) (n : List Char) (h : eltName v = some n) (h' : eltName v' = some n) : v = v' := by
  cases v <;> cases v' <;> first | rfl | exact absurd (h.trans h'.symm) (by decide)

/-- The kind of a class. -/
def kind : Cls → Nat
  | .value _ => 0
  | .denseMatrix _ => 1
  | .csrMatrix _ => 2
  | .frame => 3
  | .column _ => 4
  | .list _ => 5
  | .memref _ _ => 6
  | .structure => 7
  | .context => 8
  | .file => 9
  | .descriptor => 10
  | .target => 11

/-- The kind, read off the first letters of a name. -/
def kindOf : List Char → Nat
  | 'D' :: 'e' :: 'n' :: _ => 1
  | 'C' :: 'S' :: _ => 2
  | 'F' :: 'r' :: _ => 3
  | 'C' :: 'o' :: _ => 4
  | 'L' :: _ => 5
  | 'S' :: 't' :: 'r' :: 'i' :: _ => 6
  | 'S' :: 't' :: 'r' :: 'u' :: _ => 7
  | 'D' :: 'a' :: _ => 8
  | 'F' :: 'i' :: _ => 9
  | 'D' :: 'e' :: 's' :: _ => 10
  | 'T' :: _ => 11
  | _ => 0

theorem kindOf_name (c : Cls) (n : List Char) (h : clsName c = some n) : kindOf n = kind c := by
  cases c with
  | value v => cases v <;> simp only [clsName, vtName, Option.some.injEq, reduceCtorEq] at h <;> subst h <;> rfl
  | _ =>
    simp only [clsName, Option.some.injEq, Option.map_eq_some_iff] at h
    first
      | (subst h; rfl)
      | (obtain ⟨m, -, rfl⟩ := h; rfl)

theorem digits_inj (a b : Nat) (h : Nat.toDigits 10 a = Nat.toDigits 10 b) : a = b := by
  have h1 := Nat.ofDigitChars_toDigits (b := 10) (n := a) (by decide) (by decide)
  have h2 := Nat.ofDigitChars_toDigits (b := 10) (n := b) (by decide) (by decide)
  rw [← h1, ← h2, h]

theorem clsName_inj (c c' : Cls) (n : List Char) (h : clsName c = some n) (h' : clsName c' = some n) : c = c' := by
  induction c generalizing c' n with
  | list c ih =>
    have hk := (kindOf_name _ n h).symm.trans (kindOf_name _ n h')
    cases c' with
    | list d =>
      simp only [clsName, Option.map_eq_some_iff] at h h'
      obtain ⟨m, h1, rfl⟩ := h
      obtain ⟨m', h2, e⟩ := h'
      have e := List.append_cancel_right (List.append_cancel_left e)
      subst e
      rw [ih d _ h1 h2]
    | _ => simp [kind] at hk
  | value v =>
    have hk := (kindOf_name _ n h).symm.trans (kindOf_name _ n h')
    cases c' with
    | value v' => rw [vtName_inj v v' n h h']
    | _ => simp [kind] at hk
  | memref v r =>
    have hk := (kindOf_name _ n h).symm.trans (kindOf_name _ n h')
    cases c' with
    | memref v' r' =>
      simp only [clsName, Option.map_eq_some_iff] at h h'
      obtain ⟨m, h1, rfl⟩ := h
      obtain ⟨m', h2, e⟩ := h'
      have e := List.append_cancel_left e
      have hno : ∀ (v : Vt) (m : List Char), vtName v = some m → ∀ c ∈ m, c ≠ ',' := by
        intro v m hv
        cases v <;> simp only [vtName, Option.some.injEq, reduceCtorEq] at hv <;> subst hv <;> decide
      have key : ∀ (a b x y : List Char), (∀ c ∈ a, c ≠ ',') → (∀ c ∈ b, c ≠ ',') → a ++ ',' :: x = b ++ ',' :: y → a = b ∧ x = y := by
        intro a
        induction a with
        | nil =>
          intro b x y _ hb e
          cases b with
          | nil => exact ⟨rfl, by simpa using e⟩
          | cons c b => simp at e; exact absurd e.1.symm (hb c (by simp))
        | cons c a iha =>
          intro b x y ha hb e
          cases b with
          | nil => simp at e; exact absurd e.1 (ha c (by simp))
          | cons d b =>
            simp only [List.cons_append, List.cons.injEq] at e
            obtain ⟨rfl, e⟩ := e
            obtain ⟨rfl, rfl⟩ := iha b x y (fun c hc => ha c (by simp [hc])) (fun c hc => hb c (by simp [hc])) e
            exact ⟨rfl, rfl⟩
      obtain ⟨e1, e2⟩ := key _ _ _ _ (hno _ _ h2) (hno _ _ h1) e
      subst e1
      rw [vtName_inj v v' _ h1 h2, digits_inj _ _ (List.append_cancel_right e2).symm]
    | _ => simp [kind] at hk
  | denseMatrix v | csrMatrix v | column v =>
    have hk := (kindOf_name _ n h).symm.trans (kindOf_name _ n h')
    cases c' <;> first
      | (simp [kind] at hk; done)
      | (simp only [clsName, Option.map_eq_some_iff] at h h'
         obtain ⟨m, h1, rfl⟩ := h
         obtain ⟨m', h2, e⟩ := h'
         have e := List.append_cancel_right (List.append_cancel_left e)
         subst e
         rw [eltName_inj _ _ _ h1 h2])
  | _ =>
    have hk := (kindOf_name _ n h).symm.trans (kindOf_name _ n h')
    cases c' <;> first | rfl | (simp [kind] at hk; done)

/-- The value type inside is known, if there is one. -/
def KnownVt : Cls → Prop
  | .value v | .denseMatrix v | .csrMatrix v | .column v | .memref v _ => v ≠ .unknown
  | .list c => KnownVt c
  | _ => True

theorem clsName_some (c : Cls) : (clsName c).isSome ↔ KnownVt c := by
  induction c with
  | list c ih => simp [clsName, KnownVt, ih]
  | value v => cases v <;> simp [clsName, vtName, KnownVt]
  | denseMatrix v => cases v <;> simp [clsName, eltName, vtName, KnownVt]
  | csrMatrix v => cases v <;> simp [clsName, eltName, vtName, KnownVt]
  | column v => cases v <;> simp [clsName, eltName, vtName, KnownVt]
  | memref v r => cases v <;> simp [clsName, vtName, KnownVt]
  | _ => simp [clsName, KnownVt]

/-- **C319.** The C++ type names of kernel catalogs identify the classes of run-time objects: two types (lists nested to any depth) have the same name exactly if their
objects are of the same class, and every type whose value type is known has a name. -/
theorem C319_type_names (t t' : Ty) :
    ((cppName t).isSome ↔ KnownVt (cls t)) ∧ (KnownVt (cls t) → (cppName t = cppName t' ↔ cls t = cls t')) := by
  rw [cppName_cls, cppName_cls]
  refine ⟨clsName_some _, fun hk => ⟨fun h => ?_, fun h => by rw [h]⟩⟩
  obtain ⟨n, hn⟩ := Option.isSome_iff_exists.mp ((clsName_some _).mpr hk)
  exact clsName_inj _ _ n hn (by rw [← h, hn])

/-! ### Catalog files -/

/-- A type name stands for a type: one of those the parser enters. -/
def Denotes (n : List Char) (t : Ty) : Prop := t ∈ catalogTypes ∧ cppName t = some n

theorem catalog_normal : ∀ t ∈ catalogTypes, norm false t = some t := by decide

theorem catalog_named : ∀ t ∈ catalogTypes, (cppName t).isSome := by decide

theorem catalog_inj (t t' : Ty) (h : t ∈ catalogTypes) (h' : t' ∈ catalogTypes) (n : List Char) (e : cppName t = some n) (e' : cppName t' = some n) : t = t' := by
  rw [cppName_cls] at e e'
  exact norm_of_cls t t' t t' (catalog_normal t h) (catalog_normal t' h') (clsName_inj _ _ n e e')

theorem typeMap_ok (all ts : List Ty) (m : List (List Char × Ty)) (hsub : ∀ t ∈ ts, t ∈ all) (hnamed : ∀ t ∈ all, (cppName t).isSome)
    (hm : ∀ e ∈ m, e.2 ∈ all ∧ cppName e.2 = some e.1) :
    ∃ m', typeMap ts m = some m' ∧ (∀ e ∈ m', e.2 ∈ all ∧ cppName e.2 = some e.1) ∧ (∀ e ∈ m, ∃ e' ∈ m', e'.1 = e.1) ∧
      ∀ t ∈ ts, ∃ e ∈ m', cppName t = some e.1 := by
  induction ts generalizing m with
  | nil => exact ⟨m, rfl, hm, fun e he => ⟨e, he, rfl⟩, by simp⟩
  | cons t ts ih =>
    obtain ⟨n, hn⟩ := Option.isSome_iff_exists.mp (hnamed t (hsub t List.mem_cons_self))
    have hm2 : ∀ e ∈ (if m.any (fun e => decide (e.1 = n)) then m else m ++ [(n, t)]), e.2 ∈ all ∧ cppName e.2 = some e.1 := by
      split
      · exact hm
      · intro e he
        rw [List.mem_append, List.mem_singleton] at he
        rcases he with he | rfl
        · exact hm e he
        · exact ⟨hsub t List.mem_cons_self, hn⟩
    obtain ⟨m', h1, h2, h3, h4⟩ := ih _ (fun t ht => hsub t (List.mem_cons_of_mem _ ht)) hm2
    refine ⟨m', by simp only [typeMap, hn, Option.bind_some]; exact h1, h2, ?_, ?_⟩
    · intro e he
      apply h3
      split
      · exact he
      · exact List.mem_append_left _ he
    · intro t' ht'
      rcases List.mem_cons.mp ht' with rfl | ht'
      · have : ∃ e ∈ (if m.any (fun e => decide (e.1 = n)) then m else m ++ [(n, t')]), e.1 = n := by
          split
          · rename_i h
            rw [List.any_eq_true] at h
            obtain ⟨e, he, h⟩ := h
            exact ⟨e, he, by simpa using h⟩
          · exact ⟨_, List.mem_append_right _ List.mem_cons_self, rfl⟩
        obtain ⟨e, he, he'⟩ := this
        obtain ⟨e2, h5, h6⟩ := h3 e he
        exact ⟨e2, h5, by rw [hn, h6, he']⟩
      · exact h4 t' ht'

theorem typeMap_exists : ∃ m, typeMap catalogTypes [] = some m ∧ ∀ n t, findTy m n = some t ↔ Denotes n t := by
  obtain ⟨m, h1, h2, -, h4⟩ := typeMap_ok catalogTypes catalogTypes [] (fun _ h => h) catalog_named (by simp)
  refine ⟨m, h1, fun n t => ⟨fun h => ?_, fun h => ?_⟩⟩
  · simp only [findTy, Option.map_eq_some_iff] at h
    obtain ⟨e, he, rfl⟩ := h
    have hn : e.1 = n := by simpa using List.find?_some he
    have := h2 e (List.mem_of_find?_eq_some he)
    rw [hn] at this
    exact this
  · obtain ⟨e, he, hn⟩ := h4 t h.1
    have hn' : e.1 = n := by rw [h.2] at hn; exact (Option.some.inj hn).symm
    unfold findTy
    cases hf : m.find? (fun e => decide (e.1 = n)) with
    | none => rw [List.find?_eq_none] at hf; exact absurd (by simp [hn']) (hf e he)
    | some e' =>
      have hn2 : e'.1 = n := by simpa using List.find?_some hf
      have h5 := h2 e' (List.mem_of_find?_eq_some hf)
      simp only [Option.map_some, Option.some.injEq]
      exact catalog_inj _ _ h5.1 h.1 n (by rw [h5.2, hn2]) h.2

/-- The two operations whose entries are skipped. -/
def Skipped (e : Entry) : Prop := e.op = ['A', 'v', 'g', '_', 'F', 'o', 'r', 'w', 'a', 'r', 'd'] ∨ e.op = ['M', 'a', 'x', '_', 'F', 'o', 'r', 'w', 'a', 'r', 'd']

instance : DecidablePred Skipped := fun e => by unfold Skipped; infer_instance

/-- An entry of a catalog file as the kernel it describes. -/
def Loaded (dir : List Char) (prio : ℤ) (e : Entry) (r : List Char × Kernel) : Prop :=
  r.1 = e.op ∧ r.2.name = e.name ∧ r.2.backend = e.backend ∧ r.2.lib = dir ++ e.lib ∧ r.2.prio = prio ∧
    List.Forall₂ Denotes e.args r.2.args ∧ List.Forall₂ Denotes e.res r.2.res

theorem mapM_findTy (m : List (List Char × Ty)) (hm : ∀ n t, findTy m n = some t ↔ Denotes n t) (ns : List (List Char)) :
    (∃ ts, ns.mapM (findTy m) = some ts ∧ List.Forall₂ Denotes ns ts) ∨ (ns.mapM (findTy m) = none ∧ ∃ n ∈ ns, ∀ t, ¬ Denotes n t) := by
  induction ns with
  | nil => exact .inl ⟨[], rfl, .nil⟩
  | cons n ns ih =>
    cases hf : findTy m n with
    | none =>
      right
      refine ⟨by simp [List.mapM_cons, hf], n, List.mem_cons_self, fun t ht => ?_⟩
      rw [(hm n t).mpr ht] at hf
      cases hf
    | some t =>
      rcases ih with ⟨ts, h1, h2⟩ | ⟨h1, n', h2, h3⟩
      · exact .inl ⟨t :: ts, by simp [List.mapM_cons, hf, h1], .cons ((hm n t).mp hf) h2⟩
      · exact .inr ⟨by simp [List.mapM_cons, hf, h1], n', List.mem_cons_of_mem _ h2, h3⟩

theorem build_append (h : List (List Char × Kernel)) (e : List Char × Kernel) : build (h ++ [e]) = register (build h) e.1 e.2 := by
  simp [build, List.foldl_append]

theorem parse_ok (m : List (List Char × Ty)) (hm : ∀ n t, findTy m n = some t ↔ Denotes n t) (dir : List Char) (prio : ℤ)
    (es : List Entry) (h : List (List Char × Kernel)) :
    (∃ h', parseEntries m dir prio (build h) es = (build (h ++ h'), true) ∧ List.Forall₂ (Loaded dir prio) (es.filter fun e => ¬ Skipped e) h') ∨
    (∃ h' es1 e es2, es = es1 ++ e :: es2 ∧ ¬ Skipped e ∧ (∃ n ∈ e.res ++ e.args, ∀ t, ¬ Denotes n t) ∧
      parseEntries m dir prio (build h) es = (build (h ++ h'), false) ∧ List.Forall₂ (Loaded dir prio) (es1.filter fun e => ¬ Skipped e) h') := by
  induction es generalizing h with
  | nil => exact .inl ⟨[], by simp [parseEntries], .nil⟩
  | cons e es ih =>
    by_cases hs : Skipped e
    · have hs' := hs
      unfold Skipped at hs'
      rcases ih h with ⟨h', h1, h2⟩ | ⟨h', es1, e', es2, h0, h1, h2, h3, h4⟩
      · exact .inl ⟨h', by rw [parseEntries, if_pos hs']; exact h1, by simpa [hs] using h2⟩
      · exact .inr ⟨h', e :: es1, e', es2, by rw [h0]; rfl, h1, h2, by rw [parseEntries, if_pos hs']; exact h3, by simpa [hs] using h4⟩
    · have hs' := hs
      unfold Skipped at hs'
      rcases mapM_findTy m hm e.res with ⟨r, hr1, hr2⟩ | ⟨hr1, n, hr2, hr3⟩
      · rcases mapM_findTy m hm e.args with ⟨a, ha1, ha2⟩ | ⟨ha1, n, ha2, ha3⟩
        · have hp : parseEntries m dir prio (build h) (e :: es) =
              parseEntries m dir prio (build (h ++ [(e.op, ⟨e.name, r, a, e.backend, dir ++ e.lib, prio⟩)])) es := by
            rw [parseEntries, if_neg hs', hr1, ha1, build_append]
          have hl : Loaded dir prio e (e.op, ⟨e.name, r, a, e.backend, dir ++ e.lib, prio⟩) := ⟨rfl, rfl, rfl, rfl, rfl, ha2, hr2⟩
          rcases ih (h ++ [(e.op, ⟨e.name, r, a, e.backend, dir ++ e.lib, prio⟩)]) with ⟨h', h1, h2⟩ | ⟨h', es1, e', es2, h0, h1, h2, h3, h4⟩
          · refine .inl ⟨(e.op, ⟨e.name, r, a, e.backend, dir ++ e.lib, prio⟩) :: h', ?_, ?_⟩
            · rw [hp, h1, List.append_assoc]; rfl
            · rw [List.filter_cons, if_pos (by simpa using hs)]
              exact .cons hl h2
          · refine .inr ⟨(e.op, ⟨e.name, r, a, e.backend, dir ++ e.lib, prio⟩) :: h', e :: es1, e', es2, by rw [h0]; rfl, h1, h2, ?_, ?_⟩
            · rw [hp, h3, List.append_assoc]; rfl
            · rw [List.filter_cons, if_pos (by simpa using hs)]
              exact .cons hl h4
        · refine .inr ⟨[], [], e, es, rfl, hs, ⟨n, List.mem_append_right _ ha2, ha3⟩, ?_, .nil⟩
          rw [parseEntries, if_neg hs', hr1, ha1, List.append_nil]
      · refine .inr ⟨[], [], e, es, rfl, hs, ⟨n, List.mem_append_left _ hr2, hr3⟩, ?_, .nil⟩
        rw [parseEntries, if_neg hs', hr1, List.append_nil]

/-- **C320.** Loading a kernel catalog file registers, after the kernels registered before, those of its entries in order (but those of two skipped operations), each
under its operation, with the types its type names stand for, its backend, name and library and the priority of the file. The first entry with a type name that stands for no type ends the
loading with an error; the entries before it stay registered. All parameter types are look-up types, as C315 requires. -/
theorem C320_catalog_files (dir : List Char) (prio : ℤ) (es : List Entry) (h : List (List Char × Kernel)) :
    ∃ m, typeMap catalogTypes [] = some m ∧
      ((∃ h', parseEntries m dir prio (build h) es = (build (h ++ h'), true) ∧ List.Forall₂ (Loaded dir prio) (es.filter fun e => ¬ Skipped e) h' ∧
          (Normal h → Normal (h ++ h'))) ∨
        (∃ h' es1 e es2, es = es1 ++ e :: es2 ∧ ¬ Skipped e ∧ (∃ n ∈ e.res ++ e.args, ∀ t, ¬ Denotes n t) ∧
          parseEntries m dir prio (build h) es = (build (h ++ h'), false) ∧ List.Forall₂ (Loaded dir prio) (es1.filter fun e => ¬ Skipped e) h')) := by
  obtain ⟨m, h1, h2⟩ := typeMap_exists
  refine ⟨m, h1, ?_⟩
  rcases parse_ok m h2 dir prio es h with ⟨h', h3, h4⟩ | h3
  · left
    refine ⟨h', h3, h4, ?_⟩
    intro hn e he
    rcases List.mem_append.mp he with he | he
    · exact hn e he
    · have hden : ∀ (ns : List (List Char)) (ts : List Ty), List.Forall₂ Denotes ns ts → ∀ p ∈ ts, norm false p = some p := by
        intro ns ts hf
        induction hf with
        | nil => simp
        | cons hd _ ih =>
          intro p hp
          rcases List.mem_cons.mp hp with rfl | hp
          · exact catalog_normal _ hd.1
          · exact ih p hp
      have hall : ∀ (xs : List Entry) (ys : List (List Char × Kernel)), List.Forall₂ (Loaded dir prio) xs ys → ∀ y ∈ ys, ∃ x, Loaded dir prio x y := by
        intro xs ys hf
        induction hf with
        | nil => simp
        | cons hd _ ih =>
          intro y hy
          rcases List.mem_cons.mp hy with rfl | hy
          · exact ⟨_, hd⟩
          · exact ih y hy
      obtain ⟨x, -, -, -, -, -, ha, hr⟩ := hall _ _ h4 e he
      intro p hp
      rcases List.mem_append.mp hp with hp | hp
      · exact hden _ _ ha p hp
      · exact hden _ _ hr p hp
  · exact .inr h3

/-! ### Examples -/

example : cppName (.list (.matrix .f64 (some 3) none none .sparse none)) = some "List<CSRMatrix<double>>".toList := rfl

example : Denotes "DenseMatrix<std::string>".toList (.matrix .string none none none .dense none) := ⟨by decide, rfl⟩

example : KnownVt (cls (.list (.matrix .f64 (some 3) none none .sparse none))) := by simp [KnownVt, cls]

end Verif.Disp
