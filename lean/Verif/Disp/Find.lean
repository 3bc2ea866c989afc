/-
  Which kernel is chosen (C313), and what the look-up types say (C314).
-/
import Verif.Disp.Model

namespace Verif.Disp

/-! ### Specification: classes of run-time objects -/

/-- The C++ class of a kernel parameter. -/
inductive Cls where
  | value (v : Vt)
  | denseMatrix (v : Vt)
  | csrMatrix (v : Vt)
  | frame
  | column (v : Vt)
  | list (c : Cls)
  | memref (v : Vt) (rank : Nat)
  | structure
  | context | file | descriptor | target
  deriving DecidableEq

/-- The class of the run-time object of a type: no shape, sparsity, symmetry, label or layout in it. -/
def cls : Ty → Cls
  | .sca v => .value v
  | .matrix v _ _ _ .dense _ => .denseMatrix v
  | .matrix v _ _ _ .sparse _ => .csrMatrix v
  | .frame .. => .frame
  | .column v _ => .column v
  | .list e => .list (cls e)
  | .memref s v _ => .memref v s.length
  | .struct => .structure
  | .context => .context
  | .file => .file
  | .descriptor => .descriptor
  | .target => .target

/-- Objects, which are passed as `Structure` where a kernel takes any of them. -/
def IsObject : Cls → Prop
  | .denseMatrix _ | .csrMatrix _ | .frame | .column _ | .list _ => True
  | _ => False

/-- Kernels take memrefs of rank one and two only. -/
def Supported : Cls → Prop
  | .memref _ rank => rank = 1 ∨ rank = 2
  | .list c => Supported c
  | _ => True

theorem isObj_iff (t : Ty) : isObj t = true ↔ IsObject (cls t) := by
  cases t <;> simp [isObj, cls, IsObject]
  rename_i rep sym
  cases rep <;> simp [cls]

theorem norm_false_some (t : Ty) : (norm false t).isSome ↔ Supported (cls t) := by
  induction t with
  | matrix v r c s rep sym => cases rep <;> simp [norm, cls, Supported]
  | list e ih => rw [norm]; simp [cls, Supported, ih]
  | memref s v l =>
    rw [norm]
    simp only [Bool.false_and, Bool.false_eq_true, if_false, cls, Supported]
    split
    · simp_all
    · split <;> simp_all
  | _ => simp [norm, cls, Supported]

theorem norm_true (t : Ty) (h : isObj t = false) : norm true t = norm false t := by
  cases t <;> simp_all [isObj, norm]

theorem norm_obj (t : Ty) (h : isObj t = true) : norm true t = some .struct := by
  cases t <;> simp_all [isObj, norm]

theorem norm_cls (t n : Ty) (h : norm false t = some n) : cls n = cls t := by
  induction t generalizing n with
  | matrix v r c s rep sym => simp [norm] at h; subst h; cases rep <;> rfl
  | list e ih =>
    rw [norm] at h
    simp only [Bool.false_and, Bool.false_eq_true, if_false, Option.map_eq_some_iff] at h
    obtain ⟨n', h1, rfl⟩ := h
    simp [cls, ih n' h1]
  | memref s v l =>
    rw [norm] at h
    simp only [Bool.false_and, Bool.false_eq_true, if_false] at h
    split at h
    · rename_i hl
      simp only [Option.some.injEq] at h
      subst h
      simp [cls, hl]
    · split at h
      · rename_i hl
        simp only [Option.some.injEq] at h
        subst h
        simp [cls, hl]
      · cases h
  | _ => simp [norm] at h; subst h; rfl

theorem norm_of_cls (t t' n n' : Ty) (h : norm false t = some n) (h' : norm false t' = some n') (hc : cls t = cls t') : n = n' := by
  induction t generalizing t' n n' with
  | matrix v r c s rep sym =>
    cases t' with
    | matrix v' r' c' s' rep' sym' =>
      simp [norm] at h h'
      subst h; subst h'
      cases rep <;> cases rep' <;> simp_all [cls]
    | _ => cases rep <;> simp [cls] at hc
  | list e ih =>
    cases t' with
    | list e' =>
      rw [norm] at h h'
      simp only [Bool.false_and, Bool.false_eq_true, if_false, Option.map_eq_some_iff] at h h'
      obtain ⟨m, h1, rfl⟩ := h
      obtain ⟨m', h2, rfl⟩ := h'
      simp only [cls, Cls.list.injEq] at hc
      rw [ih e' m m' h1 h2 hc]
    | matrix v r c s rep sym => cases rep <;> simp [cls] at hc
    | _ => simp [cls] at hc
  | memref s v l =>
    cases t' with
    | memref s' v' l' =>
      simp only [cls, Cls.memref.injEq] at hc
      rw [norm] at h h'
      simp only [Bool.false_and, Bool.false_eq_true, if_false, hc.1, hc.2] at h h'
      rw [h] at h'
      exact Option.some.inj h'
    | matrix v r c s rep sym => cases rep <;> simp [cls] at hc
    | _ => simp [cls] at hc
  | _ =>
    cases t' with
    | matrix v r c s rep sym => cases rep <;> simp [cls] at hc
    | _ => simp_all [cls, norm]

/-- **C314.** The types used for looking up kernels identify run-time classes: two types are looked up as the same exactly if their objects have the same class —
so neither shape, sparsity, symmetry, column labels nor frame schema matter, while value type, representation and rank always do. The look-up type is a
fixpoint, and exists unless a memref of another rank than one or two is involved. With generalization, the look-up type of an object is `Structure`, and that of anything
else is unchanged. -/
theorem C314_lookup_types (t t' : Ty) :
    ((norm false t).isSome ↔ Supported (cls t)) ∧
    (∀ n n', norm false t = some n → norm false t' = some n' → (n = n' ↔ cls t = cls t')) ∧
    (∀ n, norm false t = some n → norm false n = some n ∧ cls n = cls t) ∧
    (IsObject (cls t) → norm true t = some .struct) ∧ (¬ IsObject (cls t) → norm true t = norm false t) := by
  refine ⟨norm_false_some t, ?_, ?_, fun h => norm_obj t ((isObj_iff t).mpr h), fun h => norm_true t ?_⟩
  · intro n n' h h'
    refine ⟨?_, norm_of_cls t t' n n' h h'⟩
    rintro rfl
    rw [← norm_cls t n h, ← norm_cls t' n h']
  · intro n h
    have hc := norm_cls t n h
    refine ⟨?_, hc⟩
    have hs : (norm false n).isSome := by
      rw [norm_false_some, hc, ← norm_false_some, h]; rfl
    obtain ⟨m, hm⟩ := Option.isSome_iff_exists.mp hs
    rw [hm, norm_of_cls n t m n hm h hc]
  · cases hb : isObj t
    · rfl
    · exact absurd ((isObj_iff t).mp hb) h

/-! ### The search -/

theorem sameTys_iff (a b : List Ty) (h : a.length = b.length) : sameTys a b = true ↔ a = b := by
  induction a generalizing b with
  | nil => cases b with
    | nil => simp [sameTys]
    | cons _ _ => simp at h
  | cons x xs ih =>
    cases b with
    | nil => simp at h
    | cons y ys =>
      simp only [List.length_cons, Nat.add_right_cancel_iff] at h
      simp only [sameTys, List.cons.injEq]
      by_cases hxy : x = y
      · simp [hxy, ih ys h]
      · simp [hxy]

/-- A kernel is applicable: same parameter and result types, same backend. -/
def Fits (args res : List Ty) (backend : List Char) (k : Kernel) : Prop := k.args = args ∧ k.res = res ∧ k.backend = backend

theorem fits_iff (args res : List Ty) (b : List Char) (k : Kernel) : fits args res b k = true ↔ Fits args res b k := by
  unfold fits Fits
  split
  · simp_all
  · split
    · rename_i h1 h2
      refine ⟨fun h => (by simp at h), ?_⟩
      rintro ⟨rfl, -, -⟩
      exact absurd rfl h2
    · split
      · rename_i h1 h2 h3
        refine ⟨fun h => (by simp at h), ?_⟩
        rintro ⟨-, rfl, -⟩
        exact absurd rfl h3
      · rename_i h1 h2 h3
        simp only [ne_eq, not_not] at h1 h2 h3
        rw [Bool.and_eq_true, sameTys_iff _ _ h2, sameTys_iff _ _ h3]
        constructor
        · rintro ⟨rfl, rfl⟩
          exact ⟨rfl, rfl, h1⟩
        · rintro ⟨h4, h5, -⟩
          exact ⟨h4.symm, h5.symm⟩

/-- The kernels registered by a history of registrations. -/
def build (h : List (List Char × Kernel)) : Catalog := h.foldl (fun c e => register c e.1 e.2) []

theorem kernelInfos_register (c : Catalog) (o op : List Char) (k : Kernel) :
    kernelInfos (register c o k) op = kernelInfos c op ++ (if o = op then [k] else []) := by
  induction c with
  | nil => by_cases h : o = op <;> simp [register, kernelInfos, h]
  | cons e c ih =>
    obtain ⟨p, ks⟩ := e
    simp only [register]
    by_cases hp : p = o
    · subst hp
      by_cases h : p = op
      · simp [kernelInfos, h]
      · simp [kernelInfos, h]
    · simp only [if_neg hp, kernelInfos]
      by_cases h : p = op
      · subst h
        simp [Ne.symm hp]
      · simp only [if_neg h, ih]

theorem kernelInfos_build (h : List (List Char × Kernel)) (op : List Char) :
    kernelInfos (build h) op = (h.filter fun e => e.1 = op).map (·.2) := by
  unfold build
  suffices ∀ c, kernelInfos (h.foldl (fun c e => register c e.1 e.2) c) op = kernelInfos c op ++ (h.filter fun e => e.1 = op).map (·.2) by
    simpa [kernelInfos] using this []
  induction h with
  | nil => simp
  | cons e h ih =>
    intro c
    rw [List.foldl_cons, ih, kernelInfos_register]
    by_cases he : e.1 = op <;> simp [he]

/-- The chosen kernel among those of an operation: it fits, none before it has as high a priority, none after it a higher one. -/
def Best (P : Kernel → Prop) (ks : List Kernel) (k : Kernel) : Prop :=
  ∃ pre suf, ks = pre ++ k :: suf ∧ P k ∧ (∀ k' ∈ pre, P k' → k'.prio < k.prio) ∧ ∀ k' ∈ suf, P k' → k'.prio ≤ k.prio

theorem findLoop_ge (args res : List Ty) (b : List Char) (ks : List Kernel) (i : Nat) (idx prio : ℤ) (hi : -1 ≤ idx) :
    -1 ≤ findLoop args res b i ks idx prio := by
  induction ks generalizing i idx prio with
  | nil => exact hi
  | cons k ks ih =>
    simp only [findLoop]
    split
    · exact ih _ _ _ (by omega)
    · exact ih _ _ _ hi

/-- Invariant of the loop: `ks = done ++ todo`; the chosen position is the best of `done`. -/
theorem findLoop_inv (args res : List Ty) (b : List Char) (done todo : List Kernel) (idx prio : ℤ)
    (hinv : (idx = -1 ∧ ∀ k ∈ done, ¬ Fits args res b k) ∨
      ∃ pre k suf, done = pre ++ k :: suf ∧ idx = pre.length ∧ prio = k.prio ∧ Fits args res b k ∧
        (∀ k' ∈ pre, Fits args res b k' → k'.prio < k.prio) ∧ ∀ k' ∈ suf, Fits args res b k' → k'.prio ≤ k.prio) :
    (findLoop args res b done.length todo idx prio = -1 ∧ ∀ k ∈ done ++ todo, ¬ Fits args res b k) ∨
      ∃ pre k suf, done ++ todo = pre ++ k :: suf ∧ findLoop args res b done.length todo idx prio = pre.length ∧ Fits args res b k ∧
        (∀ k' ∈ pre, Fits args res b k' → k'.prio < k.prio) ∧ ∀ k' ∈ suf, Fits args res b k' → k'.prio ≤ k.prio := by
  induction todo generalizing done idx prio with
  | nil =>
    simp only [findLoop, List.append_nil]
    rcases hinv with h | ⟨pre, k, suf, h1, h2, -, h3, h4, h5⟩
    · exact .inl h
    · exact .inr ⟨pre, k, suf, h1, h2, h3, h4, h5⟩
  | cons k ks ih =>
    have hstep := ih (done ++ [k])
    simp only [List.length_append, List.length_singleton, List.append_assoc, List.singleton_append] at hstep
    simp only [findLoop]
    split
    · rename_i hc
      simp only [Bool.and_eq_true, fits_iff, Bool.or_eq_true, decide_eq_true_eq] at hc
      obtain ⟨hf, hp⟩ := hc
      apply hstep
      right
      refine ⟨done, k, [], rfl, rfl, rfl, hf, ?_, by simp⟩
      intro k' hk' hf'
      rcases hinv with ⟨-, h⟩ | ⟨pre, k0, suf, h1, h2, h3, h4, h5, h6⟩
      · exact absurd hf' (h k' hk')
      · have hgt : k.prio > k0.prio := by
          rcases hp with h | h
          · rw [h3] at h; exact h
          · omega
        rw [h1, List.mem_append, List.mem_cons] at hk'
        rcases hk' with h | rfl | h
        · have := h5 k' h hf'; omega
        · exact hgt
        · have := h6 k' h hf'; omega
    · rename_i hc
      apply hstep
      rcases hinv with ⟨h0, h⟩ | ⟨pre, k0, suf, h1, h2, h3, h4, h5, h6⟩
      · left
        refine ⟨h0, ?_⟩
        intro k' hk'
        rw [List.mem_append, List.mem_singleton] at hk'
        rcases hk' with hk' | rfl
        · exact h k' hk'
        · intro hf
          apply hc
          simp [fits_iff, hf, h0]
      · right
        refine ⟨pre, k0, suf ++ [k], by simp [h1], h2, h3, h4, h5, ?_⟩
        intro k' hk' hf'
        rw [List.mem_append, List.mem_singleton] at hk'
        rcases hk' with hk' | rfl
        · exact h6 k' hk' hf'
        · by_contra hlt
          apply hc
          have : (fits args res b k') = true := (fits_iff _ _ _ _).mpr hf'
          simp only [this, Bool.true_and, Bool.or_eq_true, decide_eq_true_eq]
          left
          rw [h3]
          omega

theorem findKernel_best (c : Catalog) (op : List Char) (args res : List Ty) (b : List Char) :
    (findKernel c op args res b = none ∧ ∀ k ∈ kernelInfos c op, ¬ Fits args res b k) ∨
      ∃ k, findKernel c op args res b = some k ∧ Best (Fits args res b) (kernelInfos c op) k := by
  have h := findLoop_inv args res b [] (kernelInfos c op) (-1) (-2 ^ 63) (.inl ⟨rfl, by simp⟩)
  simp only [List.length_nil, List.nil_append] at h
  unfold findKernel
  rcases h with ⟨h1, h2⟩ | ⟨pre, k, suf, h1, h2, h3, h4, h5⟩
  · left
    refine ⟨?_, h2⟩
    simp only [h1, if_true]
  · right
    refine ⟨k, ?_, pre, suf, h1, h3, h4, h5⟩
    have : ¬ ((pre.length : ℤ) = -1) := by omega
    simp only [h2, if_neg this]
    rw [h1]
    simp

theorem best_unique {P : Kernel → Prop} {ks : List Kernel} {k k' : Kernel} (h : Best P ks k) (h' : Best P ks k') : k = k' := by
  obtain ⟨pre, suf, h1, h2, h3, h4⟩ := h
  obtain ⟨pre', suf', h1', h2', h3', h4'⟩ := h'
  rw [h1] at h1'
  rcases List.append_eq_append_iff.mp h1' with ⟨l, e1, e2⟩ | ⟨l, e1, e2⟩
  · cases l with
    | nil => simp at e2; exact e2.1
    | cons x xs =>
      simp only [List.cons_append, List.cons.injEq] at e2
      obtain ⟨rfl, e2⟩ := e2
      have a := h3' k (by simp [e1]) h2
      have b := h4 k' (by simp [e2]) h2'
      omega
  · cases l with
    | nil => simp at e2; exact e2.1.symm
    | cons x xs =>
      simp only [List.cons_append, List.cons.injEq] at e2
      obtain ⟨rfl, e2⟩ := e2
      have a := h3 k' (by simp [e1]) h2'
      have b := h4' k (by simp [e2]) h2
      omega

/-- The kernels registered for an operation by a history of registrations, in order. -/
def registered (h : List (List Char × Kernel)) (op : List Char) : List Kernel := (h.filter fun e => e.1 = op).map (·.2)

/-- **C313.** For every history of registrations, operation, parameter types, result types and backend, the search returns the kernel of the highest priority among
those registered for the operation with exactly these types and this backend, the first registered one of several; and none exactly if there is none. -/
theorem C313_kernel_search (h : List (List Char × Kernel)) (op : List Char) (args res : List Ty) (b : List Char) :
    (∀ k, findKernel (build h) op args res b = some k ↔ Best (Fits args res b) (registered h op) k) ∧
    (findKernel (build h) op args res b = none ↔ ∀ k ∈ registered h op, ¬ Fits args res b k) := by
  have hk := findKernel_best (build h) op args res b
  rw [kernelInfos_build] at hk
  change (_ ∧ ∀ k ∈ registered h op, _) ∨ ∃ k, _ ∧ Best _ (registered h op) k at hk
  rcases hk with ⟨h1, h2⟩ | ⟨k, h1, h2⟩
  · refine ⟨fun k => ⟨fun e => (by rw [h1] at e; cases e), ?_⟩, fun _ => h2, fun _ => h1⟩
    rintro ⟨pre, suf, e, hf, -⟩
    exact absurd hf (h2 k (by rw [e]; simp))
  · refine ⟨fun k' => ⟨fun e => ?_, fun hb => ?_⟩, fun e => ?_, fun hn => ?_⟩
    · rw [h1] at e; cases e; exact h2
    · rw [h1, best_unique h2 hb]
    · rw [h1] at e; cases e
    · obtain ⟨pre, suf, e, hf, -⟩ := h2
      exact absurd hf (hn k (by rw [e]; simp))

/-! ### Examples -/

/-- Dense matrices of doubles. -/
def dm : Ty := .matrix .f64 none none none .dense none

/-- A registered kernel, by name and priority. -/
def mk (n : Char) (p : ℤ) : Kernel := ⟨[n], [dm], [dm, dm], ['C'], ['l', n], p⟩

example : findKernel (build [(['e'], mk 'a' 0), (['f'], mk 'x' 9), (['e'], mk 'b' 7), (['e'], mk 'c' 7)]) ['e'] [dm, dm] [dm] ['C'] = some (mk 'b' 7) := by
  decide +kernel

example : norm false (.matrix .f64 (some 3) none (some 1) .sparse none) = some (.matrix .f64 none none none .sparse none) := rfl

example : cls (.matrix .f64 (some 3) none (some 1) .sparse none) = cls (.matrix .f64 none (some 5) none .sparse (some true)) := rfl

end Verif.Disp
