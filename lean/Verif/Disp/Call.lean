/-
  Rewriting operations to kernel calls (C315-C318).
-/
import Verif.Disp.Find

namespace Verif.Disp

/-! ### Specification -/

/-- Operations whose kernels take any object, as `Structure`. -/
def anyObject : List (List Char) :=
  [['c', 'r', 'e', 'a', 't', 'e', 'F', 'r', 'a', 'm', 'e'], ['n', 'u', 'm', 'R', 'o', 'w', 's'], ['n', 'u', 'm', 'C', 'o', 'l', 's'], ['n', 'u', 'm', 'C', 'e', 'l', 'l', 's'], ['i', 'n', 'c', 'R', 'e', 'f'], ['d', 'e', 'c', 'R', 'e', 'f'], ['d', 'i', 's', 't', 'r', 'i', 'b', 'u', 't', 'e', 'd', 'C', 'o', 'm', 'p', 'u', 't', 'e']]

/-- A value of type `t` may be passed for a parameter of type `p`: the classes are the same, or the kernel takes any object and `t` is one. -/
def Param (anyObj : Prop) (t p : Ty) : Prop :=
  (anyObj ∧ IsObject (cls t) → cls p = .structure) ∧ (¬ (anyObj ∧ IsObject (cls t)) → cls p = cls t)

/-- The operands of an operation by ODS operand, each with a flag for a variadic one. -/
abbrev Segs := List (List Val × Bool)

/-- How the operands of an operation are grouped: an ODS operand which is not variadic is one operand. -/
def SegmentedAs (op : Op) (segs : Segs) : Prop :=
  op.operands = (segs.map (·.1)).flatten ∧ (∀ s ∈ segs, s.2 = false → s.1.length = 1) ∧
    (op.ods = some (segs.map fun s => (s.1.length, s.2)) ∨ (op.ods = none ∧ ∀ s ∈ segs, s.2 = false))

/-- Every ODS operand occurs; only the aggregates of a grouping may be missing. -/
def Occurs (op : Op) (segs : Segs) : Prop :=
  ∀ (j : Nat) (s : List Val × Bool), segs[j]? = some s → s.1 ≠ [] ∨ (op.mnemonic = ['g', 'r', 'o', 'u', 'p'] ∧ j = 2)

/-- The type of an ODS operand: that of its first occurrence, a string if there is none. -/
def headTy : List Val → Ty
  | v :: _ => v.ty
  | [] => .sca .string

/-- The types of the arguments for the operands: a variadic operand is passed as an array and its size. -/
def argTys (segs : Segs) : List Ty := segs.flatMap fun s => headTy s.1 :: (if s.2 then [.sca .index] else [])

/-- The arguments for the operands: all occurrences in order, and their number. -/
def operandArgs (segs : Segs) : List Arg :=
  segs.flatMap fun s => if s.2 then [.pack (headTy s.1) (s.1.map some), .size s.1.length] else s.1.map .val

/-- The backend an operation is marked for. -/
def MarkedFor (op : Op) (b : List Char) : Prop :=
  (op.cuda = true → b = ['C', 'U', 'D', 'A']) ∧ (op.cuda = false → op.fpga = true → b = ['F', 'P', 'G', 'A', 'O', 'P', 'E', 'N', 'C', 'L']) ∧
    (op.cuda = false → op.fpga = false → b = ['C', 'P', 'P'])

/-- A kernel is applicable to an operation. -/
def Applies (op : Op) (segs : Segs) (k : Kernel) : Prop :=
  List.Forall₂ (Param (op.mnemonic ∈ anyObject)) (argTys segs) k.args ∧ List.Forall₂ (Param False) op.results k.res ∧ MarkedFor op k.backend

/-- What follows the operands: the id of the call and the context, unless the context is created (neither) or destroyed (no id). -/
def CallTail (op : Op) (n : Nat) (tail : List Arg) : Prop :=
  (op.mnemonic = ['c', 'r', 'e', 'a', 't', 'e', 'D', 'a', 'p', 'h', 'n', 'e', 'C', 'o', 'n', 't', 'e', 'x', 't'] ∧ tail = []) ∨ (op.mnemonic = ['d', 'e', 's', 't', 'r', 'o', 'y', 'D', 'a', 'p', 'h', 'n', 'e', 'C', 'o', 'n', 't', 'e', 'x', 't'] ∧ tail = [.ctx]) ∨
    (op.mnemonic ≠ ['c', 'r', 'e', 'a', 't', 'e', 'D', 'a', 'p', 'h', 'n', 'e', 'C', 'o', 'n', 't', 'e', 'x', 't'] ∧ op.mnemonic ≠ ['d', 'e', 's', 't', 'r', 'o', 'y', 'D', 'a', 'p', 'h', 'n', 'e', 'C', 'o', 'n', 't', 'e', 'x', 't'] ∧ tail = [.kId n, .ctx])

/-- The parameter types in the catalog are look-up types. -/
def Normal (h : List (List Char × Kernel)) : Prop := ∀ e ∈ h, ∀ p ∈ e.2.args ++ e.2.res, norm false p = some p

/-- The table of libraries knows those of all registered kernels. -/
def KnowsLibs (h : List (List Char × Kernel)) (libs : List (List Char × Bool)) : Prop := ∀ e ∈ h, ∃ b, (e.2.lib, b) ∈ libs

/-! ### Proofs -/

theorem generalizes_iff (op : List Char) : generalizes op = true ↔ op ∈ anyObject := by
  unfold generalizes anyObject
  generalize ['c', 'r', 'e', 'a', 't', 'e', 'F', 'r', 'a', 'm', 'e'] = a1
  generalize ['d', 'i', 's', 't', 'r', 'i', 'b', 'u', 't', 'e', 'd', 'C', 'o', 'm', 'p', 'u', 't', 'e'] = a2
  generalize ['n', 'u', 'm', 'C', 'e', 'l', 'l', 's'] = a3
  generalize ['n', 'u', 'm', 'C', 'o', 'l', 's'] = a4
  generalize ['n', 'u', 'm', 'R', 'o', 'w', 's'] = a5
  generalize ['i', 'n', 'c', 'R', 'e', 'f'] = a6
  generalize ['d', 'e', 'c', 'R', 'e', 'f'] = a7
  simp only [decide_eq_true_eq, List.mem_cons, List.not_mem_nil, or_false]
  tauto

theorem norm_param (g : Bool) (t p : Ty) (hp : norm false p = some p) : norm g t = some p ↔ Param (g = true) t p := by
  have hsup : Supported (cls p) := by rw [← norm_false_some, hp]; rfl
  unfold Param
  by_cases hg : g = true ∧ IsObject (cls t)
  · obtain ⟨rfl, ho⟩ := hg
    rw [norm_obj t ((isObj_iff t).mpr ho)]
    simp only [ho, and_self, forall_const, not_true, false_implies, and_true, Option.some.injEq]
    constructor
    · rintro rfl; rfl
    · intro h
      exact norm_of_cls .struct p .struct p rfl hp h.symm
  · have hn : norm g t = norm false t := by
      cases g with
      | false => rfl
      | true =>
        apply norm_true
        cases hb : isObj t
        · rfl
        · exact absurd ⟨rfl, (isObj_iff t).mp hb⟩ hg
    rw [hn]
    simp only [hg, false_implies, true_and, not_false_eq_true, forall_const]
    constructor
    · intro h; exact norm_cls t p h
    · intro h
      have hs : (norm false t).isSome := by rw [norm_false_some, ← h]; exact hsup
      obtain ⟨n, hn⟩ := Option.isSome_iff_exists.mp hs
      rw [hn, norm_of_cls t p n p hn hp h.symm]

theorem mapM_norm (g : Bool) (ts ps : List Ty) : ts.mapM (norm g) = some ps ↔ List.Forall₂ (fun t p => norm g t = some p) ts ps := by
  induction ts generalizing ps with
  | nil =>
    constructor
    · intro h
      cases h
      exact .nil
    · intro h
      cases h
      rfl
  | cons t ts ih =>
    simp only [List.mapM_cons, Option.bind_eq_bind, Option.bind_eq_some_iff, Option.pure_def, Option.some.injEq]
    constructor
    · rintro ⟨p, h1, qs, h2, rfl⟩
      exact .cons h1 ((ih qs).mp h2)
    · intro h
      cases h with
      | cons h1 h2 => exact ⟨_, h1, _, (ih _).mpr h2, rfl⟩

theorem forall₂_param (g : Bool) (A : Prop) (hA : g = true ↔ A) (ts ps : List Ty) (hp : ∀ p ∈ ps, norm false p = some p) :
    List.Forall₂ (fun t p => norm g t = some p) ts ps ↔ List.Forall₂ (Param A) ts ps := by
  have hpar : Param (g = true) = Param A := by rw [propext hA]
  constructor
  · intro h
    induction h with
    | nil => exact .nil
    | cons h1 h2 ih =>
      refine .cons ?_ (ih fun p hm => hp p (List.mem_cons_of_mem _ hm))
      rw [← hpar]
      exact (norm_param g _ _ (hp _ List.mem_cons_self)).mp h1
  · intro h
    induction h with
    | nil => exact .nil
    | cons h1 h2 ih =>
      refine .cons ?_ (ih fun p hm => hp p (List.mem_cons_of_mem _ hm))
      rw [← hpar] at h1
      exact (norm_param g _ _ (hp _ List.mem_cons_self)).mpr h1

theorem fillPack_ok (pre seg post : List Val) : fillPack (pre ++ (seg ++ post)) pre.length seg.length = some (seg.map some) := by
  unfold fillPack
  suffices ∀ n, n ≤ seg.length →
      (List.range n).foldlM (fun slots k => ((pre ++ (seg ++ post))[pre.length + k]?).map fun v => slots.set k (some v)) (List.replicate seg.length none)
        = some ((seg.take n).map some ++ List.replicate (seg.length - n) none) by
    have h := this seg.length (le_refl _)
    simpa using h
  intro n
  induction n with
  | zero => intro _; simp
  | succ n ih =>
    intro hn
    rw [List.range_succ, List.foldlM_append, ih (by omega)]
    have hget : (pre ++ (seg ++ post))[pre.length + n]? = some (seg[n]'(by omega)) := by
      rw [List.getElem?_append_right (by omega), Nat.add_sub_cancel_left, List.getElem?_append_left (by omega), List.getElem?_eq_getElem]
    simp only [Option.bind_eq_bind, Option.bind_some, List.foldlM_cons, hget, Option.map_some, List.foldlM_nil, Option.pure_def, Option.some.injEq]
    have hlen : ((seg.take n).map some).length = n := by simp; omega
    have hrep : List.replicate (seg.length - n) (none : Option Val) = none :: List.replicate (seg.length - (n + 1)) none := by
      rw [← List.replicate_succ]; congr 1; omega
    rw [hrep, List.set_append_right _ _ (by omega), hlen, Nat.sub_self, List.set_cons_zero, List.take_add_one, List.getElem?_eq_getElem (by omega),
      List.map_append]
    simp only [Option.toList_some, List.map_cons, List.map_nil, List.append_assoc, List.cons_append, List.nil_append]

theorem norm_index (g : Bool) (p : Ty) : norm g (.sca .index) = some p ↔ p = .sca .index := by
  cases g <;> simp [norm, isObj, eq_comm]

theorem odsTy_ok (op : Op) (i : Nat) (pre seg post : List Val) (ho : op.operands = pre ++ (seg ++ post))
    (hocc : seg ≠ [] ∨ (op.mnemonic = ['g', 'r', 'o', 'u', 'p'] ∧ i = 2)) : odsTy op i pre.length seg.length = some (headTy seg) := by
  unfold odsTy
  cases seg with
  | nil =>
    simp only [ne_eq, not_true, false_or] at hocc
    simp [hocc, headTy]
  | cons v vs =>
    rw [if_pos (by simp), ho]
    simp [headTy]

theorem odsLoop_iff (op : Op) (segs : Segs) (i : Nat) (pre : List Val) (ho : op.operands = pre ++ (segs.map (·.1)).flatten)
    (h1 : ∀ s ∈ segs, s.2 = false → s.1.length = 1)
    (hocc : ∀ (j : Nat) (s : List Val × Bool), segs[j]? = some s → s.1 ≠ [] ∨ (op.mnemonic = ['g', 'r', 'o', 'u', 'p'] ∧ i + j = 2)) (ts : List Ty) (as : List Arg) :
    odsLoop op i pre.length (segs.map fun s => (s.1.length, s.2)) = some (ts, as) ↔
      as = operandArgs segs ∧ List.Forall₂ (fun t p => norm (generalizes op.mnemonic) t = some p) (argTys segs) ts := by
  induction segs generalizing i pre ts as with
  | nil =>
    simp only [List.map_nil, odsLoop, Option.some.injEq, Prod.mk.injEq, operandArgs, argTys, List.flatMap_nil]
    constructor
    · rintro ⟨rfl, rfl⟩; exact ⟨rfl, .nil⟩
    · rintro ⟨rfl, h⟩
      cases h
      exact ⟨rfl, rfl⟩
  | cons s segs ih =>
    obtain ⟨seg, var⟩ := s
    simp only [List.map_cons, List.flatten_cons] at ho
    have ho' : op.operands = (pre ++ seg) ++ (segs.map (·.1)).flatten := by rw [ho, List.append_assoc]
    have ih' := ih (i + 1) (pre ++ seg) ho' (fun s hs => h1 s (List.mem_cons_of_mem _ hs))
      (fun j s hj => by
        have := hocc (j + 1) s (by simpa using hj)
        rcases this with h | ⟨h, h'⟩
        · exact .inl h
        · exact .inr ⟨h, by omega⟩)
    rw [List.length_append] at ih'
    have hty := odsTy_ok op i pre seg _ ho (by simpa using hocc 0 (seg, var) (by simp))
    simp only [List.map_cons, odsLoop, hty, Option.bind_eq_bind, Option.bind_some]
    cases var with
    | true =>
      simp only [if_true, ho, fillPack_ok, Option.bind_some, Option.bind_eq_some_iff, Option.some.injEq, Prod.mk.injEq, operandArgs, argTys,
        List.flatMap_cons, List.cons_append, List.nil_append]
      constructor
      · rintro ⟨p, hp, ⟨ts', as'⟩, h2, rfl, rfl⟩
        obtain ⟨rfl, h3⟩ := (ih' _ _).mp h2
        exact ⟨rfl, .cons hp (.cons ((norm_index _ _).mpr rfl) h3)⟩
      · rintro ⟨rfl, h⟩
        cases h with
        | cons hp h =>
          cases h with
          | cons hi h =>
            rw [norm_index] at hi
            subst hi
            exact ⟨_, hp, (_, _), (ih' _ _).mpr ⟨rfl, h⟩, rfl, rfl⟩
    | false =>
      obtain ⟨v, rfl⟩ := List.length_eq_one_iff.mp (h1 (seg, false) List.mem_cons_self rfl)
      have hget : op.operands[pre.length]? = some v := by rw [ho]; simp
      simp only [Bool.false_eq_true, if_false, hget, Option.bind_some, Option.bind_eq_some_iff, Option.some.injEq, Prod.mk.injEq, operandArgs, argTys,
        List.flatMap_cons, List.cons_append, List.nil_append, List.map_cons, List.map_nil]
      constructor
      · rintro ⟨p, hp, ⟨ts', as'⟩, h2, rfl, rfl⟩
        obtain ⟨rfl, h3⟩ := (ih' _ _).mp h2
        exact ⟨rfl, .cons hp h3⟩
      · rintro ⟨rfl, h⟩
        cases h with
        | cons hp h => exact ⟨_, hp, (_, _), (ih' _ _).mpr ⟨rfl, h⟩, rfl, rfl⟩

theorem segs_singletons (segs : Segs) (h1 : ∀ s ∈ segs, s.2 = false → s.1.length = 1) (h2 : ∀ s ∈ segs, s.2 = false) :
    operandArgs segs = ((segs.map (·.1)).flatten).map .val ∧ argTys segs = ((segs.map (·.1)).flatten).map (·.ty) := by
  induction segs with
  | nil => exact ⟨rfl, rfl⟩
  | cons s segs ih =>
    obtain ⟨seg, var⟩ := s
    have hv : var = false := h2 (seg, var) List.mem_cons_self
    subst hv
    obtain ⟨v, rfl⟩ := List.length_eq_one_iff.mp (h1 (seg, false) List.mem_cons_self rfl)
    obtain ⟨a, b⟩ := ih (fun s hs => h1 s (List.mem_cons_of_mem _ hs)) (fun s hs => h2 s (List.mem_cons_of_mem _ hs))
    constructor
    · simp only [operandArgs, List.flatMap_cons, Bool.false_eq_true, if_false, List.map_cons, List.map_nil, List.flatten_cons, List.cons_append, List.nil_append] at a ⊢
      rw [a]
    · simp only [argTys, List.flatMap_cons, Bool.false_eq_true, if_false, List.map_cons, List.map_nil, List.flatten_cons, List.cons_append, List.nil_append, headTy] at b ⊢
      rw [b]

theorem lookupArgs_iff (op : Op) (segs : Segs) (hs : SegmentedAs op segs) (hocc : Occurs op segs) (ts : List Ty) (as : List Arg) :
    lookupArgs op = some (ts, as) ↔
      as = operandArgs segs ∧ List.Forall₂ (fun t p => norm (generalizes op.mnemonic) t = some p) (argTys segs) ts := by
  obtain ⟨h1, h2, h3 | ⟨h3, h4⟩⟩ := hs
  · have h := odsLoop_iff op segs 0 [] (by simpa using h1) h2 (fun j s hj => by simpa using hocc j s hj) ts as
    rw [lookupArgs, h3]
    exact h
  · obtain ⟨e1, e2⟩ := segs_singletons segs h2 h4
    rw [lookupArgs, h3, e1, e2, ← mapM_norm, ← h1, List.mapM_map]
    simp only [Option.map_eq_some_iff, Prod.mk.injEq]
    constructor
    · rintro ⟨qs, h, rfl, rfl⟩
      exact ⟨rfl, h⟩
    · rintro ⟨rfl, h⟩
      exact ⟨ts, h, rfl, rfl⟩

theorem backendOf_iff (op : Op) (b : List Char) : b = backendOf op ↔ MarkedFor op b := by
  unfold backendOf MarkedFor
  cases op.cuda <;> cases op.fpga <;> simp

theorem markUsed_ok (libs : List (List Char × Bool)) (l : List Char) (h : ∃ b, (l, b) ∈ libs) :
    ∃ libs', markUsed libs l = some libs' ∧ (l, true) ∈ libs' ∧ (∀ l', (l', true) ∈ libs → (l', true) ∈ libs') ∧
      ∀ l', (l', true) ∈ libs' → l' = l ∨ (l', true) ∈ libs := by
  obtain ⟨b, hb⟩ := h
  have hany : libs.any (fun e => e.1 = l) = true := by
    rw [List.any_eq_true]
    exact ⟨_, hb, by simp⟩
  refine ⟨_, by rw [markUsed, if_pos hany], ?_, ?_, ?_⟩
  · exact List.mem_map.mpr ⟨_, hb, by simp⟩
  · intro l' h'
    refine List.mem_map.mpr ⟨_, h', ?_⟩
    by_cases e : l' = l <;> simp [e]
  · intro l' h'
    obtain ⟨e, he, hx⟩ := List.mem_map.mp h'
    split at hx
    · left
      exact (Prod.mk.inj hx).1.symm
    · right
      rw [← hx]; exact he

theorem tailArgs_spec (op : Op) (n : Nat) : CallTail op n (tailArgs op.mnemonic n) := by
  unfold CallTail tailArgs
  by_cases h1 : op.mnemonic = ['c', 'r', 'e', 'a', 't', 'e', 'D', 'a', 'p', 'h', 'n', 'e', 'C', 'o', 'n', 't', 'e', 'x', 't']
  · left
    exact ⟨h1, by rw [if_pos (.inl h1), if_pos h1]; rfl⟩
  · by_cases h2 : op.mnemonic = ['d', 'e', 's', 't', 'r', 'o', 'y', 'D', 'a', 'p', 'h', 'n', 'e', 'C', 'o', 'n', 't', 'e', 'x', 't']
    · right; left
      exact ⟨h2, by rw [if_pos (.inr h2), if_neg h1]; rfl⟩
    · right; right
      exact ⟨h1, h2, by rw [if_neg (by tauto), if_neg h1]; rfl⟩

theorem register_ok (m : Mapping) (name : List Char) (loc : Option Loc) (h : loc.isSome ∨ m.cur.isSome) :
    ∃ m' l, m.register name loc = some (m.counter, m') ∧ m'.infos = (m.counter, (name, l)) :: m.infos ∧ (∀ l', loc = some l' → l = l') ∧
      m'.counter = m.counter + 1 ∧ m'.cur.isSome := by
  cases loc with
  | some l => exact ⟨_, l, rfl, rfl, fun l' e => Option.some.inj e, rfl, rfl⟩
  | none =>
    have h : m.cur.isSome := by simpa using h
    obtain ⟨l, hl⟩ := Option.isSome_iff_exists.mp h
    refine ⟨⟨m.counter + 1, (m.counter, (name, l)) :: m.infos, m.cur⟩, l, ?_, rfl, by simp, rfl, h⟩
    simp [Mapping.register, hl]

theorem fits_applies (h : List (List Char × Kernel)) (hn : Normal h) (op : Op) (segs : Segs) (ts rs : List Ty) (k : Kernel)
    (hk : k ∈ registered h op.mnemonic)
    (ht : List.Forall₂ (fun t p => norm (generalizes op.mnemonic) t = some p) (argTys segs) ts)
    (hr : List.Forall₂ (fun t p => norm false t = some p) op.results rs) :
    Fits ts rs (backendOf op) k ↔ Applies op segs k := by
  have hmem : ∃ e ∈ h, e.2 = k := by
    simp only [registered, List.mem_map, List.mem_filter] at hk
    obtain ⟨e, ⟨he, -⟩, rfl⟩ := hk
    exact ⟨e, he, rfl⟩
  obtain ⟨e, he, rfl⟩ := hmem
  have hpa : ∀ p ∈ e.2.args, norm false p = some p := fun p hp => hn e he p (List.mem_append_left _ hp)
  have hpr : ∀ p ∈ e.2.res, norm false p = some p := fun p hp => hn e he p (List.mem_append_right _ hp)
  unfold Fits Applies
  rw [← forall₂_param _ _ (generalizes_iff op.mnemonic) _ _ hpa, ← forall₂_param false False (by simp) _ _ hpr, backendOf_iff]
  have key : ∀ (g : Bool) (xs ps qs : List Ty), List.Forall₂ (fun t p => norm g t = some p) xs ps → (qs = ps ↔ List.Forall₂ (fun t p => norm g t = some p) xs qs) := by
    intro g xs ps qs h1
    constructor
    · rintro rfl; exact h1
    · intro h2
      rw [← mapM_norm] at h1 h2
      rw [h1] at h2
      exact (Option.some.inj h2).symm
  rw [key _ _ _ _ ht, key _ _ _ _ hr]

theorem best_congr {P Q : Kernel → Prop} {ks : List Kernel} {k : Kernel} (h : ∀ k ∈ ks, (P k ↔ Q k)) (hb : Best P ks k) : Best Q ks k := by
  obtain ⟨pre, suf, rfl, h1, h2, h3⟩ := hb
  refine ⟨pre, suf, rfl, (h k (by simp)).mp h1, fun k' hk' hq => h2 k' hk' ((h k' (by simp [hk'])).mpr hq),
    fun k' hk' hq => h3 k' hk' ((h k' (by simp [hk'])).mpr hq)⟩

/-- **C315.** Without a hint, an operation becomes a call of the applicable kernel of the highest priority (the first registered of several), for every catalog:
the classes of all arguments and results are those of the parameters and the backend is the one the operation is marked for. The arguments are the operands in order —
all occurrences of a variadic one in an array, followed by their number — then the id of the call and the context. The library of the
kernel is marked as used, no other mark changes, and the id leads back to the kernel and the location. If some kernel is applicable, the rewriting succeeds. -/
theorem C315_kernel_call (h : List (List Char × Kernel)) (hn : Normal h) (s : St) (hl : KnowsLibs h s.libs) (op : Op)
    (hloc : op.loc.isSome ∨ s.map.cur.isSome) (segs : Segs) (hs : SegmentedAs op segs) (hocc : Occurs op segs) (hh : op.hint = none) :
    (∀ call s', rewriteOp (build h) s op = some (call, s') →
      ∃ k n tail l, Best (Applies op segs) (registered h op.mnemonic) k ∧ call.callee = k.name ∧ call.args = operandArgs segs ++ tail ∧ CallTail op n tail ∧
        call.res = op.results ∧ s'.map.infos = (n, (k.name, l)) :: s.map.infos ∧ (∀ l', op.loc = some l' → l = l') ∧
        (k.lib, true) ∈ s'.libs ∧ (∀ l', (l', true) ∈ s'.libs ↔ l' = k.lib ∨ (l', true) ∈ s.libs)) ∧
    ((∃ k ∈ registered h op.mnemonic, Applies op segs k) → (rewriteOp (build h) s op).isSome) := by
  constructor
  · intro call s' hr
    unfold rewriteOp at hr
    simp only [Option.bind_eq_bind, Option.bind_eq_some_iff] at hr
    obtain ⟨rs, h1, ⟨ts, as⟩, h2, ⟨nm, lb⟩, h3, ⟨n, m'⟩, h4, libs', h5, h6⟩ := hr
    simp only [Option.some.injEq, Prod.mk.injEq] at h6
    obtain ⟨rfl, rfl⟩ := h6
    rw [mapM_norm] at h1
    obtain ⟨rfl, ht⟩ := (lookupArgs_iff op segs hs hocc ts as).mp h2
    simp only [choose, hh, Option.map_eq_some_iff, Prod.mk.injEq] at h3
    obtain ⟨k, hk, rfl, rfl⟩ := h3
    have hb := ((C313_kernel_search h op.mnemonic ts rs (backendOf op)).1 k).mp hk
    have hb' := best_congr (fun k' hk' => fits_applies h hn op segs ts rs k' hk' ht h1) hb
    obtain ⟨m'', l, e1, e2, e3, -, -⟩ := register_ok s.map k.name op.loc hloc
    simp only [e1, Option.some.injEq, Prod.mk.injEq] at h4
    obtain ⟨rfl, rfl⟩ := h4
    have hlib : ∃ b, (k.lib, b) ∈ s.libs := by
      obtain ⟨pre, suf, eb, -⟩ := hb
      have hm : k ∈ registered h op.mnemonic := by rw [eb]; simp
      simp only [registered, List.mem_map, List.mem_filter] at hm
      obtain ⟨e, ⟨he, -⟩, rfl⟩ := hm
      exact hl e he
    obtain ⟨libs'', e4, e5, e6, e7⟩ := markUsed_ok s.libs k.lib hlib
    simp only [e4, Option.some.injEq] at h5
    subst h5
    refine ⟨k, s.map.counter, _, l, hb', rfl, rfl, tailArgs_spec op _, rfl, e2, e3, e5, fun l' => ⟨e7 l', ?_⟩⟩
    rintro (rfl | h)
    · exact e5
    · exact e6 l' h
  · rintro ⟨k, hk, ha⟩
    have hmem : ∃ e ∈ h, e.2 = k := by
      simp only [registered, List.mem_map, List.mem_filter] at hk
      obtain ⟨e, ⟨he, -⟩, rfl⟩ := hk
      exact ⟨e, he, rfl⟩
    obtain ⟨e, he, rfl⟩ := hmem
    have hpa : ∀ p ∈ e.2.args, norm false p = some p := fun p hp => hn e he p (List.mem_append_left _ hp)
    have hpr : ∀ p ∈ e.2.res, norm false p = some p := fun p hp => hn e he p (List.mem_append_right _ hp)
    have h1 := (forall₂_param _ _ (generalizes_iff op.mnemonic) _ _ hpa).mpr ha.1
    have h2 := (forall₂_param false False (by simp) _ _ hpr).mpr ha.2.1
    have hla := (lookupArgs_iff op segs hs hocc e.2.args (operandArgs segs)).mpr ⟨rfl, h1⟩
    have hlr := (mapM_norm false op.results e.2.res).mpr h2
    have hf : Fits e.2.args e.2.res (backendOf op) e.2 := ⟨rfl, rfl, (backendOf_iff op _).mpr ha.2.2⟩
    have hfind : ∃ k', findKernel (build h) op.mnemonic e.2.args e.2.res (backendOf op) = some k' := by
      cases hfk : findKernel (build h) op.mnemonic e.2.args e.2.res (backendOf op) with
      | some k' => exact ⟨k', rfl⟩
      | none => exact absurd hf ((C313_kernel_search h op.mnemonic _ _ _).2.mp hfk e.2 hk)
    obtain ⟨k', hk'⟩ := hfind
    obtain ⟨m'', l, e1, -⟩ := register_ok s.map k'.name op.loc hloc
    have hlib : ∃ b, (k'.lib, b) ∈ s.libs := by
      obtain ⟨pre, suf, eb, -⟩ := ((C313_kernel_search h op.mnemonic _ _ _).1 k').mp hk'
      have hm : k' ∈ registered h op.mnemonic := by rw [eb]; simp
      simp only [registered, List.mem_map, List.mem_filter] at hm
      obtain ⟨e, ⟨he, -⟩, rfl⟩ := hm
      exact hl e he
    obtain ⟨libs'', e4, -⟩ := markUsed_ok s.libs k'.lib hlib
    unfold rewriteOp
    simp only [hlr, hla, choose, hh, hk', Option.bind_eq_bind, Option.bind_some, Option.map_some, e1, e4, Option.isSome_some]

/-- **C316.** An operation with an ODS operand which has no occurrence is refused, except for a grouping without aggregates. -/
theorem C316_missing_operand (c : Catalog) (s : St) (op : Op) (segs : Segs) (ho : op.operands = (segs.map (·.1)).flatten)
    (h1 : ∀ s ∈ segs, s.2 = false → s.1.length = 1) (hods : op.ods = some (segs.map fun s => (s.1.length, s.2)))
    (hocc : ¬ Occurs op segs) : rewriteOp c s op = none := by
  have key : ∀ (segs : Segs) (i : Nat) (pre : List Val), op.operands = pre ++ (segs.map (·.1)).flatten → (∀ s ∈ segs, s.2 = false → s.1.length = 1) →
      (¬ ∀ (j : Nat) (s : List Val × Bool), segs[j]? = some s → s.1 ≠ [] ∨ (op.mnemonic = ['g', 'r', 'o', 'u', 'p'] ∧ i + j = 2)) →
      odsLoop op i pre.length (segs.map fun s => (s.1.length, s.2)) = none := by
    intro segs
    induction segs with
    | nil => intro i pre _ _ h; exact absurd (fun j s hj => by simp at hj) h
    | cons x segs ih =>
      intro i pre ho h1 h
      obtain ⟨seg, var⟩ := x
      simp only [List.map_cons, List.flatten_cons] at ho
      by_cases hx : seg ≠ [] ∨ (op.mnemonic = ['g', 'r', 'o', 'u', 'p'] ∧ i = 2)
      · have h' := ih (i + 1) (pre ++ seg) (by rw [ho, List.append_assoc]) (fun s hs => h1 s (List.mem_cons_of_mem _ hs)) (fun hall => h (by
          intro j s hj
          cases j with
          | zero =>
            simp only [List.getElem?_cons_zero, Option.some.injEq] at hj
            subst hj
            exact hx
          | succ j =>
            simp only [List.getElem?_cons_succ] at hj
            rcases hall j s hj with h | ⟨h, h'⟩
            · exact .inl h
            · exact .inr ⟨h, by omega⟩))
        rw [List.length_append] at h'
        simp only [List.map_cons, odsLoop, Option.bind_eq_bind, h', Option.bind_none, Option.bind_fun_none, ite_self]
      · have hn : odsTy op i pre.length seg.length = none := by
          simp only [not_or, not_not] at hx
          obtain ⟨rfl, h2⟩ := hx
          unfold odsTy
          rw [if_neg (by simp), if_neg h2]
        simp only [List.map_cons, odsLoop, hn, Option.bind_eq_bind, Option.bind_none]
  have h0 := key segs 0 [] (by simpa using ho) h1 (fun h => hocc fun j s hj => by simpa using h j s hj)
  unfold rewriteOp lookupArgs
  rw [hods]
  simp only [List.length_nil] at h0
  simp only [h0, Option.bind_eq_bind, Option.bind_none, Option.bind_fun_none]

/-- A kernel name as a hint picks the first kernel of that name and operation. -/
theorem hint_call (h : List (List Char × Kernel)) (s : St) (hl : KnowsLibs h s.libs) (op : Op) (hloc : op.loc.isSome ∨ s.map.cur.isSome)
    (k : Kernel) (hk : k ∈ registered h op.mnemonic) (hh : op.hint = some k.name) (hres : ∀ t ∈ op.results, Supported (cls t))
    (la : List Ty × List Arg) (hla : lookupArgs op = some la) :
    ∃ call s' k', rewriteOp (build h) s op = some (call, s') ∧ call.callee = k.name ∧ k' ∈ registered h op.mnemonic ∧ k'.name = k.name ∧ (k'.lib, true) ∈ s'.libs := by
  have hrs : ∃ rs, op.results.mapM (norm false) = some rs := by
    generalize op.results = xs at hres
    induction xs with
    | nil => exact ⟨[], rfl⟩
    | cons t ts ih =>
      obtain ⟨rs, hrs⟩ := ih fun t ht => hres t (List.mem_cons_of_mem _ ht)
      obtain ⟨n, hn⟩ := Option.isSome_iff_exists.mp ((norm_false_some t).mpr (hres t List.mem_cons_self))
      exact ⟨n :: rs, by simp [List.mapM_cons, hn, hrs]⟩
  obtain ⟨rs, hrs⟩ := hrs
  have hfind : ∃ k', (kernelInfos (build h) op.mnemonic).find? (fun q => q.name = k.name) = some k' := by
    rw [kernelInfos_build]
    cases hf : List.find? (fun q => decide (q.name = k.name)) ((h.filter fun e => e.1 = op.mnemonic).map (·.2)) with
    | some k' => exact ⟨k', rfl⟩
    | none => rw [List.find?_eq_none] at hf; exact absurd (by simp) (hf k hk)
  obtain ⟨k', hk'⟩ := hfind
  have hn' : k'.name = k.name := by simpa using List.find?_some hk'
  have hm : k' ∈ registered h op.mnemonic := by
    have := List.mem_of_find?_eq_some hk'
    rwa [kernelInfos_build] at this
  obtain ⟨m'', l, e1, -⟩ := register_ok s.map k.name op.loc hloc
  have hlib : ∃ b, (k'.lib, b) ∈ s.libs := by
    simp only [registered, List.mem_map, List.mem_filter] at hm
    obtain ⟨e, ⟨he, -⟩, rfl⟩ := hm
    exact hl e he
  obtain ⟨libs'', e4, e5, -⟩ := markUsed_ok s.libs k'.lib hlib
  refine ⟨⟨k.name, la.2 ++ tailArgs op.mnemonic s.map.counter, op.results⟩, ⟨libs'', m''⟩, k', ?_, rfl, hm, hn', e5⟩
  unfold rewriteOp
  simp only [hrs, hla, choose, hh, hk', Option.bind_eq_bind, Option.bind_some, Option.map_some, e1, e4]

/-- A sparse matrix of doubles. -/
def cs : Ty := .matrix .f64 none none none .sparse none

/-- A call of `e` on sparse matrices with a hint to kernel `a`, which takes dense ones. -/
def hinted : Op := ⟨['e'], [⟨0, cs⟩, ⟨1, cs⟩], [dm], none, some ['a'], false, false, some ⟨"f", 1, 1⟩⟩

/-- Its operands, by ODS operand. -/
def hintedSegs : Segs := [([⟨0, cs⟩], false), ([⟨1, cs⟩], false)]

/-- **C317.** Hints are not checked: whatever the types, a hint to a kernel registered for the operation makes the compiler emit a call of it; some such call passes
CSR matrices to a kernel for dense ones. So the claim "an operation with a hint is only lowered to an applicable kernel" fails. -/
theorem C317_hint_unchecked_partial :
    (∀ (h : List (List Char × Kernel)) (s : St), KnowsLibs h s.libs → ∀ (op : Op), op.loc.isSome → ∀ k ∈ registered h op.mnemonic, op.hint = some k.name →
      (∀ t ∈ op.results, Supported (cls t)) → ∀ la, lookupArgs op = some la →
        ∃ call s', rewriteOp (build h) s op = some (call, s') ∧ call.callee = k.name) ∧
    (∃ (h : List (List Char × Kernel)) (s : St) (call : Call) (s' : St), Normal h ∧ KnowsLibs h s.libs ∧ SegmentedAs hinted hintedSegs ∧
      rewriteOp (build h) s hinted = some (call, s') ∧ ∀ k ∈ registered h hinted.mnemonic, k.name = call.callee → ¬ Applies hinted hintedSegs k) := by
  constructor
  · intro h s hl op hloc k hk hh hres la hla
    obtain ⟨call, s', -, h1, h2, -⟩ := hint_call h s hl op (.inl hloc) k hk hh hres la hla
    exact ⟨call, s', h1, h2⟩
  · refine ⟨[(['e'], ⟨['a'], [dm], [dm, dm], ['C', 'P', 'P'], ['l'], 0⟩)], ⟨[(['l'], false)], .empty⟩,
      ⟨['a'], [.val ⟨0, cs⟩, .val ⟨1, cs⟩, .kId 1, .ctx], [dm]⟩, ⟨[(['l'], true)], ⟨2, [(1, (['a'], ⟨"f", 1, 1⟩))], some ⟨"f", 1, 1⟩⟩⟩, ?_, ?_, ?_, rfl, ?_⟩
    · intro e he p hp
      simp only [List.mem_singleton] at he
      subst he
      simp only [List.mem_append, List.mem_cons, List.not_mem_nil, or_false, or_self] at hp
      subst hp
      rfl
    · intro e he
      simp only [List.mem_singleton] at he
      subst he
      exact ⟨false, by simp⟩
    · refine ⟨rfl, ?_, .inr ⟨rfl, ?_⟩⟩ <;> simp [hintedSegs]
    · intro k hk _ ha
      have hk : k = ⟨['a'], [dm], [dm, dm], ['C', 'P', 'P'], ['l'], 0⟩ := by simpa [registered, hinted] using hk
      subst hk
      have h1 := ha.1
      simp only [argTys, hintedSegs, List.flatMap_cons, List.flatMap_nil, headTy, Bool.false_eq_true, if_false, List.append_nil, List.cons_append, List.nil_append] at h1
      cases h1 with
      | cons h1 _ =>
        have := h1.2 (by
          rintro ⟨h, -⟩
          rw [← generalizes_iff] at h
          exact absurd h (by decide))
        simp [cls, cs, dm] at this

/-- A list of a dense and a sparse matrix of the same value type. -/
def mixed : Op := ⟨['c', 'r', 'e', 'a', 't', 'e', 'L', 'i', 's', 't'], [⟨0, dm⟩, ⟨1, cs⟩], [.list dm], some [(2, true)], none, false, false, some ⟨"f", 1, 1⟩⟩

/-- **C318.** Only the first occurrence of a variadic operand is checked: a list of a dense and a sparse matrix of the same value type passes type inference and is lowered to
the kernel for dense matrices, which reads the array's second element as a dense matrix too. So the claim "all occurrences of a variadic operand are of the class the kernel
takes" fails. -/
theorem C318_mixed_list_partial :
    inferList (mixed.operands.map (·.ty)) none = some (.list dm) ∧
    ∃ (h : List (List Char × Kernel)) (s : St) (call : Call) (s' : St) (slots : List (Option Val)) (rest : List Arg) (v : Val) (k : Kernel), Normal h ∧ KnowsLibs h s.libs ∧
      rewriteOp (build h) s mixed = some (call, s') ∧ k ∈ registered h mixed.mnemonic ∧ call.callee = k.name ∧
      call.args = .pack dm slots :: rest ∧ some v ∈ slots ∧ k.args.head?.map cls = some (.denseMatrix .f64) ∧ cls v.ty = .csrMatrix .f64 := by
  refine ⟨by decide, [(['c', 'r', 'e', 'a', 't', 'e', 'L', 'i', 's', 't'], ⟨['a'], [.list dm], [dm, .sca .index], ['C', 'P', 'P'], ['l'], 0⟩)], ⟨[(['l'], false)], .empty⟩, ?_⟩
  refine ⟨⟨['a'], [.pack dm [some ⟨0, dm⟩, some ⟨1, cs⟩], .size 2, .kId 1, .ctx], [.list dm]⟩, ⟨[(['l'], true)], ⟨2, [(1, (['a'], ⟨"f", 1, 1⟩))], some ⟨"f", 1, 1⟩⟩⟩,
    [some ⟨0, dm⟩, some ⟨1, cs⟩], _, ⟨1, cs⟩, ⟨['a'], [.list dm], [dm, .sca .index], ['C', 'P', 'P'], ['l'], 0⟩, ?_, ?_, ?_, ?_, rfl, rfl, by simp, rfl, rfl⟩
  · intro e he p hp
    simp only [List.mem_singleton] at he
    subst he
    simp only [List.mem_append, List.mem_cons, List.not_mem_nil, or_false] at hp
    rcases hp with (rfl | rfl) | rfl <;> rfl
  · intro e he
    simp only [List.mem_singleton] at he
    subst he
    exact ⟨false, by simp⟩
  · rfl
  · simp [registered, mixed]

/-- The table of libraries the executor starts from knows the libraries of all registered kernels. -/
theorem libPaths_knows (h : List (List Char × Kernel)) : KnowsLibs h (libPaths (build h)) := by
  intro e he
  refine ⟨false, ?_⟩
  have hk : e.2 ∈ kernelInfos (build h) e.1 := by
    rw [kernelInfos_build]
    exact List.mem_map.mpr ⟨e, List.mem_filter.mpr ⟨he, by simp⟩, rfl⟩
  have : ∀ (c : Catalog) (k : Kernel) (op : List Char), k ∈ kernelInfos c op → (k.lib, false) ∈ libPaths c := by
    intro c k op
    induction c with
    | nil => intro h; simp [kernelInfos] at h
    | cons x c ih =>
      intro h
      simp only [kernelInfos] at h
      simp only [libPaths, List.flatMap_cons, List.mem_append]
      split at h
      · exact .inl (List.mem_map.mpr ⟨k, h, rfl⟩)
      · exact .inr (ih h)
  exact this _ _ _ hk

/-! ### Examples -/

/-- A grouping of a frame by two columns without aggregates. -/
def grouping : Op :=
  ⟨['g', 'r', 'o', 'u', 'p'], [⟨0, .frame [.f64] (some 3) (some 1) none⟩, ⟨1, .sca .string⟩, ⟨2, .sca .string⟩], [.frame [.f64] none none none],
    some [(1, false), (2, true), (0, true)], none, false, false, some ⟨"f", 1, 1⟩⟩

/-- Its operands, by ODS operand. -/
def groupingSegs : Segs := [([⟨0, .frame [.f64] (some 3) (some 1) none⟩], false), ([⟨1, .sca .string⟩, ⟨2, .sca .string⟩], true), ([], true)]

example : SegmentedAs grouping groupingSegs := ⟨rfl, by simp [groupingSegs], .inl rfl⟩

example : Occurs grouping groupingSegs := by
  intro j s hj
  match j, hj with
  | 0, hj => cases hj; left; simp
  | 1, hj => cases hj; left; simp
  | 2, hj => exact .inr ⟨rfl, rfl⟩
  | (j + 3), hj => simp [groupingSegs] at hj

/-- A kernel for it. -/
def groupKernel : Kernel :=
  ⟨['g'], [.frame [.unknown] none none none], [.frame [.unknown] none none none, .sca .string, .sca .index, .sca .string, .sca .index], ['C', 'P', 'P'], ['l'], 0⟩

/-- A catalog with it. -/
def groupCatalog : List (List Char × Kernel) := [(['g', 'r', 'o', 'u', 'p'], groupKernel)]

example : ((rewriteOp (build groupCatalog) ⟨libPaths (build groupCatalog), .empty⟩ grouping).map fun r => (r.1.callee, r.1.args)) =
    some (['g'], [.val ⟨0, .frame [.f64] (some 3) (some 1) none⟩, .pack (.sca .string) [some ⟨1, .sca .string⟩, some ⟨2, .sca .string⟩], .size 2,
      .pack (.sca .string) [], .size 0, .kId 1, .ctx]) := by rfl

example : ∃ k ∈ registered groupCatalog grouping.mnemonic, Applies grouping groupingSegs k := by
  refine ⟨groupKernel, by simp [registered, groupCatalog, grouping], ?_, ?_, ?_⟩
  · have hno : ¬ (grouping.mnemonic ∈ anyObject) := by rw [← generalizes_iff]; decide
    have par : ∀ t p, cls p = cls t → Param (grouping.mnemonic ∈ anyObject) t p := fun t p e => ⟨fun h => absurd h.1 hno, fun _ => e⟩
    exact .cons (par _ _ rfl) (.cons (par _ _ rfl) (.cons (par _ _ rfl) (.cons (par _ _ rfl) (.cons (par _ _ rfl) .nil))))
  · exact .cons ⟨fun h => h.1.elim, fun _ => rfl⟩ .nil
  · exact ⟨fun h => (by cases h), fun _ h => (by cases h), fun _ _ => rfl⟩

end Verif.Disp
