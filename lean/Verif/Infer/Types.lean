/-
  Model of types with data properties: src/ir/daphneir/DaphneTypes.td (matrix and frame types, `isSpecializationOf`), the common type of two
  types in src/compiler/inference/InferencePass.cpp:52-107, casts that are dropped (DaphneOps.td:1538-1580, LowerToLLVMPass.cpp:74-83,
  RewriteToCallKernelOpPass.cpp:590-591), the choice of the representation (SelectMatrixRepresentationsPass.cpp:35-48). Properties C141-C144.

  Simplification: column types and strings are scalars here (they have no properties in `getTypeWithCommonInfo`).
-/
import Mathlib.Data.Rat.Floor
import Mathlib.Tactic.NormNum
import Mathlib.Tactic.Linarith

namespace Verif.Infer
variable {VT : Type} [DecidableEq VT]

/-- `MatrixRepresentation` — Daphne.h:96-101; `Default` is the same enumerator as `Dense`. -/
inductive Repr where
  | dense
  | sparse
  deriving DecidableEq

/-- A type: unknown, a scalar, a matrix or a frame. `-1` is unknown for the number of rows, of columns, and the sparsity; `none` is an unknown
value type or symmetry. The labels of a frame are a pointer to a vector (Frame types are compared by the pointer). -/
inductive Ty (VT : Type) where
  | unknown
  | scalar (vt : VT)
  | matrix (vt : Option VT) (rows cols : Int) (sp : ℚ) (repr : Repr) (sym : Option Bool)
  | frame (cts : List (Option VT)) (rows cols : Int) (lbls : Option Nat)
  deriving DecidableEq

/-! ### Specification -/

/-- What can be observed of a runtime value. -/
inductive Obj (VT : Type) where
  | scalar (vt : VT)
  | matrix (vt : VT) (rows cols : Nat) (repr : Repr) (sym : Bool)
  | frame (cts : List VT) (rows cols : Nat) (labels : List String)

/-- A number that is known to the compiler is right. -/
def FitsNum (n : Nat) (z : Int) : Prop := z = -1 ∨ z = n

/-- Everything that the type says about the value is true, except for the representation; the sparsity is an estimate, which is not
part of this. `heap` are the label vectors of the compiler. -/
def FitsLog (heap : Nat → List String) : Obj VT → Ty VT → Prop
  | _, .unknown => True
  | .scalar v, .scalar t => v = t
  | .matrix v r c _ s, .matrix t nr nc _ _ sym => (t = none ∨ t = some v) ∧ FitsNum r nr ∧ FitsNum c nc ∧ (sym = none ∨ sym = some s)
  | .frame vs r c ls, .frame ts nr nc l =>
    (ts = [none] ∨ (ts.length = vs.length ∧ ∀ (i : Nat) v, vs[i]? = some v → ts[i]? = some none ∨ ts[i]? = some (some v))) ∧
      FitsNum r nr ∧ FitsNum c nc ∧ (∀ p, l = some p → heap p = ls)
  | _, _ => False

/-- The representation of the object is the one of the type. -/
def FitsRepr : Obj VT → Ty VT → Prop
  | .matrix _ _ _ p _, .matrix _ _ _ _ q _ => p = q
  | _, _ => True

/-- Every estimate lies between 0 and 1, or is unknown. -/
def SpOK : Ty VT → Prop
  | .matrix _ _ _ sp _ _ => sp = -1 ∨ (0 ≤ sp ∧ sp ≤ 1)
  | _ => True

/-! ### The common type -/

/-- Conversion of a `double` to `ssize_t`: truncation (InferencePass.cpp:70-71). -/
def trunc (q : ℚ) : Int := if q < 0 then ⌈q⌉ else ⌊q⌋

/-- `(a == b) ? a : d` -/
def same {α : Type} [DecidableEq α] (d a b : α) : α := if a = b then a else d

/-- InferencePass.cpp:82-90 (column types). -/
def commonCts (a b : List (Option VT)) : List (Option VT) :=
  if a.length = b.length then List.zipWith (same none) a b else [none]

/-- `getTypeWithCommonInfo` — InferencePass.cpp:52-107; `none` is `nullptr`. -/
def common : Ty VT → Ty VT → Option (Ty VT)
  | .matrix v1 r1 c1 s1 p1 y1, .matrix v2 r2 c2 s2 p2 y2 =>
    some (.matrix (same none v1 v2) (same (-1) r1 r2) (same (-1) c1 c2) (if trunc s1 = trunc s2 then trunc s1 else -1)
      (same .dense p1 p2) (same none y1 y2))
  | .frame t1 r1 c1 l1, .frame t2 r2 c2 l2 => some (.frame (commonCts t1 t2) (same (-1) r1 r2) (same (-1) c1 c2) (same none l1 l2))
  | .matrix .., _ => none
  | _, .matrix .. => none
  | .frame .., _ => none
  | _, .frame .. => none
  | a, b => some (same .unknown a b)

theorem fits_same_left {n : Nat} {a b : Int} (h : FitsNum n a) : FitsNum n (same (-1) a b) := by
  unfold same; split
  · exact h
  · left; rfl

theorem fits_same_right {n : Nat} {a b : Int} (h : FitsNum n b) : FitsNum n (same (-1) a b) := by
  unfold same; split
  · next e => rw [e]; exact h
  · left; rfl

theorem none_or_left {α : Type} [DecidableEq α] {v : α} {a b : Option α} (h : a = none ∨ a = some v) : same none a b = none ∨ same none a b = some v := by
  unfold same; split
  · exact h
  · left; rfl

theorem none_or_right {α : Type} [DecidableEq α] {v : α} {a b : Option α} (h : b = none ∨ b = some v) : same none a b = none ∨ same none a b = some v := by
  unfold same; split
  · next e => rw [e]; exact h
  · left; rfl

theorem same_comm {α : Type} [DecidableEq α] (d a b : α) : same d a b = same d b a := by
  unfold same
  by_cases h : a = b
  · rw [if_pos h, if_pos h.symm, h]
  · rw [if_neg h, if_neg (fun e => h e.symm)]

theorem commonCts_comm (a b : List (Option VT)) : commonCts a b = commonCts b a := by
  unfold commonCts
  by_cases h : a.length = b.length
  · rw [if_pos h, if_pos h.symm]
    apply List.ext_getElem
    · simp [h]
    · intro i _ _; simp [same_comm]
  · rw [if_neg h, if_neg (fun e => h e.symm)]

/-- The order of the two types does not matter. -/
theorem common_comm (a b : Ty VT) : common a b = common b a := by
  cases a <;> cases b <;> simp [common, same_comm, commonCts_comm]
  · split
    · next h => rw [if_pos h.symm, h]
    · next h => rw [if_neg (fun e => h e.symm)]

theorem commonCts_fits {vs : List VT} {a b : List (Option VT)}
    (h : a = [none] ∨ (a.length = vs.length ∧ ∀ (i : Nat) v, vs[i]? = some v → a[i]? = some none ∨ a[i]? = some (some v))) :
    commonCts a b = [none] ∨ ((commonCts a b).length = vs.length ∧
      ∀ (i : Nat) v, vs[i]? = some v → (commonCts a b)[i]? = some none ∨ (commonCts a b)[i]? = some (some v)) := by
  unfold commonCts
  by_cases hl : a.length = b.length
  · rw [if_pos hl]
    rcases h with rfl | ⟨h1, h2⟩
    · left
      match b, hl with
      | [x], _ => cases x <;> simp [same]
    · right
      refine ⟨by simp [hl, ← h1], ?_⟩
      intro i v hv
      have hi : i < a.length := by rw [h1]; exact (List.getElem?_eq_some_iff.1 hv).1
      have hb : i < b.length := by omega
      have := h2 i v hv
      rw [List.getElem?_eq_getElem hi] at this
      have e : (List.zipWith (same none) a b)[i]? = some (same none a[i] b[i]) := by
        rw [List.getElem?_eq_getElem (by simp; omega)]; simp
      rw [e]
      have h3 : a[i] = none ∨ a[i] = some v := by simpa using this
      rcases none_or_left (b := b[i]) h3 with h | h
      · left; rw [h]
      · right; rw [h]
  · rw [if_neg hl]; left; rfl

/-- **C141.** Whatever fits one of two types fits their common type (value types, shape, symmetry, labels; for the representation if both
types have the same). A common type exists exactly for types of the same kind (matrix, frame, or neither), independent of the order. -/
theorem C141_common_type_sound (heap : Nat → List String) (a b : Ty VT) :
    (∀ c o, common a b = some c → FitsLog heap o a ∨ FitsLog heap o b → FitsLog heap o c) ∧
    (∀ c o v1 r1 c1 s1 p y1 v2 r2 c2 s2 y2, a = .matrix v1 r1 c1 s1 p y1 → b = .matrix v2 r2 c2 s2 p y2 → common a b = some c →
      FitsRepr o a → FitsRepr o c) ∧
    common a b = common b a ∧
    (common a b = none ↔ ((∃ v r c s p y, a = .matrix v r c s p y) ∧ ¬ (∃ v r c s p y, b = .matrix v r c s p y)) ∨
      ((∃ v r c s p y, b = .matrix v r c s p y) ∧ ¬ (∃ v r c s p y, a = .matrix v r c s p y)) ∨
      ((∃ t r c l, a = .frame t r c l) ∧ ¬ (∃ t r c l, b = .frame t r c l)) ∨
      ((∃ t r c l, b = .frame t r c l) ∧ ¬ (∃ t r c l, a = .frame t r c l))) := by
  have left : ∀ (a b c : Ty VT) o, common a b = some c → FitsLog heap o a → FitsLog heap o c := by
    intro a b c o hc h
    cases a with
    | unknown => cases b <;> simp [common, same] at hc <;> subst hc <;> cases o <;> trivial
    | scalar t =>
      cases b with
      | unknown => simp [common, same] at hc; subst hc; cases o <;> trivial
      | scalar t2 =>
        simp only [common, Option.some.injEq] at hc
        subst hc
        unfold same; split
        · exact h
        · cases o <;> trivial
      | matrix => simp [common] at hc
      | frame => simp [common] at hc
    | matrix v1 r1 c1 s1 p1 y1 =>
      cases b with
      | matrix v2 r2 c2 s2 p2 y2 =>
        simp only [common, Option.some.injEq] at hc
        subst hc
        cases o with
        | matrix v r c' p s =>
          obtain ⟨h1, h2, h3, h4⟩ := h
          exact ⟨none_or_left h1, fits_same_left h2, fits_same_left h3, none_or_left h4⟩
        | scalar => exact h.elim
        | frame => exact h.elim
      | unknown => simp [common] at hc
      | scalar => simp [common] at hc
      | frame => simp [common] at hc
    | frame t1 r1 c1 l1 =>
      cases b with
      | frame t2 r2 c2 l2 =>
        simp only [common, Option.some.injEq] at hc
        subst hc
        cases o with
        | frame vs r c' ls =>
          obtain ⟨h1, h2, h3, h4⟩ := h
          refine ⟨commonCts_fits h1, fits_same_left h2, fits_same_left h3, ?_⟩
          intro p hp
          unfold same at hp
          split at hp
          · exact h4 p hp
          · cases hp
        | scalar => exact h.elim
        | matrix => exact h.elim
      | unknown => simp [common] at hc
      | scalar => simp [common] at hc
      | matrix => simp [common] at hc
  refine ⟨?_, ?_, common_comm a b, ?_⟩
  · rintro c o hc (h | h)
    · exact left a b c o hc h
    · rw [common_comm] at hc
      exact left b a c o hc h
  · rintro c o v1 r1 c1 s1 p y1 v2 r2 c2 s2 y2 rfl rfl hc h
    simp only [common, Option.some.injEq] at hc
    subst hc
    cases o with
    | matrix => simpa [FitsRepr, same] using h
    | scalar => trivial
    | frame => trivial
  · cases a <;> cases b <;> simp [common]

example : common (.matrix (some 1) 3 4 (1/2) .dense none : Ty Nat) (.matrix (some 1) 3 5 (1/2) .dense (some true)) =
    some (.matrix (some 1) 3 (-1) 0 .dense none) := by
  have h : trunc 2⁻¹ = 0 := by unfold trunc; norm_num
  simp [common, same, h]

/-- **C142 (refuted).** Full statement: the sparsity of the common type is the sparsity of both types, or unknown. The sparsities are truncated
to integers before they are compared: two different estimates below 1 give the estimate 0 (almost empty), and equal ones too. -/
theorem C142_common_sparsity_partial (s1 s2 : ℚ) (h1 : 0 < s1) (h1' : s1 < 1) (h2 : 0 < s2) (h2' : s2 < 1) (v : Option VT) (r c : Int) (p : Repr)
    (y : Option Bool) :
    common (.matrix v r c s1 p y) (.matrix v r c s2 p y) = some (.matrix v r c 0 p y) := by
  have ht : ∀ s : ℚ, 0 < s → s < 1 → trunc s = 0 := by
    intro s a b
    unfold trunc
    rw [if_neg (by linarith), Int.floor_eq_zero_iff]
    exact ⟨a.le, b⟩
  simp [common, same, ht s1 h1 h1', ht s2 h2 h2']

/-! ### Casts that are dropped -/

/-- `isSpecializationOf` — DaphneTypes.td:117-139, 205-229. -/
def specializes : Ty VT → Ty VT → Bool
  | .matrix v1 r1 c1 s1 p1 y1, .matrix v2 r2 c2 s2 p2 y2 =>
    (v2.isNone || v1 == v2) && (r2 == -1 || r1 == r2) && (c2 == -1 || c1 == c2) && (s2 == -1 || s1 == s2) && (p2 == .dense || p1 == p2) &&
      (y2.isNone || y1 == y2)
  | .frame t1 r1 c1 l1, .frame t2 r2 c2 l2 =>
    t1.length == t2.length && (List.zip t1 t2).all (fun p => p.2.isNone || p.1 == p.2) && (r2 == -1 || r1 == r2) && (c2 == -1 || c1 == c2) &&
      (l2.isNone || l1 == l2)
  | _, _ => false

/-- A cast between these types leaves the object as it is (LowerToLLVMPass.cpp:78 with DaphneOps.td:1539-1580; for frames, equal labels are
meant by equal pointers). -/
def dropped (a b : Ty VT) : Bool := a == b || specializes a b

theorem num_or {n : Nat} {a b : Int} (h : b = -1 ∨ a = b) (hf : FitsNum n a) : FitsNum n b := by
  rcases h with h | h
  · left; exact h
  · rw [← h]; exact hf

theorem opt_or {α : Type} {v : α} {a b : Option α} (h : b = none ∨ a = b) (hf : a = none ∨ a = some v) : b = none ∨ b = some v := by
  rcases h with h | h
  · left; exact h
  · rw [← h]; exact hf

/-- **C143.** A cast that is dropped is sound for value types, shape, symmetry and labels: what fits the type before the cast fits the type
after it. So is it for the representation, unless a sparse matrix is cast to a dense one. -/
theorem C143_dropped_casts_sound (heap : Nat → List String) (a b : Ty VT) (o : Obj VT) (h : dropped a b = true) (hf : FitsLog heap o a) :
    FitsLog heap o b ∧
    (FitsRepr o a → (∀ v r c s y v' r' c' s' y', ¬ (a = .matrix v r c s .sparse y ∧ b = .matrix v' r' c' s' .dense y')) → FitsRepr o b) := by
  unfold dropped at h
  rw [Bool.or_eq_true] at h
  rcases h with h | h
  · have : a = b := by simpa using h
    subst this
    exact ⟨hf, fun h _ => h⟩
  · cases a with
    | unknown => cases b <;> simp [specializes] at h
    | scalar => cases b <;> simp [specializes] at h
    | matrix v1 r1 c1 s1 p1 y1 =>
      cases b with
      | matrix v2 r2 c2 s2 p2 y2 =>
        simp only [specializes, Bool.and_eq_true, Bool.or_eq_true, Option.isNone_iff_eq_none, beq_iff_eq] at h
        obtain ⟨⟨⟨⟨⟨h1, h2⟩, h3⟩, -⟩, h5⟩, h6⟩ := h
        cases o with
        | matrix v r c p s =>
          obtain ⟨f1, f2, f3, f4⟩ := hf
          refine ⟨⟨opt_or h1 f1, num_or h2 f2, num_or h3 f3, opt_or h6 f4⟩, ?_⟩
          intro hr hne
          simp only [FitsRepr] at hr ⊢
          subst hr
          rcases h5 with h5 | h5
          · subst h5
            cases p with
            | dense => rfl
            | sparse => exact absurd ⟨rfl, rfl⟩ (hne v1 r1 c1 s1 y1 v2 r2 c2 s2 y2)
          · exact h5
        | scalar => exact hf.elim
        | frame => exact hf.elim
      | unknown => simp [specializes] at h
      | scalar => simp [specializes] at h
      | frame => simp [specializes] at h
    | frame t1 r1 c1 l1 =>
      cases b with
      | frame t2 r2 c2 l2 =>
        simp only [specializes, Bool.and_eq_true, Bool.or_eq_true, Option.isNone_iff_eq_none, beq_iff_eq, List.all_eq_true] at h
        obtain ⟨⟨⟨⟨h0, h1⟩, h2⟩, h3⟩, h4⟩ := h
        cases o with
        | frame vs r c ls =>
          obtain ⟨f1, f2, f3, f4⟩ := hf
          refine ⟨⟨?_, num_or h2 f2, num_or h3 f3, ?_⟩, fun _ _ => trivial⟩
          · rcases f1 with rfl | ⟨f1, f1'⟩
            · left
              match t2, h0, h1 with
              | [x], _, h1 =>
                have := h1 (none, x) (by simp)
                rcases this with h | h
                · simp at h; rw [h]
                · simp at h; rw [h]
            · right
              refine ⟨by omega, ?_⟩
              intro i v hv
              have hi : i < t1.length := by rw [f1]; exact (List.getElem?_eq_some_iff.1 hv).1
              have hi2 : i < t2.length := by omega
              have hz : (t1[i], t2[i]) ∈ List.zip t1 t2 := by
                rw [List.mem_iff_getElem]; exact ⟨i, by simp; omega, by simp⟩
              have := f1' i v hv
              rw [List.getElem?_eq_getElem hi] at this
              have f : t1[i] = none ∨ t1[i] = some v := by simpa using this
              rw [List.getElem?_eq_getElem hi2]
              rcases opt_or (h1 _ hz) f with h | h
              · left; exact congrArg some h
              · right; exact congrArg some h
          · intro p hp
            rcases h4 with h4 | h4
            · rw [h4] at hp; cases hp
            · exact f4 p (by rw [h4]; exact hp)
        | scalar => exact hf.elim
        | matrix => exact hf.elim
      | unknown => simp [specializes] at h
      | scalar => simp [specializes] at h
      | matrix => simp [specializes] at h

example : dropped (.matrix (some 1) 3 4 (1/2) .dense none : Ty Nat) (.matrix (some 1) 3 (-1) (-1) .dense none) = true ∧
    dropped (.matrix (some 1) 3 4 (1/2) .dense none : Ty Nat) (.matrix (some 2) 3 4 (1/2) .dense none) = false := by
  decide +kernel

/-- SelectMatrixRepresentationsPass.cpp:35-48, 163-169: the representation of the result of an operation with one result. -/
def selectRepr (threshold : ℚ) : Ty VT → Ty VT
  | .matrix v r c s p y => if s ≠ -1 then (if s < threshold then .matrix v r c s .sparse y else .matrix v r c s p y) else .matrix v r c s p y
  | t => t

/-- **C144 (refuted).** Full statement: after the choice of representations, a value has the representation its type says. In
`if (c) X = rand(.., sparsity s1); else X = rand(.., sparsity s2);` with `s1` below the threshold and `s2 = 1`, both values are cast to the common
type with unknown sparsity. The first one becomes sparse, the result of its cast stays dense, and the cast is dropped: a sparse object is
used as a dense matrix. -/
theorem C144_dropped_cast_representation_partial (thr s1 : ℚ) (h1 : 0 ≤ s1) (h2 : s1 < thr) (h3 : thr ≤ 1) (v : VT) (r c : Nat) (sym : Bool) :
    ∃ t, common (.matrix (some v) r c s1 .dense none) (.matrix (some v) r c 1 .dense none) = some t ∧
      dropped (selectRepr thr (.matrix (some v) r c s1 .dense none)) (selectRepr thr t) = true ∧
      FitsRepr (.matrix v r c .sparse sym) (selectRepr thr (.matrix (some v) r c s1 .dense none)) ∧
      ¬ FitsRepr (.matrix v r c .sparse sym) (selectRepr thr t) := by
  have ht : trunc s1 = 0 := by
    unfold trunc
    rw [if_neg (by linarith), Int.floor_eq_zero_iff]
    exact ⟨h1, by linarith⟩
  have ht1 : trunc (1 : ℚ) = 1 := by unfold trunc; norm_num
  have hne : s1 ≠ -1 := by intro h; rw [h] at h1; norm_num at h1
  refine ⟨.matrix (some v) r c (-1) .dense none, by simp [common, same, ht, ht1], ?_, ?_, ?_⟩
  · simp [selectRepr, hne, h2, dropped, specializes]
  · simp [selectRepr, hne, h2, FitsRepr]
  · simp [selectRepr, FitsRepr]

end Verif.Infer
