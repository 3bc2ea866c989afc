/-
  Model of src/ir/daphneir/Fold.cpp (constant folding of casts and elementwise binary operations on integer and floating-point
  scalars) and of the scalar kernels that run when nothing is folded: src/runtime/local/kernels/EwBinarySca.h (142-184) and
  CastSca.h (36-41). Properties C120-C127.

  llvm::APInt is `BitVec`. C++ integers are mathematical integers within the range of their type; `static_cast` between integer
  types is modulo 2^width, signed overflow of int and int64_t is undefined behaviour, narrower types are promoted to int first.
  Doubles are rational numbers where they matter (only in the cast to an integer and in `fmod`).
  Not modelled: the type `index`, strings, pow and log (the same libm calls on both sides).
-/
import Mathlib.Data.Rat.Floor
import Mathlib.Tactic.Linarith
import Mathlib.Tactic.IntervalCases
import Verif.Basic.Res

namespace Verif.Ir
open Verif

/-- The integer value types of DaphneDSL scalars (DaphneOps.td / ValueTypeCode.h). -/
inductive IT where
  | bool | si8 | ui8 | si32 | ui32 | si64 | ui64
  deriving DecidableEq, Repr

namespace IT
def width : IT → Nat
  | bool => 1 | si8 => 8 | ui8 => 8 | si32 => 32 | ui32 => 32 | si64 => 64 | ui64 => 64
/-- `isSignedInteger()` -/
def signed : IT → Bool
  | si8 => true | si32 => true | si64 => true | _ => false
/-- `isUnsignedInteger()`; booleans are signless. -/
def unsigned : IT → Bool
  | ui8 => true | ui32 => true | ui64 => true | _ => false

/-- TypeInferenceUtils.cpp:19-52. -/
def generality : IT → Nat
  | bool => 0 | si8 => 1 | ui8 => 2 | si32 => 3 | ui32 => 4 | si64 => 6 | ui64 => 7
/-- TypeInferenceUtils.cpp:54-64 for two types. -/
def mostGeneral (t t' : IT) : IT := if t.generality < t'.generality then t' else t
end IT

/-! ### Specification: what the kernels compute at run time -/

/-- The values of a type. -/
def IT.InRange (t : IT) (v : Int) : Prop :=
  if t = .bool then v = 0 ∨ v = 1
  else if t.signed then -2 ^ (t.width - 1) ≤ v ∧ v < 2 ^ (t.width - 1)
  else 0 ≤ v ∧ v < 2 ^ t.width
instance (t : IT) (v : Int) : Decidable (t.InRange v) := by unfold IT.InRange; infer_instance

/-- C++ conversion of an integer to type `t`: `v != 0` for bool, else modulo 2^width. CastSca.h:36-41. -/
def IT.conv (t : IT) (v : Int) : Int :=
  if t = .bool then (if v = 0 then 0 else 1)
  else if t.signed then v.bmod (2 ^ t.width)
  else v % 2 ^ t.width

/-- Result of integer arithmetic in type `t`: signed overflow of 32- and 64-bit types is undefined; smaller types are computed in
`int` and converted. -/
def arith (t : IT) (v : Int) : Res Int :=
  if (t = .si32 ∨ t = .si64) ∧ ¬ t.InRange v then .error (.ub "signed overflow") else .ok (t.conv v)

/-- An integer rounded to the nearest double (53 significant bits, ties to even). -/
def natToDouble (m : Nat) : Nat :=
  if m.log2 < 53 then m
  else
    let k := m.log2 - 52
    let q := m / 2 ^ k
    let r := m % 2 ^ k
    if 2 ^ (k - 1) < r ∨ (r = 2 ^ (k - 1) ∧ q % 2 = 1) then (q + 1) * 2 ^ k else q * 2 ^ k
def toDouble (v : Int) : Int := if v < 0 then -(natToDouble v.natAbs : Int) else natToDouble v.natAbs

inductive BinOp where
  | add | sub | mul | div | mod | min | max | eq | neq | lt | le | gt | ge | and | or
  deriving DecidableEq, Repr

def b2i (p : Prop) [Decidable p] : Int := if p then 1 else 0

/-- EwBinarySca.h:130-170 on operands of the type `t`; `MOD` is `std::fmod` on doubles, converted back. -/
def kernel (op : BinOp) (t : IT) (a b : Int) : Res Int :=
  match op with
  | .add => arith t (a + b)
  | .sub => arith t (a - b)
  | .mul => arith t (a * b)
  | .div => if b = 0 then .error (.ub "division by zero") else arith t (a.tdiv b)
  | .mod =>
    if toDouble b = 0 then .error (.ub "NaN converted to an integer")
    else if t.InRange ((toDouble a).tmod (toDouble b)) then .ok ((toDouble a).tmod (toDouble b)) else .error (.ub "conversion out of range")
  | .min => .ok (if b < a then b else a)
  | .max => .ok (if a < b then b else a)
  | .eq => .ok (b2i (a = b))
  | .neq => .ok (b2i (a ≠ b))
  | .lt => .ok (b2i (a < b))
  | .le => .ok (b2i (a ≤ b))
  | .gt => .ok (b2i (b < a))
  | .ge => .ok (b2i (b ≤ a))
  | .and => .ok (b2i (a ≠ 0 ∧ b ≠ 0))
  | .or => .ok (b2i (a ≠ 0 ∨ b ≠ 0))

/-- The value a program sees at run time for `a op b`: both operands are converted to the most general type. -/
def runBinary (op : BinOp) (t t' : IT) (a b : Int) : Res Int :=
  kernel op (t.mostGeneral t') ((t.mostGeneral t').conv a) ((t.mostGeneral t').conv b)

/-- The integer that a constant of type `t` with the given bits stands for. -/
def val (t : IT) (b : BitVec t.width) : Int := if t.signed then b.toInt else b.toNat

/-! ### Model: Fold.cpp -/

/-- Fold.cpp:22-34: `performCast` of an integer to an integer type. With a boolean target the width is not adapted and the
attribute is rejected (nothing is folded). -/
def performCast (t t' : IT) (b : BitVec t.width) : Option (BitVec t'.width) :=
  if t'.unsigned then some (b.setWidth t'.width)
  else if t'.signed then some (if t.signed then b.signExtend t'.width else b.setWidth t'.width)
  else if h : t.width = t'.width then some (b.cast h) else none

/-- Fold.cpp:117-132: the narrower operand is cast to the type of the other. `R` has the width of the wider operand, so the last
`setWidth` is the identity. -/
def promote (t t' R : IT) (a : BitVec t.width) : Option (BitVec R.width) :=
  if t.width < t'.width then (performCast t t' a).map (·.setWidth R.width) else some (a.setWidth R.width)

/-- Result of folding: the constant, nothing, or a compile error. -/
inductive Folded (w : Nat) where
  | const (b : BitVec w)
  | unchanged
  | fails (msg : String)
  deriving DecidableEq

/-- `IntegerAttr::get(type, bool)` -/
def bit (w : Nat) (p : Bool) : BitVec w := if p then 1#w else 0#w

/-- Fold.cpp: the lambdas `intOp`, `sintOp`, `uintOp` of the operations (165-201 add, sub, mul; 203-229 div; 252-276 mod; 289-338 min,
max; 340-372 and, or; 397-530 comparisons). Operations that distinguish signed and unsigned are not folded for booleans. -/
def foldCalc (op : BinOp) (R : IT) (a b : BitVec R.width) : Folded R.width :=
  match op with
  | .add => .const (a + b)
  | .sub => .const (a - b)
  | .mul => .const (a * b)
  | .div =>
    if R.signed then (if b = 0#_ then .fails "Can't divide by 0" else .const (a.sdiv b))
    else if R.unsigned then (if b = 0#_ then .fails "Can't divide by 0" else .const (a.udiv b)) else .unchanged
  | .mod =>
    if R.signed then (if b = 0#_ then .fails "Can't compute mod 0" else .const (a.srem b))
    else if R.unsigned then (if b = 0#_ then .fails "Can't compute mod 0" else .const (a.umod b)) else .unchanged
  | .min => if R.signed then .const (if a.slt b then a else b) else if R.unsigned then .const (if a.ult b then a else b) else .unchanged
  | .max => if R.signed then .const (if b.slt a then a else b) else if R.unsigned then .const (if b.ult a then a else b) else .unchanged
  | .eq => .const (bit _ (a == b))
  | .neq => .const (bit _ (a != b))
  | .lt => if R.signed then .const (bit _ (a.slt b)) else if R.unsigned then .const (bit _ (a.ult b)) else .unchanged
  | .le => if R.signed then .const (bit _ (a.sle b)) else if R.unsigned then .const (bit _ (a.ule b)) else .unchanged
  | .gt => if R.signed then .const (bit _ (b.slt a)) else if R.unsigned then .const (bit _ (b.ult a)) else .unchanged
  | .ge => if R.signed then .const (bit _ (b.sle a)) else if R.unsigned then .const (bit _ (b.ule a)) else .unchanged
  | .and => .const (bit _ (a != 0#_ && b != 0#_))
  | .or => .const (bit _ (a != 0#_ || b != 0#_))

/-- Fold.cpp:96-147 `constFoldBinaryOp<IntegerAttr>`. -/
def foldBinary (op : BinOp) (t t' : IT) (a : BitVec t.width) (b : BitVec t'.width) : Folded (t.mostGeneral t').width :=
  match promote t t' (t.mostGeneral t') a, promote t' t (t.mostGeneral t') b with
  | some a, some b => foldCalc op _ a b
  | _, _ => .unchanged

/-! ### Casts -/

theorem val_inRange (t : IT) (b : BitVec t.width) : t.InRange (val t b) := by
  unfold IT.InRange val
  cases t <;> simp only [IT.signed, IT.width] at b ⊢ <;> simp <;>
    first
    | (have := b.isLt; omega)
    | (have h1 := BitVec.toInt_lt (x := b); have h2 := BitVec.le_toInt (x := b); simp at h1 h2; exact ⟨h2, h1⟩)

/-- The value of a negative signed constant is not kept by an extension with zeros. -/
def LosesSign (t t' : IT) (v : Int) : Prop := t.signed = true ∧ t'.unsigned = true ∧ t.width < t'.width ∧ v < 0

theorem zext_u {w : Nat} (b : BitVec w) (v : Nat) : (((b.setWidth v).toNat : Nat) : Int) = (b.toNat : Int) % 2 ^ v := by
  rw [BitVec.toNat_setWidth]; push_cast; rfl

theorem toInt_cond {w : Nat} (b : BitVec w) : b.toInt = b.toNat ∨ b.toInt = b.toNat - 2 ^ w := by
  rw [BitVec.toInt_eq_toNat_cond]
  split
  · left; rfl
  · right; push_cast; rfl

theorem zext_u_of_signed {w : Nat} (b : BitVec w) {v : Nat} (h : v ≤ w ∨ 0 ≤ b.toInt) :
    (((b.setWidth v).toNat : Nat) : Int) = b.toInt % 2 ^ v := by
  rw [zext_u]
  rcases toInt_cond b with e | e
  · rw [e]
  · rcases h with h | h
    · obtain ⟨k, rfl⟩ : ∃ k, w = v + k := ⟨w - v, by omega⟩
      rw [e, pow_add, Int.sub_mul_emod_self_left]
    · exfalso
      have := b.isLt
      have h2 : ((b.toNat : Nat) : Int) < 2 ^ w := by exact_mod_cast this
      omega

theorem sext_s {w : Nat} (b : BitVec w) (v : Nat) : (b.signExtend v).toInt = b.toInt.bmod (2 ^ v) := by
  rw [BitVec.toInt_signExtend]
  by_cases h : v ≤ w
  · rw [Nat.min_eq_left h]
  · rw [Nat.min_eq_right (by omega)]
    have e1 : b.toInt.bmod (2 ^ w) = b.toInt := by
      rw [BitVec.toInt_eq_toNat_bmod, Int.bmod_bmod]
    rw [e1]
    have h1 := BitVec.toInt_lt (x := b)
    have h2 := BitVec.le_toInt (x := b)
    obtain ⟨k, rfl⟩ : ∃ k, v = w + k + 1 := ⟨v - w - 1, by omega⟩
    symm
    have hp : (2 : Int) ^ (w - 1) ≤ 2 ^ (w + k) := pow_le_pow_right₀ (by norm_num) (by omega)
    have hv : (((2 ^ (w + k + 1) : Nat)) : Int) = 2 * 2 ^ (w + k) := by push_cast; rw [pow_succ]; ring
    refine Int.bmod_eq_of_le ?_ ?_
    · rw [hv]; omega
    · rw [hv]; omega

/-- **C120.** A cast of an integer constant to an integer type is folded to the value the cast has at run time, unless it is a
cast of a negative number to a wider unsigned type. (Casts to bool are not folded.) -/
theorem C120_fold_cast (t t' : IT) (b : BitVec t.width) (h : ¬ LosesSign t t' (val t b)) :
    (t' ≠ .bool → ∃ c, performCast t t' b = some c ∧ val t' c = t'.conv (val t b)) ∧
    (t' = .bool → t ≠ .bool → performCast t t' b = none) := by
  constructor
  · intro hb
    unfold performCast IT.conv
    rw [if_neg hb]
    by_cases hu : t'.unsigned = true
    · have hs : t'.signed = false := by cases t' <;> simp_all [IT.unsigned, IT.signed]
      rw [if_pos hu]
      refine ⟨_, rfl, ?_⟩
      unfold val
      simp only [hs, Bool.false_eq_true, if_false]
      by_cases ht : t.signed = true
      · rw [if_pos ht]
        refine zext_u_of_signed b ?_
        by_contra hn
        push Not at hn
        exact h ⟨ht, hu, hn.1, by unfold val; rw [if_pos ht]; exact hn.2⟩
      · rw [if_neg ht]; exact zext_u b _
    · have hs : t'.signed = true := by cases t' <;> simp_all [IT.unsigned, IT.signed]
      rw [if_neg hu, if_pos hs]
      refine ⟨_, rfl, ?_⟩
      unfold val
      simp only [hs, if_true]
      by_cases ht : t.signed = true
      · rw [if_pos ht, if_pos ht]; exact sext_s b _
      · rw [if_neg ht, if_neg ht, BitVec.toInt_setWidth]
  · intro hb ht
    subst hb
    unfold performCast
    rw [if_neg (by simp [IT.unsigned]), if_neg (by simp [IT.signed]), dif_neg (by cases t <;> simp_all [IT.width])]

example : ¬ LosesSign .si64 .si8 (val .si64 (-3)) ∧ performCast .si64 .si8 (-3) = some (-3) := by
  refine ⟨by unfold LosesSign; simp [IT.unsigned], by decide⟩

/-- **C121 (refuted).** Every cast of a negative constant to a wider unsigned type is folded to another value than at run time:
`as.ui32(as.si8(-1))` is 255 instead of 4294967295. -/
theorem C121_fold_cast_sign_partial (t t' : IT) (b : BitVec t.width) (h : LosesSign t t' (val t b)) :
    ∃ c, performCast t t' b = some c ∧ val t' c ≠ t'.conv (val t b) ∧ val t' c = val t b + 2 ^ t.width ∧
      t'.conv (val t b) = val t b + 2 ^ t'.width := by
  obtain ⟨h1, h2, h3, h4⟩ := h
  have hs : t'.signed = false := by cases t' <;> simp_all [IT.unsigned, IT.signed]
  have hnb : t' ≠ .bool := by rintro rfl; simp [IT.unsigned] at h2
  unfold performCast
  rw [if_pos h2]
  have hr := val_inRange t b
  have hlt : (2 : Int) ^ t.width < 2 ^ t'.width := pow_lt_pow_right₀ (by norm_num) h3
  have hc : t'.conv (val t b) = val t b + 2 ^ t'.width := by
    unfold IT.conv
    rw [if_neg hnb, if_neg (by simp [hs])]
    have hge : -2 ^ (t.width - 1) ≤ val t b := by
      unfold IT.InRange at hr
      rw [if_neg (by rintro rfl; simp [IT.signed] at h1), if_pos h1] at hr
      exact hr.1
    have hp : (2 : Int) ^ (t.width - 1) ≤ 2 ^ t.width := pow_le_pow_right₀ (by norm_num) (by omega)
    rw [← Int.add_emod_right, Int.emod_eq_of_lt (by omega) (by omega)]
  have hv : val t' (b.setWidth t'.width) = val t b + 2 ^ t.width := by
    unfold val at h4 ⊢
    rw [if_pos h1] at h4 ⊢
    simp only [hs, Bool.false_eq_true, if_false]
    have hlt' := b.isLt
    have hq : ((b.toNat : Nat) : Int) < 2 ^ t.width := by exact_mod_cast hlt'
    rw [zext_u, Int.emod_eq_of_lt (by omega) (by omega)]
    rcases toInt_cond b with e | e <;> omega
  exact ⟨_, rfl, by rw [hv, hc]; omega, hv, hc⟩

example : LosesSign .si8 .ui32 (val .si8 (-1)) ∧ performCast .si8 .ui32 (-1) = some 255 ∧ IT.conv .ui32 (val .si8 (-1)) = 4294967295 := by
  refine ⟨⟨rfl, rfl, by decide, by decide⟩, by decide, by decide⟩

/-! ### Binary operations -/

theorem natToDouble_small {m : Nat} (h : m ≤ 2 ^ 53) : natToDouble m = m := by
  rcases Nat.lt_or_eq_of_le h with h | h
  · unfold natToDouble
    rw [if_pos]
    by_cases hz : m = 0
    · subst hz; decide
    · exact (Nat.log2_lt hz).2 h
  · subst h; decide +kernel

theorem toDouble_small {v : Int} (h : v.natAbs ≤ 2 ^ 53) : toDouble v = v := by
  unfold toDouble
  rw [natToDouble_small h]
  split <;> omega

theorem nonbool_cases {R : IT} (h : R ≠ .bool) : (R.signed = true ∧ R.unsigned = false) ∨ (R.signed = false ∧ R.unsigned = true) := by
  cases R <;> simp_all [IT.signed, IT.unsigned]

theorem width_pos (R : IT) : 0 < R.width := by cases R <;> decide

theorem val_signed {R : IT} (h : R.signed = true) (a : BitVec R.width) : val R a = a.toInt := by unfold val; rw [if_pos h]
theorem val_unsigned {R : IT} (h : R.signed = false) (a : BitVec R.width) : val R a = a.toNat := by unfold val; simp [h]
theorem conv_signed {R : IT} (h : R.signed = true) (v : Int) : R.conv v = v.bmod (2 ^ R.width) := by
  unfold IT.conv; rw [if_neg (by rintro rfl; simp [IT.signed] at h), if_pos h]
theorem conv_unsigned {R : IT} (h : R.signed = false) (hb : R ≠ .bool) (v : Int) : R.conv v = v % 2 ^ R.width := by
  unfold IT.conv; rw [if_neg hb]; simp [h]

theorem val_inj {R : IT} {a b : BitVec R.width} (h : val R a = val R b) : a = b := by
  by_cases hs : R.signed = true
  · rw [val_signed hs, val_signed hs] at h; exact BitVec.eq_of_toInt_eq h
  · rw [val_unsigned (by simpa using hs), val_unsigned (by simpa using hs)] at h
    exact BitVec.eq_of_toNat_eq (by exact_mod_cast h)

theorem val_zero (R : IT) : val R 0#_ = 0 := by
  unfold val; split <;> simp

theorem val_eq_zero {R : IT} {a : BitVec R.width} : val R a = 0 ↔ a = 0#_ :=
  ⟨fun h => val_inj (h.trans (val_zero R).symm), fun h => by rw [h, val_zero]⟩

theorem val_bit (R : IT) (p : Bool) : val R (bit _ p) = if p then 1 else 0 := by
  cases p
  · simp [bit, val_zero]
  · cases R <;> decide

theorem val_add {R : IT} (hb : R ≠ .bool) (a b : BitVec R.width) : val R (a + b) = R.conv (val R a + val R b) := by
  rcases nonbool_cases hb with ⟨h, -⟩ | ⟨h, -⟩
  · rw [val_signed h, val_signed h, val_signed h, conv_signed h, BitVec.toInt_add]
  · rw [val_unsigned h, val_unsigned h, val_unsigned h, conv_unsigned h hb, BitVec.toNat_add]; push_cast; rfl

theorem val_mul {R : IT} (hb : R ≠ .bool) (a b : BitVec R.width) : val R (a * b) = R.conv (val R a * val R b) := by
  rcases nonbool_cases hb with ⟨h, -⟩ | ⟨h, -⟩
  · rw [val_signed h, val_signed h, val_signed h, conv_signed h, BitVec.toInt_mul]
  · rw [val_unsigned h, val_unsigned h, val_unsigned h, conv_unsigned h hb, BitVec.toNat_mul]; push_cast; rfl

theorem val_sub {R : IT} (hb : R ≠ .bool) (a b : BitVec R.width) : val R (a - b) = R.conv (val R a - val R b) := by
  rcases nonbool_cases hb with ⟨h, -⟩ | ⟨h, -⟩
  · rw [val_signed h, val_signed h, val_signed h, conv_signed h, BitVec.toInt_sub]
  · rw [val_unsigned h, val_unsigned h, val_unsigned h, conv_unsigned h hb, BitVec.toNat_sub]
    have := b.isLt
    have e : (((2 ^ R.width - b.toNat + a.toNat : Nat)) : Int) = (a.toNat : Int) - b.toNat + 2 ^ R.width := by
      push_cast [Nat.cast_sub (Nat.le_of_lt this)]; ring
    rw [Int.natCast_emod, e]; push_cast
    rw [Int.add_emod_right]

theorem arith_ok {t : IT} {x v : Int} (h : arith t x = .ok v) : v = t.conv x := by
  unfold arith at h
  split at h
  · simp at h
  · injection h with h; exact h.symm

theorem fold_calc_bool (op : BinOp) (hop : op ≠ .add) (a b : BitVec 1) :
    match foldCalc op .bool a b with
    | .const c => ∀ v, kernel op .bool (val .bool a) (val .bool b) = .ok v → val .bool c = v
    | .unchanged => True
    | .fails _ => False := by
  have ha : a = 0#1 ∨ a = 1#1 := by
    have := a.isLt
    rcases (by omega : a.toNat = 0 ∨ a.toNat = 1) with h | h
    · left; exact BitVec.eq_of_toNat_eq h
    · right; exact BitVec.eq_of_toNat_eq h
  have hb : b = 0#1 ∨ b = 1#1 := by
    have := b.isLt
    rcases (by omega : b.toNat = 0 ∨ b.toNat = 1) with h | h
    · left; exact BitVec.eq_of_toNat_eq h
    · right; exact BitVec.eq_of_toNat_eq h
  cases op <;> (try exact absurd rfl hop) <;> rcases ha with rfl | rfl <;> rcases hb with rfl | rfl <;>
    first
    | trivial
    | (intro v hv; injection hv)

theorem val_lt_iff {R : IT} (hb : R ≠ .bool) (a b : BitVec R.width) :
    (if R.signed then a.slt b else a.ult b) = decide (val R a < val R b) := by
  rcases nonbool_cases hb with ⟨h, -⟩ | ⟨h, -⟩
  · rw [if_pos h, val_signed h, val_signed h]; rfl
  · simp only [h, Bool.false_eq_true, if_false]
    rw [val_unsigned h, val_unsigned h, BitVec.ult]
    simp

theorem val_le_iff {R : IT} (hb : R ≠ .bool) (a b : BitVec R.width) :
    (if R.signed then a.sle b else a.ule b) = decide (val R a ≤ val R b) := by
  rcases nonbool_cases hb with ⟨h, -⟩ | ⟨h, -⟩
  · rw [if_pos h, val_signed h, val_signed h]; rfl
  · simp only [h, Bool.false_eq_true, if_false]
    rw [val_unsigned h, val_unsigned h, BitVec.ule]
    simp

theorem fold_calc (op : BinOp) (R : IT) (hR : R ≠ .bool) (a b : BitVec R.width)
    (hmod : op = .mod → (val R a).natAbs ≤ 2 ^ 53 ∧ (val R b).natAbs ≤ 2 ^ 53) :
    (∃ c, foldCalc op R a b = .const c ∧ ∀ v, kernel op R (val R a) (val R b) = .ok v → val R c = v) ∨
    (∃ m, foldCalc op R a b = .fails m ∧ (op = .div ∨ op = .mod) ∧ val R b = 0 ∧ Res.IsUB (kernel op R (val R a) (val R b))) := by
  have hc := nonbool_cases hR
  have cmp : ∀ (p : BitVec R.width → BitVec R.width → Bool) (q : BitVec R.width → BitVec R.width → Bool) (x y : BitVec R.width),
      (if R.signed then Folded.const (bit R.width (p x y)) else if R.unsigned then .const (bit R.width (q x y)) else .unchanged) =
      Folded.const (bit _ (if R.signed then p x y else q x y)) := by
    intro p q x y
    rcases hc with ⟨h, h'⟩ | ⟨h, h'⟩ <;> simp [h, h']
  cases op with
  | add => left; refine ⟨_, rfl, fun v hv => ?_⟩; rw [arith_ok hv, val_add hR]
  | sub => left; refine ⟨_, rfl, fun v hv => ?_⟩; rw [arith_ok hv, val_sub hR]
  | mul => left; refine ⟨_, rfl, fun v hv => ?_⟩; rw [arith_ok hv, val_mul hR]
  | div =>
    by_cases hz : b = 0#_
    · right
      have hv : val R b = 0 := val_eq_zero.2 hz
      refine ⟨"Can't divide by 0", ?_, Or.inl rfl, hv, ?_⟩
      · unfold foldCalc; rcases hc with ⟨h, h'⟩ | ⟨h, h'⟩ <;> simp [h, h', hz]
      · unfold kernel; simp only [hv, if_true]; exact ⟨_, rfl⟩
    · left
      have hv : val R b ≠ 0 := fun h => hz (val_eq_zero.1 h)
      unfold kernel
      simp only [if_neg hv]
      rcases hc with ⟨h, h'⟩ | ⟨h, h'⟩
      · refine ⟨a.sdiv b, by unfold foldCalc; simp [h, hz], fun v h1 => ?_⟩
        rw [arith_ok h1, val_signed h, val_signed h, val_signed h, conv_signed h, BitVec.toInt_sdiv]
      · refine ⟨a.udiv b, by unfold foldCalc; simp [h, h', hz], fun v h1 => ?_⟩
        rw [arith_ok h1, val_unsigned h, val_unsigned h, val_unsigned h, conv_unsigned h hR, ← Int.ofNat_tdiv]
        have : (a.udiv b).toNat = a.toNat / b.toNat := BitVec.toNat_udiv
        rw [this]
        have h2 : a.toNat / b.toNat < 2 ^ R.width := Nat.lt_of_le_of_lt (Nat.div_le_self _ _) a.isLt
        have h3 : ((a.toNat / b.toNat : Nat) : Int) < 2 ^ R.width := by exact_mod_cast h2
        rw [Int.emod_eq_of_lt (Int.natCast_nonneg _) h3]
  | mod =>
    obtain ⟨ma, mb⟩ := hmod rfl
    unfold kernel
    simp only [toDouble_small ma, toDouble_small mb]
    by_cases hz : b = 0#_
    · right
      have hv : val R b = 0 := val_eq_zero.2 hz
      refine ⟨"Can't compute mod 0", ?_, by simp, hv, ?_⟩
      · unfold foldCalc; rcases hc with ⟨h, h'⟩ | ⟨h, h'⟩ <;> simp [h, h', hz]
      · simp only [hv, if_true]; exact ⟨_, rfl⟩
    · left
      have hv : val R b ≠ 0 := fun h => hz (val_eq_zero.1 h)
      simp only [if_neg hv]
      have key : ∀ v, (if R.InRange ((val R a).tmod (val R b)) then Except.ok ((val R a).tmod (val R b)) else
          (.error (.ub "conversion out of range") : Res Int)) = .ok v → v = (val R a).tmod (val R b) := by
        intro v h
        split at h
        · injection h with h; exact h.symm
        · simp at h
      rcases hc with ⟨h, h'⟩ | ⟨h, h'⟩
      · refine ⟨a.srem b, by unfold foldCalc; simp [h, hz], fun v h1 => ?_⟩
        rw [key v h1, val_signed h, val_signed h, val_signed h, BitVec.toInt_srem]
      · refine ⟨a.umod b, by unfold foldCalc; simp [h, h', hz], fun v h1 => ?_⟩
        rw [key v h1, val_unsigned h, val_unsigned h, val_unsigned h]
        have : (a.umod b).toNat = a.toNat % b.toNat := BitVec.toNat_umod
        rw [this, Int.ofNat_tmod]
  | min =>
    left
    have e : foldCalc .min R a b = .const (if (if R.signed then a.slt b else a.ult b) then a else b) := by
      unfold foldCalc; rcases hc with ⟨h, h'⟩ | ⟨h, h'⟩ <;> simp [h, h']
    refine ⟨_, e, fun v h1 => ?_⟩
    injection h1 with h1
    rw [← h1, val_lt_iff hR]
    by_cases q : val R a < val R b
    · simp [q]; intro; omega
    · simp only [q, decide_false, Bool.false_eq_true, if_false]; split <;> omega
  | max =>
    left
    have e : foldCalc .max R a b = .const (if (if R.signed then b.slt a else b.ult a) then a else b) := by
      unfold foldCalc; rcases hc with ⟨h, h'⟩ | ⟨h, h'⟩ <;> simp [h, h']
    refine ⟨_, e, fun v h1 => ?_⟩
    injection h1 with h1
    rw [← h1, val_lt_iff hR]
    by_cases q : val R b < val R a
    · simp [q]; intro; omega
    · simp only [q, decide_false, Bool.false_eq_true, if_false]; split <;> omega
  | eq =>
    left; refine ⟨_, rfl, fun v h1 => ?_⟩
    injection h1 with h1
    rw [← h1, val_bit, b2i]
    by_cases q : a = b
    · simp [q]
    · have q' : ¬ val R a = val R b := fun h => q (val_inj h)
      simp [q, q']
  | neq =>
    left; refine ⟨_, rfl, fun v h1 => ?_⟩
    injection h1 with h1
    rw [← h1, val_bit, b2i]
    by_cases q : a = b
    · simp [q]
    · have q' : ¬ val R a = val R b := fun h => q (val_inj h)
      simp [q, q']
  | lt =>
    left; refine ⟨_, cmp BitVec.slt BitVec.ult a b, fun v h1 => ?_⟩
    injection h1 with h1
    rw [← h1, val_bit, val_lt_iff hR, b2i]; simp
  | le =>
    left; refine ⟨_, cmp BitVec.sle BitVec.ule a b, fun v h1 => ?_⟩
    injection h1 with h1
    rw [← h1, val_bit, val_le_iff hR, b2i]; simp
  | gt =>
    left; refine ⟨_, cmp BitVec.slt BitVec.ult b a, fun v h1 => ?_⟩
    injection h1 with h1
    rw [← h1, val_bit, val_lt_iff hR, b2i]; simp
  | ge =>
    left; refine ⟨_, cmp BitVec.sle BitVec.ule b a, fun v h1 => ?_⟩
    injection h1 with h1
    rw [← h1, val_bit, val_le_iff hR, b2i]; simp
  | and =>
    left; refine ⟨_, rfl, fun v h1 => ?_⟩
    injection h1 with h1
    rw [← h1, val_bit, b2i]
    simp [val_eq_zero]
  | or =>
    left; refine ⟨_, rfl, fun v h1 => ?_⟩
    injection h1 with h1
    rw [← h1, val_bit, b2i]
    simp [val_eq_zero]

theorem mostGeneral_width (t t' : IT) : (t.width < t'.width → t.mostGeneral t' = t') ∧ (t'.width < t.width → t.mostGeneral t' = t) ∧
    (t.width = t'.width → (t.mostGeneral t').width = t.width) ∧ (t.mostGeneral t' = .bool → t = .bool ∧ t' = .bool) ∧
    t.mostGeneral t' = t'.mostGeneral t := by
  cases t <;> cases t' <;> decide

theorem conv_self (t : IT) (b : BitVec t.width) : t.conv (val t b) = val t b := by
  by_cases hb : t = .bool
  · subst hb
    have := b.isLt
    simp only [IT.conv, val, IT.signed, IT.width] at *
    simp; split <;> omega
  · rcases nonbool_cases hb with ⟨h, -⟩ | ⟨h, -⟩
    · rw [conv_signed h, val_signed h, BitVec.toInt_eq_toNat_bmod, Int.bmod_bmod]
    · rw [conv_unsigned h hb, val_unsigned h]
      have := b.isLt
      exact Int.emod_eq_of_lt (Int.natCast_nonneg _) (by exact_mod_cast this)

theorem promote_ok (t t' : IT) (a : BitVec t.width) (h : ¬ LosesSign t (t.mostGeneral t') (val t a)) :
    ∃ c, promote t t' (t.mostGeneral t') a = some c ∧ val (t.mostGeneral t') c = (t.mostGeneral t').conv (val t a) := by
  obtain ⟨h1, h2, h3, h4, -⟩ := mostGeneral_width t t'
  unfold promote
  by_cases hlt : t.width < t'.width
  · rw [if_pos hlt]
    have e := h1 hlt
    rw [e] at h ⊢
    have hb : t' ≠ .bool := by rintro rfl; cases t <;> simp [IT.width] at hlt
    obtain ⟨c, c1, c2⟩ := (C120_fold_cast t t' a h).1 hb
    rw [c1]
    exact ⟨c, by simp, c2⟩
  · rw [if_neg hlt]
    refine ⟨_, rfl, ?_⟩
    rcases Nat.lt_or_eq_of_le (Nat.le_of_not_lt hlt) with hgt | heq
    · have e := h2 hgt
      rw [e]
      rw [conv_self]; simp
    · have hw := h3 heq.symm
      generalize t.mostGeneral t' = R at *
      by_cases hb : R = .bool
      · obtain ⟨rfl, rfl⟩ := h4 hb
        subst hb
        rw [conv_self]; simp
      · rcases nonbool_cases hb with ⟨hs, -⟩ | ⟨hs, -⟩
        · rw [val_signed hs, conv_signed hs, BitVec.toInt_setWidth]
          by_cases ht : t.signed = true
          · rw [val_signed ht, hw]
            rw [BitVec.toInt_eq_toNat_bmod, Int.bmod_bmod]
          · rw [val_unsigned (by simpa using ht)]
        · rw [val_unsigned hs, conv_unsigned hs hb]
          by_cases ht : t.signed = true
          · rw [val_signed ht]
            exact zext_u_of_signed a (Or.inl (by omega))
          · rw [val_unsigned (by simpa using ht)]; exact zext_u a _

theorem calc_agrees (op : BinOp) (R : IT) (c d : BitVec R.width)
    (hmod : op = .mod → (val R c).natAbs ≤ 2 ^ 53 ∧ (val R d).natAbs ≤ 2 ^ 53) (hadd : ¬ (op = .add ∧ R = .bool)) :
    match foldCalc op R c d with
    | .const e => ∀ v, kernel op R (val R c) (val R d) = .ok v → val R e = v
    | .fails _ => (op = .div ∨ op = .mod) ∧ val R d = 0 ∧ Res.IsUB (kernel op R (val R c) (val R d))
    | .unchanged => R = .bool := by
  by_cases hR : R = .bool
  · subst hR
    have := fold_calc_bool op (fun h => hadd ⟨h, rfl⟩) c d
    cases hf : foldCalc op .bool c d with
    | const e => rw [hf] at this; exact this
    | fails m => rw [hf] at this; exact this.elim
    | unchanged => rfl
  · rcases fold_calc op R hR c d hmod with ⟨e, h1, h2⟩ | ⟨m, h1, h2⟩
    · rw [h1]; exact h2
    · rw [h1]; exact h2

/-- **C122.** A binary operation on two integer constants of any types is folded to the value it has at run time, whenever that
is defined; division and modulo by a constant 0 are rejected. Exceptions (C121, C123, C124): a negative constant with a wider
unsigned type as the other operand, modulo of numbers beyond 2^53, the sum of two booleans. -/
theorem C122_fold_binary (op : BinOp) (t t' : IT) (a : BitVec t.width) (b : BitVec t'.width)
    (ha : ¬ LosesSign t (t.mostGeneral t') (val t a)) (hb : ¬ LosesSign t' (t.mostGeneral t') (val t' b))
    (hmod : op = .mod → ((t.mostGeneral t').conv (val t a)).natAbs ≤ 2 ^ 53 ∧ ((t.mostGeneral t').conv (val t' b)).natAbs ≤ 2 ^ 53)
    (hadd : ¬ (op = .add ∧ t = .bool ∧ t' = .bool)) :
    match foldBinary op t t' a b with
    | .const c => ∀ v, runBinary op t t' (val t a) (val t' b) = .ok v → val (t.mostGeneral t') c = v
    | .fails _ => (op = .div ∨ op = .mod) ∧ (t.mostGeneral t').conv (val t' b) = 0 ∧ Res.IsUB (runBinary op t t' (val t a) (val t' b))
    | .unchanged => t = .bool ∧ t' = .bool := by
  obtain ⟨c, c1, c2⟩ := promote_ok t t' a ha
  obtain ⟨d, d1, d2⟩ : ∃ d, promote t' t (t.mostGeneral t') b = some d ∧ val (t.mostGeneral t') d = (t.mostGeneral t').conv (val t' b) := by
    have e := (mostGeneral_width t t').2.2.2.2
    have := promote_ok t' t b (by rw [← e]; exact hb)
    rw [← e] at this
    exact this
  have hbool := (mostGeneral_width t t').2.2.2.1
  unfold foldBinary runBinary
  rw [c1, d1, ← c2, ← d2]
  simp only
  rw [← c2, ← d2] at hmod
  have := calc_agrees op _ c d hmod (fun h => hadd ⟨h.1, hbool h.2⟩)
  cases hf : foldCalc op (t.mostGeneral t') c d with
  | const e => rw [hf] at this; exact this
  | fails m => rw [hf] at this; exact this
  | unchanged => rw [hf] at this; exact hbool this

/-- The hypotheses of `C122_fold_binary` are met: -7 / 2 with si64 and si8. -/
example : foldBinary .div .si64 .si8 (-7) 2 = .const (-3) ∧ runBinary .div .si64 .si8 (val .si64 (-7)) (val .si8 2) = .ok (-3) := by
  refine ⟨by decide, by rfl⟩

/-- **C123 (refuted).** `MOD` of 64-bit integers is computed on doubles at run time: 9007199254740993 % 2 is folded to 1, but is 0 if
it is not folded. -/
theorem C123_fold_mod_partial :
    foldBinary .mod .si64 .si64 9007199254740993 2 = .const 1 ∧
    runBinary .mod .si64 .si64 (val .si64 9007199254740993) (val .si64 2) = .ok 0 := by
  refine ⟨by decide, ?_⟩
  have h1 : IT.conv .si64 (val .si64 9007199254740993) = 9007199254740993 := by decide
  have h2 : IT.conv .si64 (val .si64 2) = 2 := by decide
  have h3 : toDouble 9007199254740993 = 9007199254740992 := by decide +kernel
  have h4 : toDouble 2 = 2 := by decide +kernel
  unfold runBinary kernel
  show (if toDouble (IT.conv .si64 (val .si64 2)) = 0 then _ else _) = _
  simp only [h1, h2, h3, h4]
  rfl

/-- **C124 (refuted).** The sum of two booleans: `true + true` is folded to false (addition modulo 2), but is true at run time. -/
theorem C124_fold_bool_add_partial :
    foldBinary .add .bool .bool 1 1 = .const 0 ∧ runBinary .add .bool .bool (val .bool 1) (val .bool 1) = .ok 1 := by
  refine ⟨by decide, by rfl⟩

/-- What C121 means for operations: `as.si8(-1) < as.ui32(300)` is folded to true, but false at run time. -/
theorem C121_fold_compare_partial :
    foldBinary .lt .si8 .ui32 (-1) 300 = .const 1 ∧ runBinary .lt .si8 .ui32 (val .si8 (-1)) (val .ui32 300) = .ok 0 := by
  refine ⟨by decide, by rfl⟩

/-! ### Floating-point constants -/

/-- Truncation towards zero, as in C++. -/
def truncQ (v : ℚ) : Int := if 0 ≤ v then ⌊v⌋ else ⌈v⌉

/-- `static_cast<T>(v)` of a (finite) double at run time, CastSca.h:39: `v != 0` for bool; undefined if the truncated value is not
in the range of the type. -/
def castFloatRun (t : IT) (v : ℚ) : Res Int :=
  if t = .bool then .ok (if v = 0 then 0 else 1)
  else if t.InRange (truncQ v) then .ok (truncQ v) else .error (.ub "conversion out of range")

/-- Fold.cpp:67-70: the double is converted to int64_t, and the low bits are taken. -/
def castFloatFold (t : IT) (v : ℚ) : Res (BitVec t.width) :=
  if IT.InRange .si64 (truncQ v) then .ok (BitVec.ofInt t.width (truncQ v)) else .error (.ub "conversion out of range (in the compiler)")

/-- **C126.** A cast of a floating-point constant to an integer type (not bool) is folded to the value it has at run time, if that
is defined and is less than 2^63. -/
theorem C126_fold_cast_float (t : IT) (ht : t ≠ .bool) (v : ℚ) (r : Int) (h : castFloatRun t v = .ok r) (hr : r < 2 ^ 63) :
    ∃ c, castFloatFold t v = .ok c ∧ val t c = r := by
  unfold castFloatRun at h
  rw [if_neg ht] at h
  split at h
  · rename_i hin
    injection h with h
    unfold castFloatFold
    have h64 : IT.InRange .si64 (truncQ v) := by
      rw [h] at hin ⊢
      cases t <;> simp [IT.InRange, IT.signed, IT.width] at * <;> omega
    rw [if_pos h64]
    refine ⟨_, rfl, ?_⟩
    rw [h] at hin ⊢
    rcases nonbool_cases ht with ⟨hs, -⟩ | ⟨hs, -⟩
    · rw [val_signed hs, BitVec.toInt_ofInt]
      cases t <;> simp [IT.InRange, IT.signed, IT.width] at * <;> (refine Int.bmod_eq_of_le ?_ ?_ <;> norm_num <;> omega)
    · rw [val_unsigned hs, BitVec.toNat_ofInt]
      cases t <;> simp [IT.InRange, IT.signed, IT.width] at * <;> omega
  · simp at h

example : castFloatRun .ui8 (-1 / 2) = .ok 0 ∧ castFloatRun .si8 (-7 / 2) = .ok (-3) ∧ castFloatFold .si8 (-7 / 2) = .ok (-3) := by
  have h1 : truncQ (-1 / 2) = 0 := by decide +kernel
  have h2 : truncQ (-7 / 2) = -3 := by decide +kernel
  unfold castFloatRun castFloatFold
  rw [h1, h2]
  refine ⟨by rfl, by rfl, by rfl⟩

/-- **C127 (refuted).** Casts of floating-point constants to bool and to large unsigned integers: 0.5 and 2.0 are true at run time, but
folded to false; as.ui64(1e19) is defined at run time, but converted to int64_t by the compiler. -/
theorem C127_fold_float_bool_partial :
    (∀ v : ℚ, v ≠ 0 → castFloatRun .bool v = .ok 1) ∧ castFloatFold .bool (1 / 2) = .ok 0 ∧ castFloatFold .bool 2 = .ok 0 ∧
    (∀ v : ℚ, 2 ^ 63 ≤ v → v < 2 ^ 64 → castFloatRun .ui64 v = .ok ⌊v⌋ ∧ Res.IsUB (castFloatFold .ui64 v)) := by
  have h1 : truncQ (1 / 2) = 0 := by decide +kernel
  have h2 : truncQ 2 = 2 := by decide +kernel
  refine ⟨fun v hv => by unfold castFloatRun; simp [hv], by unfold castFloatFold; rw [h1]; rfl, by unfold castFloatFold; rw [h2]; rfl, ?_⟩
  intro v hv hv'
  have e : truncQ v = ⌊v⌋ := by unfold truncQ; rw [if_pos (by linarith)]
  have f1 : 2 ^ 63 ≤ ⌊v⌋ := Int.le_floor.2 (by push_cast; exact hv)
  have f2 : ⌊v⌋ < 2 ^ 64 := Int.floor_lt.2 (by push_cast; exact hv')
  constructor
  · unfold castFloatRun
    rw [e, if_neg (by decide), if_pos]
    simp only [IT.InRange, IT.signed, IT.width]
    simp; omega
  · unfold castFloatFold
    rw [e, if_neg]
    · exact ⟨_, rfl⟩
    · simp only [IT.InRange, IT.signed, IT.width]
      simp; omega

/-- A floating-point value as the comparisons see it: `none` is a NaN. (Signed zeros are not distinguished.) -/
abbrev Flt := Option ℚ
def Flt.lt (a b : Flt) : Bool := match a, b with | some a, some b => decide (a < b) | _, _ => false

/-- EwBinarySca.h:160-161: `std::min(lhs, rhs)` returns `rhs < lhs ? rhs : lhs`, `std::max(lhs, rhs)` returns `lhs < rhs ? rhs : lhs`. -/
def minRun (a b : Flt) : Flt := if Flt.lt b a then b else a
def maxRun (a b : Flt) : Flt := if Flt.lt a b then b else a
/-- Fold.cpp:290, 317: `llvm::minimum`, `llvm::maximum` return a NaN if one of the operands is one. -/
def minFold (a b : Flt) : Flt := match a, b with | none, _ => none | _, none => none | some x, some y => some (if y < x then y else x)
def maxFold (a b : Flt) : Flt := match a, b with | none, _ => none | _, none => none | some x, some y => some (if x < y then y else x)

/-- **C125 (partly refuted).** Full statement: `min` and `max` of floating-point constants are folded to the value they have at run
time. True unless exactly the right operand is a NaN; in that case it is false: run time ignores the NaN. -/
theorem C125_fold_minmax_partial (a b : Flt) :
    (¬ (a ≠ none ∧ b = none) → minFold a b = minRun a b ∧ maxFold a b = maxRun a b) ∧
    (a ≠ none → b = none → minFold a b = none ∧ maxFold a b = none ∧ minRun a b = a ∧ maxRun a b = a) := by
  cases a <;> cases b <;> simp [minFold, maxFold, minRun, maxRun, Flt.lt] <;> constructor <;> split <;> rfl

end Verif.Ir
