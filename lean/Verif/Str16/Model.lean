/-
  Fixed-size strings: `src/runtime/local/datastructures/FixedSizeStringValueType.h`.

  Simplifications: a byte is a number below 256, a `std::string` a list of bytes, the 16-byte buffer a list of length 16. A C string is given
  by its bytes before the terminating NUL. `tolower`/`toupper` are those of the "C" locale.
-/
import Verif.Basic.Res

namespace Verif.Str16
open Verif

/-- `FixedStr16::buffer` — FixedSizeStringValueType.h:35-36. -/
abbrev Fs := List Nat

/-- `FixedStr16(const std::string &)` — FixedSizeStringValueType.h:55-62; `FixedStr16(const char *)` (lines 42-49) and `set` (lines 115-122)
do the same with a C string. -/
def make (s : List Nat) : Res Fs :=
  if s.length ≥ 16 then .error (.throw "string exceeds fixed buffer size")
  else .ok (s ++ List.replicate (16 - s.length) 0)

/-- `std::equal(buffer, buffer + N, other.buffer)` — FixedSizeStringValueType.h:73. -/
def eq (a b : Fs) : Bool := a == b

/-- `std::strncmp(a, b, n)` on arrays of at least `n` bytes (or to the first NUL): the sign of the result. -/
def strncmp : Nat → List Nat → List Nat → Ordering
  | 0, _, _ => .eq
  | n + 1, a, b =>
    let x := a.headD 0
    let y := b.headD 0
    if x < y then .lt else if y < x then .gt else if x = 0 then .eq else strncmp n a.tail b.tail

/-- `operator==(const char *)` — FixedSizeStringValueType.h:75. -/
def eqC (a : Fs) (s : List Nat) : Bool := strncmp 16 a s == .eq

/-- `operator<` — FixedSizeStringValueType.h:83. -/
def lt (a b : Fs) : Bool := strncmp 16 a b == .lt

/-- `operator>` — FixedSizeStringValueType.h:86. -/
def gt (a b : Fs) : Bool := strncmp 16 a b == .gt

/-- `compare` — FixedSizeStringValueType.h:128. -/
def compare (a b : Fs) : Ordering := strncmp 16 a b

/-- `std::strlen` on an array. -/
def strlen : List Nat → Res Nat
  | [] => .error (.ub "strlen reads beyond the end of the buffer")
  | c :: cs => if c = 0 then .ok 0 else strlen cs >>= fun n => .ok (n + 1)

/-- `size` — FixedSizeStringValueType.h:112. -/
def size (a : Fs) : Res Nat := strlen a

/-- `to_string` — FixedSizeStringValueType.h:125. -/
def toString (a : Fs) : Res (List Nat) := size a >>= fun n => .ok (a.take n)

/-- `operator+` — FixedSizeStringValueType.h:89-93 (both constructions from a `char *` stop at the first NUL). -/
def concat (a b : Fs) : Res (List Nat) := do
  let n ← strlen a
  let m ← strlen b
  .ok (a.take n ++ b.take m)

/-- `std::tolower` of the "C" locale. -/
def toLower (c : Nat) : Nat := if 65 ≤ c ∧ c ≤ 90 then c + 32 else c

/-- `std::toupper` of the "C" locale. -/
def toUpper (c : Nat) : Nat := if 97 ≤ c ∧ c ≤ 122 then c - 32 else c

/-- `lower` — FixedSizeStringValueType.h:131-135. -/
def lower (a : Fs) : Fs := a.map toLower

/-- `upper` — FixedSizeStringValueType.h:138-142. -/
def upper (a : Fs) : Fs := a.map toUpper

/-- `operator<<` — FixedSizeStringValueType.h:99-102: the bytes written. -/
def print (a : Fs) : List Nat := a.take 16

/-- `std::hash<FixedStr16>` — FixedSizeStringValueType.h:148-153. -/
def hash (h : List Nat → Nat) (a : Fs) : Nat := h (a.take 16)

end Verif.Str16
