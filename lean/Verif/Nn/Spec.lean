/-
  Specification side of the neural-network kernels: images, filters, sliding windows.  Nothing here mentions buffers or offsets into
  allocations, except that `img`/`filt`/`outIdx` say how tensors are laid out in the rows of a matrix (doc/DaphneDSL/Builtins.md, section
  "Neural network": one image per row, channel after channel, each channel in row-major order).
-/
import Verif.Dense.Spec

namespace Verif.Nn
open Verif

variable {α : Type}

/-- Shape of a sliding-window operation: `B` images of `C` channels of `H x W` pixels; windows of `fh x fw` pixels, moved by `sh`/`sw`,
over the image with `ph`/`pw` rows/columns of zeros added on each side. -/
structure Geo where
  B : Nat
  C : Nat
  H : Nat
  W : Nat
  fh : Nat
  fw : Nat
  sh : Nat
  sw : Nat
  ph : Nat
  pw : Nat
  deriving DecidableEq, Repr

namespace Geo
/-- height of the padded image -/
def PH (g : Geo) : Nat := g.H + 2 * g.ph
/-- width of the padded image -/
def PW (g : Geo) : Nat := g.W + 2 * g.pw
/-- number of window positions, vertically -/
def P (g : Geo) : Nat := (g.PH - g.fh) / g.sh + 1
/-- number of window positions, horizontally -/
def Q (g : Geo) : Nat := (g.PW - g.fw) / g.sw + 1

/-- The window fits into the padded image, it moves, and it is not empty. -/
structure Legal (g : Geo) : Prop where
  fh : g.fh ≤ g.PH
  fw : g.fw ≤ g.PW
  fh0 : 0 < g.fh
  fw0 : 0 < g.fw
  sh : 0 < g.sh
  sw : 0 < g.sw

instance (g : Geo) : Decidable g.Legal :=
  decidable_of_iff (g.fh ≤ g.PH ∧ g.fw ≤ g.PW ∧ 0 < g.fh ∧ 0 < g.fw ∧ 0 < g.sh ∧ 0 < g.sw)
    ⟨fun ⟨a, b, c, d, e, f⟩ => ⟨a, b, c, d, e, f⟩, fun ⟨a, b, c, d, e, f⟩ => ⟨a, b, c, d, e, f⟩⟩

/-- Everything the kernels count with 32 bits fits into 32 bits (`K` output channels). -/
structure Small (g : Geo) (K : Nat) : Prop where
  inp : g.B * (g.C * (g.H * g.W)) < 2 ^ 32
  out : g.B * (K * (g.P * g.Q)) < 2 ^ 32
  padded : g.PH * g.PW < 2 ^ 32
  ph : g.PH < 2 ^ 32
  pw : g.PW < 2 ^ 32
  sh : g.sh < 2 ^ 32
  sw : g.sw < 2 ^ 32

instance (g : Geo) (K : Nat) : Decidable (g.Small K) :=
  decidable_of_iff (g.B * (g.C * (g.H * g.W)) < 2 ^ 32 ∧ g.B * (K * (g.P * g.Q)) < 2 ^ 32 ∧ g.PH * g.PW < 2 ^ 32 ∧ g.PH < 2 ^ 32 ∧
      g.PW < 2 ^ 32 ∧ g.sh < 2 ^ 32 ∧ g.sw < 2 ^ 32)
    ⟨fun ⟨a, b, c, d, e, f, h⟩ => ⟨a, b, c, d, e, f, h⟩, fun ⟨a, b, c, d, e, f, h⟩ => ⟨a, b, c, d, e, f, h⟩⟩

/-- Pixel `(r, s)` of channel `c` of image `i` in the data matrix. -/
def img (g : Geo) (x : Mat α) (i c r s : Nat) : α := x.cell i (c * (g.H * g.W) + (r * g.W + s))

/-- Pixel `(r, s)` of the zero-padded image. -/
def padded [Zero α] (g : Geo) (x : Mat α) (i c r s : Nat) : α :=
  if g.ph ≤ r ∧ r < g.ph + g.H ∧ g.pw ≤ s ∧ s < g.pw + g.W then g.img x i c (r - g.ph) (s - g.pw) else 0

/-- Weight `(h, w)` for input channel `c` of filter `k`: one filter per row. -/
def filt (g : Geo) (f : Mat α) (k c h w : Nat) : α := f.cell k (c * (g.fh * g.fw) + (h * g.fw + w))

/-- The column, in the result matrix, of position `(p, q)` of output channel `k`. -/
def outIdx (g : Geo) (k p q : Nat) : Nat := k * (g.P * g.Q) + (p * g.Q + q)

/-- The products that make up position `(p, q)` of output channel `k` of image `i`, channel by channel, row by row. -/
def convTerms [Zero α] [Mul α] (g : Geo) (x f : Mat α) (i k p q : Nat) : List α :=
  (List.range g.C).flatMap fun c => (List.range g.fh).flatMap fun h => (List.range g.fw).map fun w =>
    g.padded x i c (p * g.sh + h) (q * g.sw + w) * g.filt f k c h w

/-- Row `h` of the window at position `(p, q)`. -/
def winRow [Zero α] (g : Geo) (x : Mat α) (i c p q h : Nat) : List α :=
  (List.range g.fw).map fun w => g.padded x i c (p * g.sh + h) (q * g.sw + w)

/-- All pixels of the window at position `(p, q)`, row by row. -/
def window [Zero α] (g : Geo) (x : Mat α) (i c p q : Nat) : List α :=
  (List.range g.fh).flatMap fun h => g.winRow x i c p q h

end Geo

/-- The entries of a matrix, row after row. -/
def flat (m : Mat α) (i : Nat) : α := m.cell (i / m.cols) (i % m.cols)

/-- Sum of a list, added from left to right starting with zero (this is the order in which rounding happens for floating-point types). -/
def total [Zero α] [Add α] (l : List α) : α := l.foldl (· + ·) 0

end Verif.Nn
