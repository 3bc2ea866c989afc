import Verif.Nn.Acc
import Verif.Nn.Spec
import Verif.Dense.Lemmas
/-
  Model of the forward CPU kernels for neural networks:
    src/runtime/local/kernels/{Padding.h,Conv2DForward.h,Pooling.h,Pooling.cpp,MaxPoolForward.h,AvgPoolForward.h,BiasAdd.h}
  Simplifications: loop counters are natural numbers (a 32-bit counter never wraps before its loop ends); running offsets (`oix += Q`, `j++`,
  `off += HW`) are written in closed form; `int off_f` does not overflow.  The 32-bit offsets `off_i`, `off_o`, ... and the 32-bit
  arithmetic of `getPQ` do wrap.  The result pointer is null on entry (this is how compiled programs call kernels).
-/
namespace Verif.Nn
open Verif Verif.Dense

variable {α : Type}

/-- Conversion to `uint32_t`. -/
def u32 (n : Nat) : Nat := n % 2 ^ 32

/-- `a - b` in `size_t`. -/
def sub64 (a b : Nat) : Nat := if b ≤ a then a - b else a + 2 ^ 64 - b

/-- `x->getValues()[i]`: the raw pointer, which does not know the row skip of `x`. DenseMatrix.h `getValues`. -/
def rd (x : DM α) (i : Nat) : Res α := x.mem.read (x.h.start + i)

/-- Padding.h:6-9. -/
def getPQ (imgE filtE padE strideE : Nat) : Res Nat :=
  if u32 strideE = 0 then .error (.ub "integer division by zero")
  else .ok (u32 (u32 (u32 (u32 imgE + 2 * u32 padE) + 2 ^ 32 - u32 filtE) / u32 strideE + 1))

/-- Padding.h:11-22 (`off`: the `uint32_t` parameter). -/
def padding [Zero α] (pad : Buf α) (input : DM α) (ph pw w h off : Nat) : Res (Buf α) := do
  let pad ← forLoop 0 (h * w) pad fun i b => b.write i 0
  forLoop 0 h pad fun i b => forLoop 0 w b fun k b => do
    let v ← rd input (u32 (off + (i * w + k)))
    b.write (ph * (w + 2 * pw) + pw + i * (w + 2 * pw) + k) v

/-- The three results of a forward kernel. -/
structure Out (α : Type) where
  res : DM α
  resH : Nat
  resW : Nat

/-- Conv2DForward.h:117-127: one step of the innermost loop. -/
def convStep [Add α] [Mul α] (filter : DM α) (offO offP offF : Nat) (s : Buf α × Buf α) : Res (Buf α × Buf α) := do
  let a ← s.2.read offO
  let x ← s.1.read offP
  let f ← rd filter offF
  let r ← s.2.write offO (a + x * f)
  .ok (s.1, r)

/-- Conv2DForward.h:130-131: one step of the bias loop. -/
def biasStep [Add α] (bias : DM α) (off k : Nat) (s : Buf α × Buf α) : Res (Buf α × Buf α) := do
  let a ← s.2.read off
  let b ← rd bias k
  let r ← s.2.write off (a + b)
  .ok (s.1, r)

/-- Conv2DForward.h:111-128: the loops for one image, output channel and input channel. -/
def convChannel [Zero α] [Add α] [Mul α] (data filter : DM α) (g : Geo) (P Q PQ CPQ i cn c : Nat) (s : Buf α × Buf α) :
    Res (Buf α × Buf α) :=
  padding s.1 data g.ph g.pw g.W g.H (u32 (i * (g.C * (g.H * g.W)) + c * (g.H * g.W))) >>= fun pad =>
    forLoop 0 P (pad, s.2) fun p s =>
      forLoop 0 (min g.fh (sub64 (g.H + 2 * g.ph) (p * g.sh))) s fun h s =>
        forLoop 0 Q s fun q s =>
          forLoop 0 (min g.fw (sub64 (g.W + 2 * g.pw) (q * g.sw))) s fun w s =>
            convStep filter (u32 (i * CPQ + cn * PQ + p * Q + q))
              (u32 ((p * g.sh + h) * (g.W + 2 * g.pw) + q * g.sw + w))
              (cn * (g.C * g.fh * g.fw) + c * g.fh * g.fw + h * g.fw + w) s

/-- Conv2DForward.h:70-137: `Conv2DForward<DenseMatrix, DenseMatrix>::apply`. -/
def conv2DForward [Zero α] [Add α] [Mul α] (data filter bias : DM α) (g : Geo) : Res (Out α) := do
  let P ← getPQ g.H g.fh g.ph g.sh
  let Q ← getPQ g.W g.fw g.pw g.sw
  let K := filter.h.numRows
  let PQ := u32 (P * Q)
  let CPQ := K * PQ
  let pad : Buf α := ⟨1 * ((g.H + 2 * g.ph) * (g.W + 2 * g.pw)), fun _ => 0⟩
  let res : Buf α := ⟨g.B * CPQ, fun _ => 0⟩
  let s ← forLoop 0 g.B (pad, res) fun i s =>
    forLoop 0 K s fun cn s =>
      forLoop 0 g.C s (fun c s => convChannel data filter g P Q PQ CPQ i cn c s) >>= fun s =>
        forLoop 0 PQ s fun l s => biasStep bias (i * CPQ + cn * PQ + l) cn s
  .ok ⟨⟨Hdr.new g.B CPQ, s.2⟩, P, Q⟩

/-- DaphneDSLBuiltins.cpp:381-414 `createConv2dFwdOp`: the operands of the kernel for `conv2d(X, F, ...)` with 12 arguments (no bias) and with
13 arguments. -/
def conv2d [Zero α] [Add α] [Mul α] (data filter : DM α) (bias : Option (DM α)) (g : Geo) : Res (Out α) :=
  match bias with
  | none => conv2DForward data filter filter g
  | some b => conv2DForward data filter b g

/-- The operations `AVG` and `MAX` (Pooling.h:32-59): how a run of `length` values starting at `start` is combined with the value so far. -/
structure PoolOp (α : Type) where
  run : α → (Nat → Res α) → Nat → Nat → α → Res α
  neutral : α

/-- Pooling.h:32-43. -/
def avgOp [Zero α] [Add α] [Mul α] : PoolOp α where
  run := fun init inp start len plen =>
    forLoop 0 len (0 : α) (fun i ret => inp (start + i) >>= fun v => .ok (ret + v)) >>= fun ret => .ok (ret * plen + init)
  neutral := 0

/-- Pooling.h:45-59; `top` is `std::numeric_limits<VT>::max()`. -/
def maxOp (top : α) [Max α] : PoolOp α where
  run := fun init inp start len _plen =>
    forLoop 0 len init (fun i ret => inp (start + i) >>= fun v => .ok (max ret v))
  neutral := top

/-- One assignment `res[off] = OP::run(res[off], in, start, len, plen)`. -/
def poolStep (op : PoolOp α) (inp : Nat → Res α) (off start len : Nat) (plen : α) (s : Buf α × Buf α) : Res (Buf α × Buf α) := do
  let a ← s.2.read off
  let v ← op.run a inp start len plen
  let r ← s.2.write off v
  .ok (s.1, r)

/-- Pooling.cpp:58-67: the path for `P = Q = W = 1`. -/
def poolQuick (op : PoolOp α) (data : DM α) (g : Geo) (plen : α) (s : Buf α × Buf α) : Res (Buf α × Buf α) :=
  forLoop 0 g.B s fun i s =>
    forLoop 0 g.C s fun c s => do
      let v ← op.run op.neutral (rd data) (u32 (i * (g.C * (g.H * g.W)) + c * g.H)) (u32 (min g.fh g.H)) plen
      let r ← s.2.write (i * g.C + c) v
      .ok (s.1, r)

/-- Pooling.cpp:68-78 (strides 1, no padding) and 79-91 (no padding); the first is the second with both strides 1. -/
def poolNoPad (op : PoolOp α) (data : DM α) (g : Geo) (sh sw : Nat) (P Q : Nat) (plen : α) (s : Buf α × Buf α) :
    Res (Buf α × Buf α) :=
  forLoop 0 g.B s fun i s =>
    forLoop 0 g.C s fun c s =>
      forLoop 0 P s fun p s =>
        forLoop (p * sh) (min (p * sh + g.fh) g.H) s fun h s =>
          forLoop 0 Q s fun q s =>
            poolStep op (rd data) (u32 (i * (g.C * P * Q) + (c * P + p) * Q + q))
              (u32 (i * (g.C * (g.H * g.W)) + c * (g.H * g.W) + h * g.W + q * sw)) (min g.fw (sub64 g.W (q * sw))) plen s

/-- Pooling.cpp:92-106: the general path. -/
def poolPad [Zero α] (op : PoolOp α) (data : DM α) (g : Geo) (P Q : Nat) (plen : α) (s : Buf α × Buf α) : Res (Buf α × Buf α) :=
  forLoop 0 g.B s fun i s =>
    forLoop 0 g.C s fun c s =>
      padding s.1 data g.ph g.pw g.W g.H (u32 (i * (g.C * (g.H * g.W)) + c * (g.H * g.W))) >>= fun pad =>
        forLoop 0 P (pad, s.2) fun p s =>
          forLoop (p * g.sh) (min (p * g.sh + g.fh) (g.H + 2 * g.ph)) s fun h s =>
            forLoop 0 Q s fun q s =>
              poolStep op s.1.read (u32 (i * (g.C * P * Q) + (c * P + p) * Q + q))
                (u32 (h * (g.W + 2 * g.pw) + q * g.sw)) (min g.fw (sub64 (g.W + 2 * g.pw) (q * g.sw))) plen s

/-- Pooling.cpp:28-108: `Forward<OP, DTRes, DTArg>::apply`; `plen` is `1 / (pool_w * pool_h)`.  Note `stride_w` in the call for `P` and
`stride_h` in the call for `Q` (lines 37-38). -/
def poolForward [Zero α] (op : PoolOp α) (data : DM α) (g : Geo) (plen : α) : Res (Out α) := do
  let P ← getPQ g.H g.fh g.ph g.sw
  let Q ← getPQ g.W g.fw g.pw g.sh
  let CPQ := g.C * P * Q
  let pad : Buf α := ⟨1 * ((g.H + 2 * g.ph) * (g.W + 2 * g.pw)), fun _ => 0⟩
  let res : Buf α := ⟨g.B * CPQ, fun _ => 0⟩
  let s ←
    if P = 1 ∧ Q = 1 ∧ g.W = 1 then poolQuick op data g plen (pad, res)
    else if g.sw = 1 ∧ g.sh = 1 ∧ g.ph = 0 ∧ g.pw = 0 then poolNoPad op data g 1 1 P Q plen (pad, res)
    else if g.ph = 0 ∧ g.pw = 0 then poolNoPad op data g g.sh g.sw P Q plen (pad, res)
    else poolPad op data g P Q plen (pad, res)
  .ok ⟨⟨Hdr.new g.B CPQ, s.2⟩, P, Q⟩

/-- BiasAdd.h:48-50: one step of the loops (the loop state is the result buffer). -/
def biasAddStep [Add α] (input bias : DM α) (off c : Nat) (s : Unit × Buf α) : Res (Unit × Buf α) := do
  let x ← rd input off
  let b ← rd bias c
  let r ← s.2.write off (x + b)
  .ok ((), r)

/-- BiasAdd.h:36-52. -/
def biasAdd [Zero α] [Add α] (input bias : DM α) : Res (DM α) :=
  let C := bias.h.numRows
  let CHW := input.h.numCols
  if C = 0 then .error (.ub "integer division by zero")
  else
    let HW := CHW / C
    forLoop 0 input.h.numRows ((), (⟨input.h.numRows * CHW, fun _ => 0⟩ : Buf α)) (fun i s =>
      forLoop 0 C s fun c s =>
        forLoop 0 HW s fun j s => biasAddStep input bias (i * CHW + c * HW + j) c s) >>= fun s =>
    .ok ⟨Hdr.new input.h.numRows CHW, s.2⟩

/-- A dimension argument of an operation as the compiler sees it: a constant, or unknown. CompilerUtils.h `constantOrDefault<size_t>(v, 1)`. -/
def orOne (c : Option Nat) : Nat := c.getD 1

/-- DaphneInferShapeOpInterface.cpp:339-340 (and 362-363, 381-382): `std::floor((Hin + 2 * padh - Hf) / strideh + 1)`; all operands are `size_t`, so
this is an integer division. -/
def inferExtent (inE f pad stride : Option Nat) : Res Nat :=
  if orOne stride = 0 then .error (.ub "integer division by zero")
  else .ok (sub64 (orOne inE + 2 * orOne pad) (orOne f) / orOne stride + 1)

/-- The dimension arguments of a convolution or pooling operation, as far as they are compile-time constants. -/
structure GeoC where
  C : Option Nat
  H : Option Nat
  W : Option Nat
  fh : Option Nat
  fw : Option Nat
  sh : Option Nat
  sw : Option Nat
  ph : Option Nat
  pw : Option Nat

/-- All arguments are constants. -/
def GeoC.ofGeo (g : Geo) : GeoC := ⟨some g.C, some g.H, some g.W, some g.fh, some g.fw, some g.sh, some g.sw, some g.ph, some g.pw⟩

/-- The compile-time view agrees with the run-time arguments. -/
def GeoC.Agrees (k : GeoC) (g : Geo) : Prop :=
  (∀ v, k.C = some v → v = g.C) ∧ (∀ v, k.H = some v → v = g.H) ∧ (∀ v, k.W = some v → v = g.W) ∧ (∀ v, k.fh = some v → v = g.fh) ∧
  (∀ v, k.fw = some v → v = g.fw) ∧ (∀ v, k.sh = some v → v = g.sh) ∧ (∀ v, k.sw = some v → v = g.sw) ∧ (∀ v, k.ph = some v → v = g.ph) ∧
  (∀ v, k.pw = some v → v = g.pw)

/-- DaphneInferShapeOpInterface.cpp:325-349: `Conv2DForwardOp::inferShape`, first result; `none` is an unknown dimension. -/
def inferConv (rowsX rowsF : Option Nat) (k : GeoC) : Res (Option Nat × Option Nat) := do
  let ho ← inferExtent k.H k.fh k.ph k.sh
  let wo ← inferExtent k.W k.fw k.pw k.sw
  .ok (rowsX, rowsF.map fun F => F * ho * wo)

/-- DaphneInferShapeOpInterface.cpp:351-368 and 370-387: `AvgPoolForwardOp::inferShape`, `MaxPoolForwardOp::inferShape`, first result. -/
def inferPool (rowsX : Option Nat) (k : GeoC) : Res (Option Nat × Option Nat) := do
  let ho ← inferExtent k.H k.fh k.ph k.sh
  let wo ← inferExtent k.W k.fw k.pw k.sw
  .ok (rowsX, some (orOne k.C * ho * wo))

end Verif.Nn
