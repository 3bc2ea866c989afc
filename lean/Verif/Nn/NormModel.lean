import Verif.Nn.Scatter
import Verif.Csr.Lemmas
import Mathlib.Algebra.Order.Field.Basic
/-
  Model of the normalisation CPU kernels for neural networks:
    src/runtime/local/kernels/{Softmax.h,BatchNorm2DTrainForward.h,BatchNorm2DTestForward.h,BatchNorm2DBackward.h,Activation.h}
  `std::exp` and `std::sqrt` are parameters; arithmetic is that of a field (no rounding), `std::pow(x, n)` for the constants 2 and 3 is the power.
  The `auto off = 0` of the batch-normalisation kernels is an `int`: offsets of 2^31 and more are undefined.
-/
namespace Verif.Nn
open Verif Verif.Dense Verif.Csr

variable {α : Type}

/-- Softmax.h:35-70 (dense argument). `std::max(a, b)` returns `a` unless `a < b`. -/
def softmaxDense [Field α] [Max α] (exp : α → α) (arg : DM α) : Res (DM α) := do
  let rows := arg.h.numRows
  let n := arg.h.numCols
  let b ← forLoop 0 rows (⟨rows * n, fun _ => 0⟩ : Buf α) fun r b => do
    let v0 ← arg.mem.read (arg.addr r 0)
    let mx ← forLoop 1 n v0 fun c m => do
      let v ← arg.mem.read (arg.addr r c)
      .ok (max m v)
    let s ← forLoop 0 n ((0 : α), b) fun c s => do
      let v ← arg.mem.read (arg.addr r c)
      let b ← s.2.write (r * n + c) (exp (v - mx))
      let w ← b.read (r * n + c)
      .ok (s.1 + w, b)
    forLoop 0 n s.2 fun c b => do
      let w ← b.read (r * n + c)
      b.write (r * n + c) (w * (1 / s.1))
  .ok ⟨Hdr.new rows n, b⟩

/-- Softmax.h:91: `nnz ? rowValues[0] : VT{0}`. -/
def firstOrZero [Zero α] (vals : Buf α) (p nnz : Nat) : Res α := if nnz ≠ 0 then vals.read p else .ok 0

/-- Softmax.h:76-113 (sparse argument). -/
def softmaxSparse [Field α] [Max α] (exp : α → α) (arg : CM α) : Res (DM α) := do
  let rows := arg.h.numRows
  let n := arg.h.numCols
  let b ← forLoop 0 rows (⟨rows * n, fun _ => 0⟩ : Buf α) fun r b => do
    let nnz ← arg.h.rowNumNonZeros arg.mem r
    let p ← arg.h.rowPtr arg.mem r
    let m0 ← firstOrZero arg.mem.vals p nnz
    let m1 := if nnz < n then max m0 0 else m0
    let mx ← forLoop 1 nnz m1 fun i m => do
      let v ← arg.mem.vals.read (p + i)
      .ok (max m v)
    let zv := exp (0 - mx)
    let b ← b.fill (r * n) (r * n + n) zv
    let s ← forLoop 0 nnz (zv * (n : α), b) fun i s => do
      let c ← arg.mem.cols.read (p + i)
      let v ← arg.mem.vals.read (p + i)
      let b ← s.2.write (r * n + c) (exp (v - mx))
      .ok (s.1 + (exp (v - mx) - zv), b)
    forLoop 0 n s.2 fun c b => do
      let w ← b.read (r * n + c)
      b.write (r * n + c) (w * (1 / s.1))
  .ok ⟨Hdr.new rows n, b⟩

/-- A `size_t` assigned to an `int` and used as an index. -/
def asInt (n : Nat) : Res Nat := if n < 2 ^ 31 then .ok n else .error (.ub "index exceeds the range of int")

/-- The five results of the training kernel. -/
structure TrainBufs (α : Type) where
  res : Buf α
  newMean : Buf α
  newVar : Buf α
  mean : Buf α
  invVar : Buf α

/-- BatchNorm2DTrainForward.h:91-105: a sum over all pixels of one channel. -/
def channelSum [Add α] (B CHW HW c : Nat) (a : α) (term : Nat → Res α) : Res α :=
  forLoop 0 B a fun i a => forLoop 0 HW a fun j a => do
    let off ← asInt (i * CHW + c * HW + j)
    let t ← term off
    .ok (a + t)

/-- BatchNorm2DTrainForward.h:90-117: one channel. -/
def trainChannel [Field α] (sqrt : α → α) (inp gamma beta emaMean emaVar : DM α) (eps mu : α) (B CHW HW c : Nat) (s : TrainBufs α) : Res (TrainBufs α) := do
  let m : α := ((B * HW : Nat) : α)
  let mean ← channelSum B CHW HW c (0 : α) fun off => do
    let v ← rd inp off
    .ok (v / m)
  let var ← channelSum B CHW HW c (0 : α) fun off => do
    let v ← rd inp off
    .ok ((v - mean) ^ 2 / m)
  let bm ← s.mean.write c mean
  let bi ← s.invVar.write c (1 / sqrt (var + eps))
  let em ← rd emaMean c
  let bnm ← s.newMean.write c ((1 - mu) * em + mu * mean)
  let ev ← rd emaVar c
  let bnv ← s.newVar.write c ((1 - mu) * ev + mu * var)
  let res ← forLoop 0 B s.res fun i b => forLoop 0 HW b fun j b => do
    let off ← asInt (i * CHW + c * HW + j)
    let v ← rd inp off
    let g ← rd gamma c
    let be ← rd beta c
    b.write off (g * ((v - mean) / sqrt (var + eps)) + be)
  .ok ⟨res, bnm, bnv, bm, bi⟩

/-- The five results as matrices. -/
structure TrainOut (α : Type) where
  res : DM α
  newMean : DM α
  newVar : DM α
  mean : DM α
  invVar : DM α

/-- BatchNorm2DTrainForward.h:63-119; the statistics are allocated as `C x C` matrices. -/
def batchNormTrain [Field α] (sqrt : α → α) (inp gamma beta emaMean emaVar : DM α) (eps mu : α) : Res (TrainOut α) :=
  let B := inp.h.numRows
  let CHW := inp.h.numCols
  let C := gamma.h.numRows
  if C = 0 then .error (.ub "integer division by zero")
  else do
    let HW := CHW / C
    let z : Buf α := ⟨C * C, fun _ => 0⟩
    let s ← forLoop 0 C (⟨⟨B * CHW, fun _ => 0⟩, z, z, z, z⟩ : TrainBufs α) fun c s => trainChannel sqrt inp gamma beta emaMean emaVar eps mu B CHW HW c s
    .ok ⟨⟨Hdr.new B CHW, s.res⟩, ⟨Hdr.new C C, s.newMean⟩, ⟨Hdr.new C C, s.newVar⟩, ⟨Hdr.new C C, s.mean⟩, ⟨Hdr.new C C, s.invVar⟩⟩

/-- BatchNorm2DTestForward.h:78-100. Note that the parameters are indexed by the row, not by the channel. -/
def batchNormInference [Field α] (sqrt : α → α) (inp gamma beta emaMean emaVar : DM α) (eps : α) : Res (DM α) := do
  let rows := inp.h.numRows
  let n := inp.h.numCols
  let b ← forLoop 0 rows (⟨rows * n, fun _ => 0⟩ : Buf α) fun i b => forLoop 0 n b fun j b => do
    let off ← asInt (i * n + j)
    let v ← rd inp off
    let m ← rd emaMean i
    let va ← rd emaVar i
    let g ← rd gamma i
    let be ← rd beta i
    b.write off (g * ((v - m) / sqrt (va + eps)) + be)
  .ok ⟨Hdr.new rows n, b⟩

/-- The three results of the backward kernel. -/
structure BackBufs (α : Type) where
  dX : Buf α
  dGamma : Buf α
  dBeta : Buf α

/-- BatchNorm2DBackward.h:93-125: one channel. -/
def backChannel [Field α] (mean invVar inp dout gamma : DM α) (B CHW HW c : Nat) (s : BackBufs α) : Res (BackBufs α) := do
  let m : α := ((B * HW : Nat) : α)
  let mu ← rd mean c
  let iv ← rd invVar c
  let ga ← rd gamma c
  let t ← forLoop 0 B ((0 : α), (0 : α), (0 : α)) fun i t => forLoop 0 HW t fun j t => do
    let off ← asInt (i * CHW + c * HW + j)
    let d ← rd dout off
    let v ← rd inp off
    .ok (t.1 + d, t.2.1 + d * (v - mu) * iv, t.2.2 - (d * ga) * (v - mu) * (1 / 2) * iv ^ 3)
  let bb ← s.dBeta.write c t.1
  let bg ← s.dGamma.write c t.2.1
  let dMean ← channelSum B CHW HW c (0 : α) fun off => do
    let d ← rd dout off
    let v ← rd inp off
    .ok (d * ga * (-iv) + t.2.2 * (-(2 / m)) * (v - mu))
  let bx ← forLoop 0 B s.dX fun i b => forLoop 0 HW b fun j b => do
    let off ← asInt (i * CHW + c * HW + j)
    let d ← rd dout off
    let v ← rd inp off
    b.write off (d * ga * iv + t.2.2 * (2 / m) * (v - mu) + dMean / m)
  .ok ⟨bx, bg, bb⟩

structure BackOut (α : Type) where
  dX : DM α
  dGamma : DM α
  dBeta : DM α

/-- BatchNorm2DBackward.h:62-127. Simplification: `mean[c]`, `invVar[c]` and `gamma[c]` are read once per channel instead of once per pixel. -/
def batchNormBackward [Field α] (mean invVar inp dout gamma : DM α) : Res (BackOut α) :=
  let B := inp.h.numRows
  let CHW := inp.h.numCols
  let C := gamma.h.numRows
  if C = 0 then .error (.ub "integer division by zero")
  else do
    let HW := CHW / C
    let s ← forLoop 0 C (⟨⟨B * CHW, fun _ => 0⟩, ⟨C * 1, fun _ => 0⟩, ⟨C * 1, fun _ => 0⟩⟩ : BackBufs α) fun c s =>
      backChannel mean invVar inp dout gamma B CHW HW c s
    .ok ⟨⟨Hdr.new B CHW, s.dX⟩, ⟨Hdr.new C 1, s.dGamma⟩, ⟨Hdr.new C 1, s.dBeta⟩⟩

end Verif.Nn
