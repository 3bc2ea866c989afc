import Verif.Nn.Bias
/-
  Model of the backward CPU kernels for neural networks:
    src/runtime/local/kernels/{AvgPoolBackward.h,MaxPoolBackward.h,Conv2DBackwardFilter.h,Conv2DBackwardData.h}, Padding.h:24-34
  Simplifications as in `Verif.Nn.Model`.
-/
namespace Verif.Nn
open Verif Verif.Dense

variable {α : Type}

/-- Padding.h:24-34 `CleanPaddingAndSave`; the state is (padded buffer, result). -/
def cleanPadding (ph pw w h off : Nat) (s : Buf α × Buf α) : Res (Buf α × Buf α) :=
  forLoop 0 h s fun i s => forLoop 0 w s fun j s => do
    let v ← s.1.read (u32 (ph * (w + 2 * pw) + pw + i * (w + 2 * pw) + j))
    let r ← s.2.write (u32 (off + (i * w + j))) v
    .ok (s.1, r)

/-- `res[off] = res[off] + v` on the buffer of a padded gradient. -/
def addAt [Add α] (off : Nat) (v : α) (s : Unit × Buf α) : Res (Unit × Buf α) := do
  let a ← s.2.read off
  let r ← s.2.write off (a + v)
  .ok ((), r)

/-- AvgPoolBackward.h:64-72: the loops for one channel of one image. -/
def avgScatter [Add α] [Mul α] (dOut : DM α) (g : Geo) (P Q : Nat) (plen : α) (i c : Nat) (s : Unit × Buf α) : Res (Unit × Buf α) :=
  forLoop 0 P s fun p s =>
    forLoop 0 g.fh s fun h s =>
      forLoop 0 Q s fun q s =>
        forLoop 0 g.fw s fun w s =>
          rd dOut (i * (g.C * P * Q) + u32 (u32 (c * P) * Q) + p * Q + q) >>= fun d =>
            addAt ((p * g.sh + h) * (g.W + 2 * g.pw) + q * g.sw + w) (plen * d) s

/-- AvgPoolBackward.h:73-76, MaxPoolBackward.h:79-81: save the gradient of one channel of one image, and reset the buffer of the padded gradient. -/
def saveAndReset [Zero α] (g : Geo) (i c : Nat) (s : Buf α × Buf α) : Res (Buf α × Buf α) := do
  let s ← cleanPadding g.ph g.pw g.W g.H (u32 (i * (g.C * (g.H * g.W)) + c * (g.H * g.W))) s
  let p ← forLoop 0 ((g.H + 2 * g.ph) * (g.W + 2 * g.pw)) s.1 fun i b => b.write i 0
  .ok (p, s.2)

/-- AvgPoolBackward.h:37-80. Note the interchanged strides in lines 45-46. -/
def avgPoolBackward [Field α] (dOut : DM α) (g : Geo) : Res (DM α) := do
  let P ← getPQ g.H g.fh g.ph g.sw
  let Q ← getPQ g.W g.fw g.pw g.sh
  let plen : α := 1 / ((g.fw * g.fh : Nat) : α)
  let pad : Buf α := ⟨1 * ((g.H + 2 * g.ph) * (g.W + 2 * g.pw)), fun _ => 0⟩
  let res : Buf α := ⟨g.B * (g.C * (g.H * g.W)), fun _ => 0⟩
  let s ← forLoop 0 g.B (pad, res) fun i s =>
    forLoop 0 g.C s fun c s =>
      avgScatter dOut g P Q plen i c ((), s.1) >>= fun t => saveAndReset g i c (t.2, s.2)
  .ok ⟨Hdr.new g.B (g.C * (g.H * g.W)), s.2⟩

/-- MaxPoolBackward.h:68-74: the position of the first largest pixel of a window. -/
def argmaxLoop [LT α] [DecidableLT α] (inp : Buf α) (g : Geo) (p q : Nat) : Res Nat :=
  forLoop 0 g.fh (p * g.sh * (g.W + 2 * g.pw) + q * g.sw) fun h m =>
    forLoop 0 g.fw m fun w m => do
      let off := (p * g.sh + h) * (g.W + 2 * g.pw) + q * g.sw + w
      let a ← inp.read off
      let b ← inp.read m
      .ok (if b < a then off else m)

/-- MaxPoolBackward.h:66-78: the loops for one channel of one image; `inp` is the padded image. -/
def maxScatter [Add α] [LT α] [DecidableLT α] (inp : Buf α) (dOut : DM α) (g : Geo) (P Q : Nat) (i c : Nat) (s : Unit × Buf α) :
    Res (Unit × Buf α) :=
  forLoop 0 P s fun p s =>
    forLoop 0 Q s fun q s =>
      argmaxLoop inp g p q >>= fun m =>
        rd dOut (i * (g.C * P * Q) + u32 (u32 (c * P) * Q) + p * Q + q) >>= fun d => addAt m d s

/-- MaxPoolBackward.h:37-85; the state is (padded image, (padded gradient, result)). Note the interchanged strides in lines 45-46. -/
def maxPoolBackward [Zero α] [Add α] [LT α] [DecidableLT α] (input dOut : DM α) (g : Geo) : Res (DM α) := do
  let P ← getPQ g.H g.fh g.ph g.sw
  let Q ← getPQ g.W g.fw g.pw g.sh
  let pad : Buf α := ⟨1 * ((g.H + 2 * g.ph) * (g.W + 2 * g.pw)), fun _ => 0⟩
  let res : Buf α := ⟨g.B * (g.C * (g.H * g.W)), fun _ => 0⟩
  let s ← forLoop 0 g.B ((pad, pad), res) fun i s =>
    forLoop 0 g.C s fun c s =>
      padding s.1.1 input g.ph g.pw g.W g.H (u32 (i * (g.C * (g.H * g.W)) + c * (g.H * g.W))) >>= fun inp =>
        maxScatter inp dOut g P Q i c ((), s.1.2) >>= fun t =>
          saveAndReset g i c (t.2, s.2) >>= fun s' => .ok ((inp, s'.1), s'.2)
  .ok ⟨Hdr.new g.B (g.C * (g.H * g.W)), s.2⟩

/-- Conv2DBackwardFilter.h:71-87 `GetGradientMatrix`: the output gradient with `stride - 1` zeros between its values. -/
def gradientMatrix [Zero α] (m : Buf α) (output : DM α) (outH outW mh mw sh sw off : Nat) : Res (Buf α) := do
  let m ← forLoop 0 (mh * mw) m fun i b => b.write i 0
  forLoop 0 outH m fun h b => forLoop 0 outW b fun w b => do
    let v ← rd output (u32 (off + (h * outW + w)))
    b.write (h * sh * mw + w * sw) v

/-- Conv2DBackwardFilter.h:139-149: the loops for one filter, channel and image. Note `p * filter_h` in line 143. -/
def filterScatter [Add α] [Mul α] (g : Geo) (mh mw f c : Nat) (s : (Buf α × Buf α) × Buf α) : Res ((Buf α × Buf α) × Buf α) :=
  forLoop 0 g.fh s fun p s =>
    forLoop 0 g.fw s fun q s =>
      forLoop 0 mh s fun h s =>
        forLoop 0 mw s fun w s => do
          let off := f * (g.C * (g.fh * g.fw)) + c * (g.fh * g.fw) + p * g.fh + q
          let a ← s.2.read off
          let x ← s.1.1.read ((p + h) * (g.W + 2 * g.pw) + q + w)
          let y ← s.1.2.read (h * mw + w)
          let r ← s.2.write off (a + x * y)
          .ok (s.1, r)

/-- Conv2DBackwardFilter.h:91-155 (`K` filters; `filter_num_channels = input_num_channels`). -/
def conv2DBackwardFilter [Zero α] [Add α] [Mul α] (input output : DM α) (g : Geo) (K : Nat) : Res (DM α) := do
  let P ← getPQ g.H g.fh g.ph g.sh
  let Q ← getPQ g.W g.fw g.pw g.sw
  let mh := g.H + 2 * g.ph - (g.fh - 1)
  let mw := g.W + 2 * g.pw - (g.fw - 1)
  let grad : Buf α := ⟨1 * (mh * mw), fun _ => 0⟩
  let pad : Buf α := ⟨1 * ((g.H + 2 * g.ph) * (g.W + 2 * g.pw)), fun _ => 0⟩
  let res : Buf α := ⟨K * (g.C * g.fh * g.fw), fun _ => 0⟩
  let s ← forLoop 0 K ((pad, grad), res) fun f s =>
    forLoop 0 g.C s fun c s =>
      forLoop 0 g.B s fun i s =>
        padding s.1.1 input g.ph g.pw g.W g.H (u32 (i * (g.C * (g.H * g.W)) + c * (g.H * g.W))) >>= fun pad =>
          gradientMatrix s.1.2 output P Q mh mw g.sh g.sw (u32 (i * (K * P * Q) + f * u32 (P * Q))) >>= fun grad =>
            filterScatter g mh mw f c ((pad, grad), s.2)
  .ok ⟨Hdr.new K (g.C * g.fh * g.fw), s.2⟩

/-- Conv2DBackwardData.h:71-81 `GetLossGradientMatrix`. Note the loop bounds `filter_h` and `filter_w`. -/
def lossGradientMatrix [Zero α] (m : Buf α) (output : DM α) (fh fw mh mw sh sw off : Nat) : Res (Buf α) := do
  let m ← forLoop 0 (mh * mw) m fun i b => b.write i 0
  forLoop 0 fh m fun h b => forLoop 0 fw b fun w b => do
    let v ← rd output (u32 (off + (h * fw + w)))
    b.write (u32 ((fh - 1) * mw + fw - 1) + h * sh * mw + w * sw) v

/-- Conv2DBackwardData.h:84-87 `GetRotatedFilter`. -/
def rotatedFilter (rot : Buf α) (filter : DM α) (fh fw off : Nat) : Res (Buf α) :=
  forLoop 0 (fh * fw) rot fun i b => do
    let v ← rd filter (off + fh * fw - i - 1)
    b.write i v

/-- Conv2DBackwardData.h:145-154: the loops for one image, input channel and output channel. Note `pad_h` in line 147. -/
def dataScatter [Add α] [Mul α] (g : Geo) (mw i ci : Nat) (s : (Buf α × Buf α) × Buf α) : Res ((Buf α × Buf α) × Buf α) :=
  forLoop g.ph (g.ph + g.H) s fun ih s =>
    forLoop 0 g.fh s fun fh s =>
      forLoop g.pw (g.ph + g.W) s fun iw s =>
        forLoop 0 g.fw s fun fw s => do
          let off := u32 (i * (g.C * (g.H * g.W)) + ci * (g.H * g.W)) + (ih - g.ph) * g.W + iw - g.pw
          let a ← s.2.read off
          let x ← s.1.2.read (u32 ((ih + fh) * mw + iw + fw))
          let y ← s.1.1.read (fh * g.fw + fw)
          let r ← s.2.write off (a + x * y)
          .ok (s.1, r)

/-- Conv2DBackwardData.h:91-159 (`K` filters; the context is (rotated filter, loss gradient matrix)). -/
def conv2DBackwardData [Zero α] [Add α] [Mul α] (filter output : DM α) (g : Geo) (K : Nat) : Res (DM α) := do
  let P ← getPQ g.H g.fh g.ph g.sh
  let Q ← getPQ g.W g.fw g.pw g.sw
  let mh := g.fh + (g.H + 2 * g.ph) - 1
  let mw := g.fw + (g.W + 2 * g.pw) - 1
  let rot : Buf α := ⟨1 * (g.fh * g.fw), fun _ => 0⟩
  let loss : Buf α := ⟨1 * (mh * mw), fun _ => 0⟩
  let res : Buf α := ⟨g.B * (g.C * g.H * g.W), fun _ => 0⟩
  let s ← forLoop 0 g.B ((rot, loss), res) fun i s =>
    forLoop 0 g.C s fun ci s =>
      forLoop 0 K s fun co s =>
        rotatedFilter s.1.1 filter g.fh g.fw (co * (g.C * g.fh * g.fw) + ci * g.fh * g.fw) >>= fun rot =>
          lossGradientMatrix s.1.2 output g.fh g.fw mh mw g.sh g.sw (u32 (i * (K * P * Q) + co * u32 (P * Q))) >>= fun loss =>
            dataScatter g mw i ci ((rot, loss), s.2)
  .ok ⟨Hdr.new g.B (g.C * g.H * g.W), s.2⟩

end Verif.Nn
