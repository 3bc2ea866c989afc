/-
  Model of the aggregation kernels AggAll.h, AggRow.h, AggCol.h, AggCum.h and AggOpCode.h (src/runtime/local/kernels) for dense
  and CSR arguments; `res == nullptr` throughout.  The specialisations for the abstract `Matrix` type (which go through
  get/set/append) are not modelled.

  Arithmetic of the result value type is a parameter (`VT`): nothing is assumed about it in this file.  Integer overflow is not
  modelled as undefined behaviour; `size_t` arithmetic does not wrap.
-/
import Verif.Dense.Model
import Verif.Csr.Model

namespace Verif.Agg
open Verif Verif.Dense Verif.Csr

/-- AggOpCode.h:25-35. -/
inductive AggOp where
  | sum | prod | min | max | idxmin | idxmax | mean | stddev | var
  deriving DecidableEq, Repr

/-- The binary operations used by the aggregation kernels (BinaryOpCode.h: ADD, MUL, MIN, MAX). -/
inductive BinOp where
  | add | mul | min | max
  deriving DecidableEq, Repr

/-- The arithmetic of a C++ value type, as far as the aggregation kernels use it. -/
structure VT (ρ : Type _) where
  zero : ρ
  one : ρ
  /-- `infinity()` if there is one, otherwise `max()` -/
  top : ρ
  /-- `-infinity()` if there is one, otherwise `min()` -/
  bot : ρ
  /-- `EwBinarySca<op, VT, VT, VT>::apply` -/
  ap : BinOp → ρ → ρ → ρ
  /-- `a - b` -/
  sub : ρ → ρ → ρ
  /-- `n * a` for `size_t n` -/
  times : Nat → ρ → ρ
  /-- `a / n` for `size_t n ≠ 0` (and, for floating-point types, also for `n = 0`) -/
  quot : ρ → Nat → ρ
  /-- integer type: division by zero is undefined -/
  isInt : Bool
  sqrt : ρ → ρ

variable {α ρ : Type}

namespace VT

/-- `a / n`. -/
def div (A : VT ρ) (a : ρ) (n : Nat) : Res ρ :=
  if A.isInt && n == 0 then .error (.ub "integer division by zero") else .ok (A.quot a n)

end VT

/-- AggOpCode.h:38-52: `isPureBinaryReduction`. -/
def isPure : AggOp → Res Bool
  | .sum | .prod | .min | .max => .ok true
  | .mean | .stddev | .var => .ok false
  | _ => .error (.throw "unsupported AggOpCode")

/-- AggOpCode.h:54-70: `getBinaryOpCode`. -/
def binaryOp (op : AggOp) : Res BinOp := do
  let p ← isPure op
  if !p then .error (.throw "Aggregation kernel expects pure binary reduction.")
  else match op with
    | .sum => .ok .add
    | .prod => .ok .mul
    | .min => .ok .min
    | .max => .ok .max
    | _ => .error (.throw "unsupported AggOpCode")

/-- AggOpCode.h:72-90: `getNeutral`. -/
def neutral (A : VT ρ) (op : AggOp) : Res ρ := do
  let p ← isPure op
  if !p then .error (.throw "Aggregation kernel expects pure binary reduction.")
  else match op with
    | .sum => .ok A.zero
    | .prod => .ok A.one
    | .min => .ok A.top
    | .max => .ok A.bot
    | _ => .error (.throw "unsupported AggOpCode")

/-- AggOpCode.h:92-106: `isSparseSafe`. -/
def sparseSafe : AggOp → Res Bool
  | .sum => .ok true
  | .prod | .min | .max | .mean | .stddev | .var => .ok false
  | _ => .error (.throw "unsupported AggOpCode")

/-- How the elements of a `VTArg` array are combined into a `VTRes`: `cast` is `static_cast<VTRes>`, and `bin op` is
`EwBinarySca<op, VTRes, VTArg, VTArg>::apply` on two `VTRes` values, which converts both to `VTArg` first (may be undefined). -/
structure Conv (α ρ : Type _) where
  cast : α → ρ
  bin : BinOp → ρ → ρ → Res ρ

/-- The instantiations with equal argument and result value type. -/
def Conv.same (A : VT ρ) : Conv ρ ρ := ⟨id, fun o a b => .ok (A.ap o a b)⟩

/-- `EwBinarySca<op, VTRes, VTArg, VTArg>::apply` for different types: `back` converts to `VTArg`, `f` computes. -/
def Conv.through (cast : α → ρ) (back : ρ → Res α) (f : BinOp → α → α → ρ) : Conv α ρ :=
  ⟨cast, fun o a b => do
    let x ← back a
    let y ← back b
    .ok (f o x y)⟩

/-- One round of the unrolled loop, AggAll.h:78-83; `i = 4 * k`. -/
def round4 (K : Conv α ρ) (o : BinOp) (v : Buf α) (p : Nat) (k : Nat) (s : ρ × ρ × ρ × ρ) : Res (ρ × ρ × ρ × ρ) := do
  let x0 ← v.read (p + 4 * k)
  let a0 ← K.bin o s.1 (K.cast x0)
  let x1 ← v.read (p + (4 * k + 1))
  let a1 ← K.bin o s.2.1 (K.cast x1)
  let x2 ← v.read (p + (4 * k + 2))
  let a2 ← K.bin o s.2.2.1 (K.cast x2)
  let x3 ← v.read (p + (4 * k + 3))
  let a3 ← K.bin o s.2.2.2 (K.cast x3)
  .ok (a0, a1, a2, a3)

/-- AggAll.h:70-86: the non-empty case. -/
def aggNonEmpty (K : Conv α ρ) (o : BinOp) (v : Buf α) (p n : Nat) (e : ρ) : Res ρ := do
  let s ← forLoop 0 (n / 4) (e, e, e, e) fun k s => round4 K o v p k s
  let l ← K.bin o s.1 s.2.1
  let r ← K.bin o s.2.2.1 s.2.2.2
  let a ← K.bin o l r
  forLoop 0 (n % 4) a fun i a => do
    let x ← v.read (p + (n / 4 * 4 + i))
    K.bin o a (K.cast x)

/-- AggAll.h:70-89. -/
def aggCore (K : Conv α ρ) (o : BinOp) (v : Buf α) (p n : Nat) (e : ρ) : Res ρ :=
  if n ≠ 0 then aggNonEmpty K o v p n e else .ok e

/-- AggAll.h:65-96: `aggAllArray` on the `n` elements of `v` from position `p`. -/
def aggAllArray (A : VT ρ) (K : Conv α ρ) (o : BinOp) (v : Buf α) (p n : Nat) (extraZero : Bool) (e : ρ) : Res ρ := do
  let a ← aggCore K o v p n e
  if extraZero then K.bin o a A.zero else .ok a

/-- The `switch` over op-codes, AggAll.h:136-146, 150-160, 213-223: which binary operation sums up. -/
def switchOp : AggOp → Res BinOp
  | .sum => .ok .add
  | .prod => .ok .mul
  | .min => .ok .min
  | .max => .ok .max
  | .mean => .ok .add
  | .stddev => .ok .add
  | .var => .ok .add
  | _ => .error (.throw "unsupported AggOpCode")

/-- AggAll.h:132-133, 149: the start value. -/
def startValue (A : VT ρ) (op : AggOp) : Res ρ := do
  let p ← isPure op
  if p then neutral A op else .ok A.zero

/-- AggAll.h:101-121, 134-161: reduction of a dense matrix. -/
def reduceDense (A : VT ρ) (K : Conv α ρ) (o : BinOp) (e : ρ) (x : DM α) : Res ρ :=
  if x.numCols = x.h.rowSkip ∨ x.numRows = 1 then aggAllArray A K o x.mem x.h.start (x.numRows * x.numCols) false e
  else forLoop 0 x.numRows e fun r agg => do
    let y ← aggAllArray A K o x.mem (x.h.start + r * x.h.rowSkip) x.numCols false e
    K.bin o agg y

/-- AggAll.h:172-180: sum of the squared differences. -/
def squares (A : VT ρ) (K : Conv α ρ) (m : ρ) (x : DM α) : Res ρ :=
  forLoop 0 x.numRows A.zero fun r s => forLoop 0 x.numCols s fun c s => do
    let v ← x.mem.read (x.addr r c)
    let d := A.sub (K.cast v) m
    .ok (A.ap .add s (A.ap .mul d d))

/-- AggAll.h:165-191: from the sum to mean, variance, standard deviation. -/
def finishDense (A : VT ρ) (K : Conv α ρ) (op : AggOp) (agg : ρ) (x : DM α) : Res ρ := do
  let m ← A.div agg (x.numCols * x.numRows)
  if op = .mean then .ok m
  else do
    let s ← squares A K m x
    let w ← A.div s (x.numCols * x.numRows)
    if op = .var then .ok w else .ok (A.sqrt w)

/-- AggAll.h:125-192: `aggAll` on a dense matrix. -/
def aggAllDense (A : VT ρ) (K : Conv α ρ) (op : AggOp) (x : DM α) : Res ρ := do
  let e ← startValue A op
  let o ← switchOp op
  let agg ← reduceDense A K o e x
  let p ← isPure op
  if p then .ok agg else finishDense A K op agg x

/-- AggAll.h:211-212, 225-226: whether a zero has to be taken into account. -/
def extraZero (op : AggOp) (nnz cells : Nat) : Res Bool := do
  let s ← sparseSafe op
  .ok (!s && decide (nnz < cells))

/-- AggAll.h:234-240 (and AggRow.h:219-222): sum of the squared differences of the stored values. -/
def squaresSparse (A : VT ρ) (K : Conv α ρ) (m : ρ) (v : Buf α) (p nnz : Nat) (s0 : ρ) : Res ρ :=
  forLoop 0 nnz s0 fun i s => do
    let w ← v.read (p + i)
    let d := A.sub (K.cast w) m
    .ok (A.ap .add s (A.ap .mul d d))

/-- AggAll.h:229-251. -/
def finishSparse (A : VT ρ) (K : Conv α ρ) (op : AggOp) (agg : ρ) (x : CM α) (nnz p : Nat) : Res ρ := do
  let m ← A.div agg (x.h.numRows * x.h.numCols)
  if op = .mean then .ok m
  else do
    let s ← squaresSparse A K m x.mem.vals p nnz A.zero
    let s := A.ap .add s (A.ap .mul (A.times (x.h.numRows * x.h.numCols - nnz) m) m)
    let w ← A.div s (x.h.numRows * x.h.numCols)
    if op = .var then .ok w else .ok (A.sqrt w)

/-- AggAll.h:209-254: `aggAll` on a CSR matrix. -/
def aggAllSparse (A : VT ρ) (K : Conv α ρ) (op : AggOp) (x : CM α) : Res ρ := do
  let pure ← isPure op
  let nnz ← x.h.numNonZeros x.mem
  let z ← extraZero op nnz (x.h.numRows * x.h.numCols)
  let p ← x.h.rowPtr x.mem 0
  if pure then do
    let o ← switchOp op
    let e ← neutral A op
    aggAllArray A K o x.mem.vals p nnz z e
  else do
    let agg ← aggAllArray A K .add x.mem.vals p nnz z A.zero
    finishSparse A K op agg x nnz p

/-! ### Row-wise aggregation -/

/-- AggRow.h:73-79 (`lt a b` is `a < b`): position of the smallest value of a row; for IDXMAX (AggRow.h:86-92) the comparison
is `valuesArg[c] > maxVal`. -/
def idxRow (less : α → α → Bool) (x : DM α) (r : Nat) : Res Nat := do
  let v0 ← x.mem.read (x.addr r 0)
  let s ← forLoop 1 x.numCols (v0, 0) fun c s => do
    let v ← x.mem.read (x.addr r c)
    if less v s.1 then .ok (v, c) else .ok s
  .ok s.2

/-- AggRow.h:109-112: left-to-right reduction of a row from its first value; `func` works on `VTRes`. -/
def foldRow (A : VT ρ) (cast : α → ρ) (o : BinOp) (x : DM α) (r : Nat) : Res ρ := do
  let v0 ← x.mem.read (x.addr r 0)
  forLoop 1 x.numCols (cast v0) fun c agg => do
    let v ← x.mem.read (x.addr r c)
    .ok (A.ap o agg (cast v))

/-- The binary operation of `func`, AggRow.h:98-106 and AggCol.h:123-131, 194-203. -/
def funcOp (op : AggOp) : Res BinOp := do
  let p ← isPure op
  if p then binaryOp op else binaryOp .sum

/-- AggRow.h:141-144: sums of the squared differences, row `r`. -/
def squaresRow (A : VT ρ) (cast : α → ρ) (x : DM α) (r : Nat) (m : ρ) : Res ρ :=
  forLoop 0 x.numCols A.zero fun c s => do
    let v ← x.mem.read (x.addr r c)
    let d := A.sub (cast v) m
    .ok (A.ap .add s (A.ap .mul d d))

/-- AggRow.h:122-127: all rows divided by the number of columns. -/
def divRows (A : VT ρ) (n : Nat) (numCols : Nat) (res : DM ρ) : Res (DM ρ) := do
  let m ← forLoop 0 n res.mem fun r m => do
    let v ← m.read (res.addr r 0)
    let q ← A.div v numCols
    m.write (res.addr r 0) q
  .ok ⟨res.h, m⟩

/-- AggRow.h:136-156: variance and standard deviation. `tmp` is the zero-initialised `numRows x 1` matrix. -/
def varRows (A : VT ρ) (cast : α → ρ) (op : AggOp) (x : DM α) (res : DM ρ) : Res (DM ρ) := do
  let tmp := DM.createZero x.numRows 1 A.zero
  let t ← forLoop 0 x.numRows tmp.mem fun r t => do
    let m ← res.mem.read (res.addr r 0)
    let s ← squaresRow A cast x r m
    t.write (tmp.addr r 0) s
  let m ← forLoop 0 x.numRows res.mem fun r m => do
    let s ← t.read (tmp.addr r 0)
    let q ← A.div s x.numCols
    if op = .stddev then m.write (res.addr r 0) (A.sqrt q) else m.write (res.addr r 0) q
  .ok ⟨res.h, m⟩

/-- AggRow.h:61-160: `aggRow` on a dense matrix; `less` compares values of the argument, `ofIdx` is `static_cast<VTRes>` of a
position. Simplification: the running sum of squares of a row is kept in a local instead of `valuesT[r]`. -/
def aggRowDense (A : VT ρ) (cast : α → ρ) (less : α → α → Bool) (ofIdx : Nat → ρ) (junk : Nat → ρ) (op : AggOp) (x : DM α) :
    Res (DM ρ) := do
  let res := DM.create x.numRows 1 junk
  if op = .idxmin then do
    let m ← forLoop 0 x.numRows res.mem fun r m => do
      let i ← idxRow less x r
      m.write (res.addr r 0) (ofIdx i)
    .ok ⟨res.h, m⟩
  else if op = .idxmax then do
    let m ← forLoop 0 x.numRows res.mem fun r m => do
      let i ← idxRow (fun a b => less b a) x r
      m.write (res.addr r 0) (ofIdx i)
    .ok ⟨res.h, m⟩
  else do
    let o ← funcOp op
    let m ← forLoop 0 x.numRows res.mem fun r m => do
      let v ← foldRow A cast o x r
      m.write (res.addr r 0) v
    let p ← isPure op
    if p then .ok ⟨res.h, m⟩
    else do
      let res ← divRows A x.numRows x.numCols ⟨res.h, m⟩
      if op = .mean then .ok res else varRows A cast op x res

/-- AggRow.h:167-176: the loop of the `switch` cases. -/
def rowsSparse (A : VT ρ) (K : Conv α ρ) (o : BinOp) (safe : Bool) (e : ρ) (x : CM α) (res : DM ρ) : Res (DM ρ) := do
  let m ← forLoop 0 x.h.numRows res.mem fun r m => do
    let nnz ← x.h.rowNumNonZeros x.mem r
    let p ← x.h.rowPtr x.mem r
    let v ← aggAllArray A K o x.mem.vals p nnz (!safe && decide (nnz < x.h.numCols)) e
    m.write (res.addr r 0) v
  .ok ⟨res.h, m⟩

/-- AggRow.h:219-230: variance or standard deviation of one row; `p0` is `getValues(0)`. -/
def varRowSparse (A : VT ρ) (K : Conv α ρ) (op : AggOp) (x : CM α) (p0 ctr nnz : Nat) (m : ρ) : Res ρ := do
  let s ← squaresSparse A K m x.mem.vals (p0 + ctr) nnz A.zero
  let s := A.ap .add s (A.ap .mul (A.times (x.h.numCols - nnz) m) m)
  let w ← A.div s x.h.numCols
  if op = .stddev then .ok (A.sqrt w) else .ok w

/-- AggRow.h:212-232: one row of MEAN, STDDEV, VAR; the state is `ctr` and the result memory. -/
def statRowSparse (A : VT ρ) (K : Conv α ρ) (op : AggOp) (x : CM α) (res : DM ρ) (r : Nat) (st : Nat × Buf ρ) :
    Res (Nat × Buf ρ) := do
  let nnz ← x.h.rowNumNonZeros x.mem r
  let p ← x.h.rowPtr x.mem r
  let s ← aggAllArray A K .add x.mem.vals p nnz (!true && decide (nnz < x.h.numCols)) A.zero
  let p0 ← x.h.rowPtr x.mem 0
  let m ← A.div s x.h.numCols
  if op ≠ .mean then do
    let w ← varRowSparse A K op x p0 st.1 nnz m
    let b ← st.2.write (res.addr r 0) w
    .ok (st.1 + nnz, b)
  else do
    let b ← st.2.write (res.addr r 0) m
    .ok (st.1, b)

/-- AggRow.h:179-237: `aggRow` on a CSR matrix. -/
def aggRowSparse (A : VT ρ) (K : Conv α ρ) (junk : Nat → ρ) (op : AggOp) (x : CM α) : Res (DM ρ) := do
  let res := DM.create x.h.numRows 1 junk
  let p ← isPure op
  if p then do
    let safe ← sparseSafe op
    let e ← neutral A op
    let o ← switchOp op
    rowsSparse A K o safe e x res
  else do
    let st ← forLoop 0 x.h.numRows (0, res.mem) fun r st => statRowSparse A K op x res r st
    .ok ⟨res.h, st.2⟩

/-! ### Column-wise aggregation -/

/-- AggCol.h:70-95 and 96-121: positions of the smallest (greatest) values; the state holds `valuesTmp` and `valuesRes`. -/
def idxCols (less : α → α → Bool) (ofIdx : Nat → ρ) (x : DM α) (tmp : Buf α) (res : Buf ρ) : Res (Buf α × Buf ρ) := do
  let tmp ← x.mem.copy x.h.start tmp 0 x.numCols
  let res ← forLoop 0 x.numCols res fun c res => res.write c (ofIdx 0)
  forLoop 1 x.numRows (tmp, res) fun r st => forLoop 0 x.numCols st fun c st => do
    let v ← x.mem.read (x.addr r c)
    let t ← st.1.read c
    if less v t then do
      let tmp ← st.1.write c v
      let res ← st.2.write c (ofIdx r)
      .ok (tmp, res)
    else .ok st

/-- AggCol.h:135-141: the first row, then the others folded in. -/
def foldCols (A : VT ρ) (cast : α → ρ) (o : BinOp) (x : DM α) (res : Buf ρ) : Res (Buf ρ) := do
  let res ← forLoop 0 x.numCols res fun c res => do
    let v ← x.mem.read (x.addr 0 c)
    res.write c (cast v)
  forLoop 1 x.numRows res fun r res => forLoop 0 x.numCols res fun c res => do
    let a ← res.read c
    let v ← x.mem.read (x.addr r c)
    res.write c (A.ap o a (cast v))

/-- AggCol.h:148-149, 244-245: `valuesRes[c] /= numRows`. -/
def divCols (A : VT ρ) (numRows numCols : Nat) (res : Buf ρ) : Res (Buf ρ) :=
  forLoop 0 numCols res fun c res => do
    let v ← res.read c
    let q ← A.div v numRows
    res.write c q

/-- AggCol.h:154-164: sums of the squared differences. -/
def squaresCols (A : VT ρ) (cast : α → ρ) (x : DM α) (res : Buf ρ) (t : Buf ρ) : Res (Buf ρ) :=
  forLoop 0 x.numRows t fun r t => forLoop 0 x.numCols t fun c t => do
    let v ← x.mem.read (x.addr r c)
    let m ← res.read c
    let s ← t.read c
    let d := A.sub (cast v) m
    t.write c (A.ap .add s (A.ap .mul d d))

/-- AggCol.h:166-170. -/
def finishCols (A : VT ρ) (op : AggOp) (numRows numCols : Nat) (t : Buf ρ) : Res (Buf ρ) :=
  forLoop 0 numCols t fun c t => do
    let s ← t.read c
    let q ← A.div s numRows
    t.write c (if op = .stddev then A.sqrt q else q)

/-- AggCol.h:59-177: `aggCol` on a dense matrix. `junk'` is the content of the temporary of IDXMIN/IDXMAX. -/
def aggColDense (A : VT ρ) (cast : α → ρ) (less : α → α → Bool) (ofIdx : Nat → ρ) (junk : Nat → ρ) (junk' : Nat → α)
    (op : AggOp) (x : DM α) : Res (DM ρ) := do
  let res := DM.create 1 x.numCols junk
  if op = .idxmin then do
    let st ← idxCols less ofIdx x ⟨x.numCols, junk'⟩ res.mem
    .ok ⟨res.h, st.2⟩
  else if op = .idxmax then do
    let st ← idxCols (fun a b => less b a) ofIdx x ⟨x.numCols, junk'⟩ res.mem
    .ok ⟨res.h, st.2⟩
  else do
    let o ← funcOp op
    let m ← foldCols A cast o x res.mem
    let p ← isPure op
    if p then .ok ⟨res.h, m⟩
    else do
      let m ← divCols A x.numRows x.numCols m
      if op = .mean then .ok ⟨res.h, m⟩
      else do
        let t ← squaresCols A cast x m ⟨x.numCols, fun _ => A.zero⟩
        let t ← finishCols A op x.numRows x.numCols t
        let m ← t.copy 0 m 0 x.numCols
        .ok ⟨res.h, m⟩

/-- AggCol.h:211-214, 226-230: fold stored values `[lo, hi)` into the result, counting them in `hist`; `cnt = false` for the
sparse-safe case, which keeps no histogram. `p` is `getValues(0)`. -/
def scatter (A : VT ρ) (cast : α → ρ) (o : BinOp) (cnt : Bool) (x : CM α) (p lo hi : Nat) (st : Buf ρ × Buf Nat) :
    Res (Buf ρ × Buf Nat) :=
  forLoop lo hi st fun i st => do
    let c ← x.mem.cols.read (p + i)
    let a ← st.1.read c
    let v ← x.mem.vals.read (p + i)
    let res ← st.1.write c (A.ap o a (cast v))
    if cnt then do
      let k ← st.2.read c
      let h ← st.2.write c (k + 1)
      .ok (res, h)
    else .ok (res, st.2)

/-- AggCol.h:219-223: the stored values of the first row are assigned. -/
def scatterFirst (cast : α → ρ) (x : CM α) (p n : Nat) (st : Buf ρ × Buf Nat) : Res (Buf ρ × Buf Nat) :=
  forLoop 0 n st fun i st => do
    let c ← x.mem.cols.read (p + i)
    let v ← x.mem.vals.read (p + i)
    let res ← st.1.write c (cast v)
    let k ← st.2.read c
    let h ← st.2.write c (k + 1)
    .ok (res, h)

/-- AggCol.h:231-233: a zero for each column with fewer stored values than rows. -/
def zeroCols (A : VT ρ) (o : BinOp) (numRows numCols : Nat) (hist : Buf Nat) (res : Buf ρ) : Res (Buf ρ) :=
  forLoop 0 numCols res fun c res => do
    let k ← hist.read c
    if k < numRows then do
      let a ← res.read c
      res.write c (A.ap o a A.zero)
    else .ok res

/-- AggCol.h:225-234. -/
def restCols (A : VT ρ) (cast : α → ρ) (o : BinOp) (x : CM α) (p n1 nnz : Nat) (st : Buf ρ × Buf Nat) : Res (Buf ρ) :=
  if x.h.numRows > 1 then do
    let st ← scatter A cast o true x p n1 nnz st
    zeroCols A o x.h.numRows x.h.numCols st.2 st.1
  else .ok st.1

/-- AggCol.h:210-237. -/
def reduceColsSparse (A : VT ρ) (cast : α → ρ) (o : BinOp) (safe : Bool) (x : CM α) (p nnz : Nat) (res : Buf ρ) :
    Res (Buf ρ) :=
  if safe then do
    let st ← scatter A cast o false x p 0 nnz (res, ⟨0, fun _ => 0⟩)
    .ok st.1
  else do
    let n1 ← x.h.rowNumNonZeros x.mem 0
    let st ← scatterFirst cast x p n1 (res, ⟨x.h.numCols, fun _ => 0⟩)
    restCols A cast o x p n1 nnz st

/-- AggCol.h:253-259: sums of the squared differences of the stored values, and their number per column. -/
def squaresColsSparse (A : VT ρ) (cast : α → ρ) (x : CM α) (p nnz : Nat) (res : Buf ρ) (st : Buf ρ × Buf Nat) :
    Res (Buf ρ × Buf Nat) :=
  forLoop 0 nnz st fun i st => do
    let c ← x.mem.cols.read (p + i)
    let v ← x.mem.vals.read (p + i)
    let m ← res.read c
    let d := A.sub (cast v) m
    let s ← st.1.read c
    let t ← st.1.write c (A.ap .add s (A.ap .mul d d))
    let k ← st.2.read c
    let h ← st.2.write c (k + 1)
    .ok (t, h)

/-- AggCol.h:261-268. -/
def finishColsSparse (A : VT ρ) (op : AggOp) (numRows numCols : Nat) (res : Buf ρ) (hist : Buf Nat) (t : Buf ρ) : Res (Buf ρ) :=
  forLoop 0 numCols t fun c t => do
    let s ← t.read c
    let m ← res.read c
    let k ← hist.read c
    let q ← A.div (A.ap .add s (A.times (numRows - k) (A.ap .mul m m))) numRows
    t.write c (if op = .stddev then A.sqrt q else q)

/-- AggCol.h:185-276: `aggCol` on a CSR matrix. -/
def aggColSparse (A : VT ρ) (cast : α → ρ) (op : AggOp) (x : CM α) : Res (DM ρ) := do
  let res := DM.createZero 1 x.h.numCols A.zero
  let o ← funcOp op
  let p ← x.h.rowPtr x.mem 0
  let nnz ← x.h.numNonZeros x.mem
  let safe ← sparseSafe op
  let m ← reduceColsSparse A cast o safe x p nnz res.mem
  let pure ← isPure op
  if pure then .ok ⟨res.h, m⟩
  else do
    let m ← divCols A x.h.numRows x.h.numCols m
    if op = .mean then .ok ⟨res.h, m⟩
    else do
      let st ← squaresColsSparse A cast x p nnz m (⟨x.h.numCols, fun _ => A.zero⟩, ⟨x.h.numCols, fun _ => 0⟩)
      let t ← finishColsSparse A op x.h.numRows x.h.numCols m st.2 st.1
      let m ← t.copy 0 m 0 x.h.numCols
      .ok ⟨res.h, m⟩

/-! ### Cumulative aggregation -/

/-- AggCum.h:51-82: `aggCum` on a dense matrix; `f` is `EwBinarySca<op, VTRes, VTRes, VTArg>::apply`, `cast` the conversion of
the first row. -/
def aggCum (f : BinOp → ρ → α → ρ) (cast : α → ρ) (junk : Nat → ρ) (op : AggOp) (x : DM α) : Res (DM ρ) := do
  let p ← isPure op
  if !p then .error (.throw "the aggregation function used in aggCum must be a pure binary reduction")
  else do
    let res := DM.create x.numRows x.numCols junk
    let o ← binaryOp op
    let m ← forLoop 0 x.numCols res.mem fun c m => do
      let v ← x.mem.read (x.addr 0 c)
      m.write (res.addr 0 c) (cast v)
    let m ← forLoop 1 x.numRows m fun r m => forLoop 0 x.numCols m fun c m => do
      let a ← m.read (res.addr (r - 1) c)
      let v ← x.mem.read (x.addr r c)
      m.write (res.addr r c) (f o a v)
    .ok ⟨res.h, m⟩

end Verif.Agg
