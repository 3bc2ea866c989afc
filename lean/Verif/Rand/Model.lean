/-
  Model of the kernels that draw random numbers: src/runtime/local/kernels/Sample.h and RandMatrix.h (dense and CSR results).

  Randomness.  A generator together with a distribution is an arbitrary infinite sequence of draws (`Nat → V`): theorems quantify over
  all sequences, so they hold for every seed.  Where the code uses one generator with several distributions, each distribution has its own
  sequence (the code's sequences are among those).  A rejection loop (`v = draw(); while (bad(v)) v = draw();`) takes the first acceptable
  draw; if there is none the loop never ends (undefined behaviour for a loop without side effects), recorded as an error.
  Sparsity is an exact rational (the code computes `round(sparsity * cells)` in double arithmetic).  `size_t` arithmetic does not wrap.
-/
import Verif.Csr.Model
import Verif.Dense.Model
import Mathlib.Data.Nat.Find
import Mathlib.Data.Rat.Floor
import Mathlib.Order.Defs.LinearOrder

namespace Verif.Rand
open Verif Verif.Dense Verif.Csr

variable {V : Type}

open Classical in
/-- A rejection loop that starts reading the sequence `g` at position `pos`: the first acceptable draw and the position after it.
Sample.h:107-110 (`bad` = already contained), RandMatrix.h:124-126 and 153-155 (`bad` = equals zero). -/
noncomputable def reject {W : Type} (bad : W → Prop) (g : Nat → W) (pos : Nat) : Res (W × Nat) :=
  if h : ∃ k, ¬ bad (g (pos + k)) then .ok (g (pos + Nat.find h), pos + Nat.find h + 1)
  else .error (.ub "the loop does not terminate")

/-- Sample.h:129: `fmod(draw, rRange) < rSize` (also RandMatrix.h:147); `dbl` is the conversion of an integer to `double`, whose result is
an integer again, and `fmod` of integers is exact. -/
def pick (dbl : Nat → Nat) (draw rRange rSize : Nat) : Bool := decide (dbl draw % dbl rRange < dbl rSize)

/-! ## sample -/

/-- Sample.h:63-70: argument checks (`float` = is the value type a floating-point type).  The range check compares with `size` converted to
the value type. -/
def sampleCheck [LinearOrder V] [Zero V] (ofInt : Int → V) (float : Bool) (range : V) (size : Int) (withRepl : Bool) : Res Unit :=
  if size ≤ 0 then .error (.throw "size (rows) must be > 0")
  else if range ≤ 0 then .error (.throw "range must be > 0")
  else if withRepl = false ∧ float = false ∧ range < ofInt size then .error (.throw "range must be >= size")
  else .ok ()

/-- Sample.h:92-97: with replacement. -/
def sampleRepl (size : Nat) (draw : Nat → V) (m : Buf V) : Res (Buf V) :=
  forLoop 0 size m fun c m => m.write c (draw c)

/-- Sample.h:102-114: without replacement, floating-point values: `contained` is the set of values used so far, `pos` the number of draws. -/
noncomputable def sampleDistinct (size : Nat) (draw : Nat → V) (m : Buf V) : Res (Buf V × List V × Nat) :=
  forLoop 0 size (m, [], 0) fun c (m, contained, pos) => do
    let (v, pos) ← reject (fun v => v ∈ contained) draw pos
    let m ← m.write c v
    .ok (m, v :: contained, pos)

/-- Sample.h:120-133: without replacement, integers: selection by Knuth's method, then `std::shuffle` (`shuf j` is the old position of the
element that ends up at `j`).  The second loop condition is a test in the body. -/
def sampleSelect (dbl : Nat → Nat) (range size : Nat) (draw : Nat → Nat) (shuf : Nat → Nat) (m : Buf Int) : Res (Buf Int) := do
  let (m, _) ← forLoop 0 range (m, 0) fun iRange (m, iSize) =>
    if iSize < size then
      if pick dbl (draw iRange) (range - iRange) (size - iSize) then do
        let m ← m.write iSize (iRange : Int)
        .ok (m, iSize + 1)
      else .ok (m, iSize)
    else .ok (m, iSize)
  .ok { m with data := fun j => if j < size then m.data (shuf j) else m.data j }

/-- Sample.h:62-135, value type int64 or size_t. -/
def sampleInt (dbl : Nat → Nat) (range size : Int) (withRepl : Bool) (draw : Nat → Nat) (shuf : Nat → Nat) (junk : Nat → Int) : Res (DM Int) := do
  sampleCheck id false range size withRepl
  let res := DM.create size.toNat 1 junk
  let m ← if withRepl then sampleRepl size.toNat (fun i => (draw i : Int)) res.mem
          else sampleSelect dbl range.toNat size.toNat draw shuf res.mem
  .ok ⟨res.h, m⟩

/-- The buffer after the floating-point branch, Sample.h:92-114. -/
noncomputable def sampleFloatFill (size : Nat) (withRepl : Bool) (draw : Nat → V) (m : Buf V) : Res (Buf V) :=
  if withRepl then sampleRepl size draw m
  else do
    let (m, _, _) ← sampleDistinct size draw m
    .ok m

/-- Sample.h:62-135, floating-point value type. -/
noncomputable def sampleFloat [LinearOrder V] [Zero V] (ofInt : Int → V) (range : V) (size : Int) (withRepl : Bool) (draw : Nat → V)
    (junk : Nat → V) : Res (DM V) := do
  sampleCheck ofInt true range size withRepl
  let res := DM.create size.toNat 1 junk
  let m ← sampleFloatFill size.toNat withRepl draw res.mem
  .ok ⟨res.h, m⟩

/-! ## rand -/

/-- RandMatrix.h:59-73: `validateArgsRandMatrix`. -/
def validate [LinearOrder V] [Zero V] (rows cols : Nat) (min max : V) (s : Rat) : Res Unit :=
  if ¬ 0 < rows then .error (.throw "numRows must be > 0")
  else if ¬ 0 < cols then .error (.throw "numCols must be > 0")
  else if max < min then .error (.throw "min must be <= max")
  else if min = 0 ∧ max = 0 then .error (.throw "min and max must not both be zero")
  else if s < 0 ∨ 1 < s then .error (.throw "sparsity has to be in the interval [0.0, 1.0]")
  else .ok ()

/-- `size_t(round(q))` for `q ≥ 0`: to the nearest integer, halves up. -/
def roundNat (q : Rat) : Nat := ⌊q + 1 / 2⌋.toNat

/-- RandMatrix.h:104: `std::uniform_int_distribution<int> distrIndex(0, numCols * numRows - 1)`: the upper bound is converted to `int`
(modulo 2^32); a negative bound violates the precondition of the distribution. -/
def distrIndex (cells : Nat) : Res Unit :=
  if (cells - 1) % 2 ^ 32 < 2 ^ 31 then .ok () else .error (.ub "uniform_int_distribution with b < a")

/-- RandMatrix.h:121-132: the first pass writes a non-zero draw or zero into every cell; the state is the buffer and the number of draws. -/
noncomputable def randFill [Zero V] (rows cols : Nat) (dense : Bool) (draw : Nat → V) (res : DM V) : Res (Buf V × Nat) :=
  forLoop 0 rows (res.mem, 0) fun r st =>
    forLoop 0 cols st fun c (m, pos) =>
      if dense then do
        let (v, pos) ← reject (· = 0) draw pos
        let m ← m.write (res.h.start + r * res.h.rowSkip + c) v
        .ok (m, pos)
      else do
        let m ← m.write (res.h.start + r * res.h.rowSkip + c) 0
        .ok (m, pos)

/-- RandMatrix.h:148-156: the update of one selected cell. -/
noncomputable def randFlip [Zero V] (cols : Nat) (dense : Bool) (draw : Nat → V) (h : Hdr) (i : Nat) (m : Buf V) (pos : Nat) : Res (Buf V × Nat) :=
  if dense then do
    let m ← m.write (h.start + (i / cols * h.rowSkip + i % cols)) 0
    .ok (m, pos)
  else do
    let (v, pos) ← reject (· = 0) draw pos
    let m ← m.write (h.start + (i / cols * h.rowSkip + i % cols)) v
    .ok (m, pos)

/-- RandMatrix.h:136-159: the second pass selects `limit` cells; the state is the buffer, the number of draws and `iSize`. -/
noncomputable def randSelect [Zero V] (dbl : Nat → Nat) (rows cols limit : Nat) (dense : Bool) (draw : Nat → V) (ix : Nat → Nat) (h : Hdr)
    (st : Buf V × Nat) : Res (Buf V × Nat × Nat) :=
  forLoop 0 (cols * rows) (st.1, st.2, 0) fun i (m, pos, iSize) =>
    if iSize < limit then
      if pick dbl (ix i) (cols * rows - i) (limit - iSize) then do
        let (m, pos) ← randFlip cols dense draw h i m pos
        .ok (m, pos, iSize + 1)
      else .ok (m, pos, iSize)
    else .ok (m, pos, iSize)

/-- RandMatrix.h:111-116: `insertedValuesLimit`. -/
def randLimit (rows cols : Nat) (s : Rat) : Nat :=
  if 1 / 2 ≤ s then roundNat ((1 - s) * cols * rows) else roundNat (s * cols * rows)

/-- RandMatrix.h:81-162: dense result. -/
noncomputable def randDense [LinearOrder V] [Zero V] (dbl : Nat → Nat) (rows cols : Nat) (min max : V) (s : Rat) (draw : Nat → V)
    (ix : Nat → Nat) (junk : Nat → V) : Res (DM V) := do
  validate rows cols min max s
  let res := DM.create rows cols junk
  distrIndex (cols * rows)
  let st ← randFill rows cols (decide (1 / 2 ≤ s)) draw res
  let (m, _, _) ← randSelect dbl rows cols (randLimit rows cols s) (decide (1 / 2 ≤ s)) draw ix res.h st
  .ok ⟨res.h, m⟩

/-- RandMatrix.h:208-219: random numbers of non-zeros per row, counting up (`nnzPerRow` is the row-offsets array shifted by one).  The
`while` loop increments `assigned` once per accepted draw, so it is a counted loop over accepted draws. -/
noncomputable def rowsUp (rows cols nnz : Nat) (drawRow : Nat → Nat) (offs : Buf Nat) : Res (Buf Nat × Nat) := do
  let offs ← offs.fill 1 (1 + rows) 0
  forLoop 0 nnz (offs, 0) fun _ (offs, pos) => do
    let (r, pos) ← reject (fun r => ¬ offs.data (1 + r) < cols) drawRow pos
    let x ← offs.read (1 + r)
    let offs ← offs.write (1 + r) (x + 1)
    .ok (offs, pos)

/-- RandMatrix.h:220-232: the same, counting down from full rows. -/
noncomputable def rowsDown (rows cols nnz : Nat) (drawRow : Nat → Nat) (offs : Buf Nat) : Res (Buf Nat × Nat) := do
  let offs ← offs.fill 1 (1 + rows) cols
  forLoop 0 (rows * cols - nnz) (offs, 0) fun _ (offs, pos) => do
    let (r, pos) ← reject (fun r => ¬ 0 < offs.data (1 + r)) drawRow pos
    let x ← offs.read (1 + r)
    let offs ← offs.write (1 + r) (x - 1)
    .ok (offs, pos)

/-- Insertion into a `std::set<size_t>`, kept as an ascending list. -/
def insertSet (c : Nat) : List Nat → List Nat
  | [] => [c]
  | x :: l => if c < x then c :: x :: l else if c = x then x :: l else x :: insertSet c l

/-- RandMatrix.h:238-240 and 247-249: draw until the set has `k` elements (each accepted draw adds one). -/
noncomputable def drawSet (k : Nat) (drawCol : Nat → Nat) (pos : Nat) : Res (List Nat × Nat) :=
  forLoop 0 k ([], pos) fun _ (set, pos) => do
    let (c, pos) ← reject (· ∈ set) drawCol pos
    .ok (insertSet c set, pos)

/-- `*colIdxsRes++ = c` for the elements of a list. -/
def writeCols : List Nat → Buf Nat → Nat → Res (Buf Nat × Nat)
  | [], cs, p => .ok (cs, p)
  | c :: l, cs, p => do
    let cs ← cs.write p c
    writeCols l cs (p + 1)

/-- The column indexes of one row: the drawn ones (RandMatrix.h:237-242) or all but the drawn ones (246-252). -/
noncomputable def rowCols (up : Bool) (cols k : Nat) (drawCol : Nat → Nat) (pos : Nat) : Res (List Nat × Nat) :=
  if up then drawSet k drawCol pos
  else do
    let (set, pos) ← drawSet (cols - k) drawCol pos
    .ok ((List.range cols).filter (fun c => decide (c ∉ set)), pos)

/-- RandMatrix.h:233-254: the column indexes of all rows; the state is the array, the write position and the number of draws. -/
noncomputable def allCols (up : Bool) (rows cols : Nat) (drawCol : Nat → Nat) (offs : Buf Nat) (cs : Buf Nat) : Res (Buf Nat × Nat × Nat) :=
  forLoop 0 rows (cs, 0, 0) fun r (cs, p, pos) => do
    let k ← offs.read (1 + r)
    let (l, pos) ← rowCols up cols k drawCol pos
    let (cs, p) ← writeCols l cs p
    .ok (cs, p, pos)

/-- RandMatrix.h:256-259: inclusive prefix sum. -/
def offsSum (rows : Nat) (offs : Buf Nat) : Res (Buf Nat) := do
  let offs ← offs.write 0 0
  forLoop 1 (rows + 1) offs fun i offs => do
    let a ← offs.read i
    let b ← offs.read (i - 1)
    offs.write i (a + b)

/-- RandMatrix.h:208-232: the numbers of non-zeros per row. -/
noncomputable def rowCounts (up : Bool) (rows cols nnz : Nat) (drawRow : Nat → Nat) (offs : Buf Nat) : Res (Buf Nat × Nat) :=
  if up then rowsUp rows cols nnz drawRow offs else rowsDown rows cols nnz drawRow offs

/-- RandMatrix.h:167-261: sparse result. -/
noncomputable def randCsr [LinearOrder V] [Zero V] (rows cols : Nat) (min max : V) (s : Rat) (draw : Nat → V) (drawRow drawCol : Nat → Nat)
    (jv : Nat → V) (jc jo : Nat → Nat) : Res (CM V) := do
  validate rows cols min max s
  let nnz := roundNat (rows * cols * s)
  let res := CM.create rows cols nnz jv jc jo
  let vs ← forLoop 0 nnz res.mem.vals fun i vs => vs.write i (draw i)
  let up := decide (s ≤ 1 / 2)
  let (offs, _) ← rowCounts up rows cols nnz drawRow res.mem.offs
  let (cs, _, _) ← allCols up rows cols drawCol offs res.mem.cols
  let offs ← offsSum rows offs
  .ok ⟨res.h, ⟨vs, cs, offs⟩⟩

end Verif.Rand
