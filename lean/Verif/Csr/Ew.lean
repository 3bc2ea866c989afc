/-
  C47: elementwise addition and multiplication of sparse matrices. EwBinaryMat.h:114-330 (with `res == nullptr`).
-/
import Verif.Csr.Sink
import Verif.Dense.Ew

namespace Verif.Csr
open Verif Verif.Vect
variable {α : Type}

/-! ### Model -/

/-- EwBinaryMat.h:163-188: merging loop of one row; `l`, `r`, `p` are array positions in lhs, rhs and result, `le`, `re` the row
ends. Yields the final positions. The first argument bounds the iterations (`(le - l) + (re - r)` suffices). -/
def mergeRow [DecidableEq α] (zero : α) (f : α → α → α) (x y : CMem α) (le re : Nat) :
    Nat → Nat → Nat → Nat → Buf α → Buf Nat → Res (Nat × Nat × Nat × Buf α × Buf Nat)
  | 0, l, r, p, vs, cs => .ok (l, r, p, vs, cs)
  | fuel + 1, l, r, p, vs, cs =>
    if l < le ∧ r < re then do
      let cl ← x.cols.read l
      let cr ← y.cols.read r
      if cl = cr then do
        let a ← x.vals.read l
        let b ← y.vals.read r
        if f a b ≠ zero then do
          let vs ← vs.write p (f a b)
          let cs ← cs.write p cl
          mergeRow zero f x y le re fuel (l + 1) (r + 1) (p + 1) vs cs
        else mergeRow zero f x y le re fuel (l + 1) (r + 1) p vs cs
      else if cl < cr then do
        let a ← x.vals.read l
        let vs ← vs.write p a
        let cs ← cs.write p cl
        mergeRow zero f x y le re fuel (l + 1) r (p + 1) vs cs
      else do
        let b ← y.vals.read r
        let vs ← vs.write p b
        let cs ← cs.write p cr
        mergeRow zero f x y le re fuel l (r + 1) (p + 1) vs cs
    else .ok (l, r, p, vs, cs)

/-- EwBinaryMat.h:149-215: one row of the sum, starting at position `p`; yields the end position. -/
def addRow [DecidableEq α] (zero : α) (f : α → α → α) (x y : CM α) (row p : Nat) (vs : Buf α) (cs : Buf Nat) : Res (Nat × Buf α × Buf Nat) := do
  let nl ← x.h.rowNumNonZeros x.mem row
  let nr ← y.h.rowNumNonZeros y.mem row
  if nl ≠ 0 ∧ nr ≠ 0 then do
    let bl ← x.h.rowPtr x.mem row
    let br ← y.h.rowPtr y.mem row
    let (l, r, q, vs, cs) ← mergeRow zero f x.mem y.mem (bl + nl) (br + nr) (nl + nr) bl br p vs cs
    let vs ← x.mem.vals.copy l vs q (bl + nl - l)
    let cs ← x.mem.cols.copy l cs q (bl + nl - l)
    let vs ← y.mem.vals.copy r vs q (br + nr - r)
    let cs ← y.mem.cols.copy r cs q (br + nr - r)
    .ok (q + (bl + nl - l) + (br + nr - r), vs, cs)
  else if nl ≠ 0 then do
    let bl ← x.h.rowPtr x.mem row
    let vs ← x.mem.vals.copy bl vs p nl
    let cs ← x.mem.cols.copy bl cs p nl
    .ok (p + nl, vs, cs)
  else if nr ≠ 0 then do
    let br ← y.h.rowPtr y.mem row
    let vs ← y.mem.vals.copy br vs p nr
    let cs ← y.mem.cols.copy br cs p nr
    .ok (p + nr, vs, cs)
  else .ok (p, vs, cs)

/-- EwBinaryMat.h:233-248: intersecting loop of one row. -/
def intersectRow (f : α → α → α) (x y : CMem α) (le re : Nat) :
    Nat → Nat → Nat → Nat → Buf α → Buf Nat → Res (Nat × Buf α × Buf Nat)
  | 0, _, _, p, vs, cs => .ok (p, vs, cs)
  | fuel + 1, l, r, p, vs, cs =>
    if l < le ∧ r < re then do
      let cl ← x.cols.read l
      let cr ← y.cols.read r
      if cl = cr then do
        let a ← x.vals.read l
        let b ← y.vals.read r
        let vs ← vs.write p (f a b)
        let cs ← cs.write p cl
        intersectRow f x y le re fuel (l + 1) (r + 1) (p + 1) vs cs
      else if cl < cr then intersectRow f x y le re fuel (l + 1) r p vs cs
      else intersectRow f x y le re fuel l (r + 1) p vs cs
    else .ok (p, vs, cs)

/-- EwBinaryMat.h:219-254: one row of the product. -/
def mulRow (f : α → α → α) (x y : CM α) (row p : Nat) (vs : Buf α) (cs : Buf Nat) : Res (Nat × Buf α × Buf Nat) := do
  let nl ← x.h.rowNumNonZeros x.mem row
  let nr ← y.h.rowNumNonZeros y.mem row
  if nl ≠ 0 ∧ nr ≠ 0 then do
    let bl ← x.h.rowPtr x.mem row
    let br ← y.h.rowPtr y.mem row
    intersectRow f x.mem y.mem (bl + nl) (br + nr) (nl + nr) bl br p vs cs
  else .ok (p, vs, cs)

/-- The loop over the rows: EwBinaryMat.h:144-149 and 306-324. `res->getValues(rowIdx)` starts at `rowOffsetsRes[rowIdx]`, which has
been written by the previous iteration. -/
def rowsLoop (numRows : Nat) (rowFn : Nat → Nat → Buf α → Buf Nat → Res (Nat × Buf α × Buf Nat)) (m : CMem α) : Res (CMem α) := do
  let offs ← m.offs.write 0 0
  forLoop 0 numRows (⟨m.vals, m.cols, offs⟩ : CMem α) fun row m => do
    let p ← m.offs.read row
    let (e, vs, cs) ← rowFn row p m.vals m.cols
    let offs ← m.offs.write (row + 1) e
    .ok ⟨vs, cs, offs⟩

/-- EwBinaryMat.h:114-262 with `opCode == ADD`; `f` is the scalar function. -/
def ewAdd [DecidableEq α] (zero : α) (f : α → α → α) (x y : CM α) (jv : Nat → α) (jc jo : Nat → Nat) : Res (CM α) :=
  if x.h.numRows ≠ y.h.numRows ∨ x.h.numCols ≠ y.h.numCols then .error (.throw "lhs and rhs must have the same dimensions")
  else do
    let nl ← x.h.numNonZeros x.mem
    let nr ← y.h.numNonZeros y.mem
    let res := CM.create x.h.numRows x.h.numCols (nl + nr) jv jc jo
    let m ← rowsLoop x.h.numRows (addRow zero f x y) res.mem
    .ok ⟨res.h, m⟩

/-- EwBinaryMat.h:114-262 with `opCode == MUL`. -/
def ewMul (f : α → α → α) (x y : CM α) (jv : Nat → α) (jc jo : Nat → Nat) : Res (CM α) :=
  if x.h.numRows ≠ y.h.numRows ∨ x.h.numCols ≠ y.h.numCols then .error (.throw "lhs and rhs must have the same dimensions")
  else do
    let nl ← x.h.numNonZeros x.mem
    let nr ← y.h.numNonZeros y.mem
    let res := CM.create x.h.numRows x.h.numCols (min nl nr) jv jc jo
    let m ← rowsLoop x.h.numRows (mulRow f x y) res.mem
    .ok ⟨res.h, m⟩

/-- EwBinaryMat.h:301-324: one row of the product with a dense matrix (or dense vector). -/
def mulDenseRow [DecidableEq α] (zero : α) (f : α → α → α) (x : CM α) (y : Dense.DM α) (row p : Nat) (vs : Buf α) (cs : Buf Nat) :
    Res (Nat × Buf α × Buf Nat) := do
  let nl ← x.h.rowNumNonZeros x.mem row
  if nl ≠ 0 then do
    let bl ← x.h.rowPtr x.mem row
    forLoop bl (bl + nl) (p, vs, cs) fun q (p, vs, cs) => do
      let c ← x.mem.cols.read q
      let b ← y.h.get y.mem (if y.h.numRows = 1 then 0 else row) (if y.h.numCols = 1 then 0 else c)
      if b ≠ zero then do
        let a ← x.mem.vals.read q
        let vs ← vs.write p (f a b)
        let c ← x.mem.cols.read q
        let cs ← cs.write p c
        .ok (p + 1, vs, cs)
      else .ok (p, vs, cs)
  else .ok (p, vs, cs)

/-- EwBinaryMat.h:268-330: sparse times dense, with `opCode == MUL`. -/
def ewMulDense [DecidableEq α] (zero : α) (f : α → α → α) (x : CM α) (y : Dense.DM α) (jv : Nat → α) (jc jo : Nat → Nat) : Res (CM α) :=
  if (x.h.numRows ≠ y.h.numRows ∧ y.h.numRows ≠ 1) ∨ (x.h.numCols ≠ y.h.numCols ∧ y.h.numCols ≠ 1) then
    .error (.throw "lhs and rhs must have the same dimensions (or broadcast)")
  else do
    let nl ← x.h.numNonZeros x.mem
    let res := CM.create x.h.numRows x.h.numCols nl jv jc jo
    let m ← rowsLoop x.h.numRows (mulDenseRow zero f x y) res.mem
    .ok ⟨res.h, m⟩

/-- EwBinaryMat.h:356-371: one row of the dense result of an operation on a sparse and a dense matrix. -/
def denseOutRow (zero : α) (f : α → α → α) (preserving : Bool) (x : CM α) (y res : Dense.DM α) (r : Nat) (m : Buf α) : Res (Buf α) := do
  let m ← forLoop 0 (if preserving then 0 else x.h.numCols) m fun c m => do
    let b ← y.mem.read (y.addr r c)
    m.write (res.addr r c) (f zero b)
  let n ← x.h.rowNumNonZeros x.mem r
  let bl ← x.h.rowPtr x.mem r
  forLoop bl (bl + n) m fun i m => do
    let c ← x.mem.cols.read i
    let a ← x.mem.vals.read i
    let b ← y.mem.read (y.addr r c)
    m.write (res.addr r c) (f a b)

/-- EwBinaryMat.h:345-353: `isSparsityPreserving` and the initialisation of the result. -/
def denseOutInit [DecidableEq α] (zero one : α) (f : α → α → α) (n : Nat) (m : Buf α) : Res (Buf α) :=
  if f zero one = zero then m.fill 0 n zero else .ok m

/-- EwBinaryMat.h:330-373: dense result of an operation on a sparse and a dense matrix (`res == nullptr`, so `res->getValues()` is
the start of the allocation and `rowSkip` the number of columns). -/
def ewDenseOut [DecidableEq α] (zero one : α) (f : α → α → α) (x : CM α) (y : Dense.DM α) (junk : Nat → α) : Res (Dense.DM α) :=
  if x.h.numRows ≠ y.h.numRows ∨ x.h.numCols ≠ y.h.numCols then .error (.throw "lhs and rhs must have the same dimensions")
  else do
    let res := Dense.DM.create x.h.numRows x.h.numCols junk
    let m ← denseOutInit zero one f (x.h.numRows * x.h.numCols) res.mem
    let m ← forLoop 0 x.h.numRows m fun r m => denseOutRow zero f (decide (f zero one = zero)) x y res r m
    .ok ⟨res.h, m⟩

end Verif.Csr
