/-
  Tensors in one allocation: `src/runtime/local/datastructures/ContiguousTensor.h` and `Tensor.h`.

  Simplifications: the vectors of extents, strides and indexes are lists; extents are below `2^64` and their product does not
  wrap; the shared memory block is carried by the object (`mem`), `base` is the position of `data.get()` in it (a tensor made
  from a view of a matrix starts inside the block). Not modelled: printing, the constructors from raw memory (they only differ in the
  origin of the memory), value type conversion.
-/
import Verif.Dense.Lemmas

namespace Verif.Tens
open Verif Verif.Dense
variable {α : Type}

/-- A `ContiguousTensor`: `tensor_shape`, `strides` (ContiguousTensor.h:44), `data` (line 46). -/
structure CT (α : Type) where
  shape : List Nat
  strides : List Nat
  /-- `total_element_count` (Tensor.h:31) -/
  total : Nat
  base : Nat
  mem : Buf α

/-- `strides[i] = strides[i - 1] * shape[i - 1]` from a given first stride — ContiguousTensor.h:59-71. -/
def stridesFrom (s : Nat) : List Nat → List Nat
  | [] => []
  | d :: ds => s :: stridesFrom (s * d) ds

/-- `total_element_count` — Tensor.h:38-45. -/
def count : List Nat → Nat
  | [] => 1
  | d :: ds => d * count ds

/-- `InitCode` — Tensor.h:82. -/
inductive Init where
  | none | zero | max | min | iota
  deriving DecidableEq, Repr

/-- The value an initialised element gets — ContiguousTensor.h:73-101. -/
def initVal (zero mx mn : α) (ofNat : Nat → α) : Init → Nat → Option α
  | .none, _ => Option.none
  | .zero, _ => some zero
  | .max, _ => some mx
  | .min, _ => some mn
  | .iota, i => some (ofNat i)

/-- The loops of the constructor over all elements. -/
def fill (f : Nat → Option α) (n : Nat) (b : Buf α) : Res (Buf α) :=
  forLoop 0 n b fun i b => match f i with
    | some v => b.write i v
    | none => .ok b

/-- The constructor from a shape — ContiguousTensor.h:55-102. -/
def create (zero mx mn : α) (ofNat : Nat → α) (junk : Nat → α) (shape : List Nat) (init : Init) : Res (CT α) :=
  if 0 ∈ shape then .error (.throw "Tensors with dimensions of extend 0 are disallowed.")
  else do
    let b ← fill (initVal zero mx mn ofNat init) (count shape) ⟨count shape, junk⟩
    .ok ⟨shape, stridesFrom 1 shape, count shape, 0, b⟩

/-- The constructor from a dense matrix — ContiguousTensor.h:121-129 and Tensor.h:48-52. -/
def ofMatrix (x : DM α) : Res (CT α) :=
  if 0 ∈ [x.h.numCols, x.h.numRows] then .error (.throw "Tensors with dimensions of extend 0 are disallowed.")
  else .ok ⟨[x.h.numCols, x.h.numRows], [1, x.h.rowSkip], x.h.numRows * x.h.numCols, x.h.base, x.mem⟩

/-- `linear_id += element_indices[i] * strides[i]` for `i ≥ 1`. -/
def linRest : List Nat → List Nat → Nat
  | i :: is, s :: ss => i * s + linRest is ss
  | _, _ => 0

/-- `linear_id` — ContiguousTensor.h:228-231: the first index is not multiplied with its stride. -/
def lin : List Nat → List Nat → Nat
  | i :: is, ss => i + linRest is ss.tail
  | [], _ => 0

namespace CT

/-- `get` — ContiguousTensor.h:236-246. -/
def get (t : CT α) (idx : List Nat) : Res α :=
  if t.shape = [] then t.mem.read t.base
  else if idx.length < t.shape.length then .error (.ub "read beyond the end of the index vector")
  else t.mem.read (t.base + lin (idx.take t.shape.length) t.strides)

/-- `tryGet` — ContiguousTensor.h:213-234. -/
def tryGet (t : CT α) (idx : List Nat) : Res (Option α) :=
  if idx.length ≠ t.shape.length then .ok none
  else if t.shape = [] then t.mem.read t.base >>= fun v => .ok (some v)
  else if (List.zip idx t.shape).any (fun q => decide (q.1 ≥ q.2)) then .ok none
  else t.mem.read (t.base + lin idx t.strides) >>= fun v => .ok (some v)

/-- `trySet` — ContiguousTensor.h:248-266: the new object and the returned flag. -/
def trySet (t : CT α) (idx : List Nat) (v : α) : Res (CT α × Bool) :=
  if idx.length ≠ t.shape.length ∨ t.shape.length = 0 then .ok (t, false)
  else if (List.zip idx t.shape).any (fun q => decide (q.1 ≥ q.2)) then .ok (t, false)
  else t.mem.write (t.base + lin idx t.strides) v >>= fun b => .ok ({ t with mem := b }, true)

/-- `set` — ContiguousTensor.h:268-274. -/
def set (t : CT α) (idx : List Nat) (v : α) : Res (CT α) :=
  if idx.length < t.shape.length ∨ idx = [] then .error (.ub "read beyond the end of the index vector")
  else t.mem.write (t.base + lin (idx.take (max 1 t.shape.length)) t.strides) v >>= fun b => .ok { t with mem := b }

/-- `memcmp` of the first `n` elements, from the first on. -/
def memcmp (eqv : α → α → Bool) (a : Buf α) (pa : Nat) (b : Buf α) (pb : Nat) (n : Nat) : Res Bool :=
  forLoop 0 n true fun i acc => do
    let u ← a.read (pa + i)
    let v ← b.read (pb + i)
    .ok (acc && eqv u v)

/-- `operator==` — ContiguousTensor.h:195-202 (`eqv`: same bytes). -/
def equal (eqv : α → α → Bool) (t u : CT α) : Res Bool :=
  if t.shape ≠ u.shape then .ok false else memcmp eqv t.mem t.base u.mem u.base t.total

/-- `tryToGetDenseMatrix` — ContiguousTensor.h:204-210 (and the constructor DenseMatrix.cpp:89-96). -/
def toMatrix (t : CT α) : Option (DM α) :=
  match t.shape with
  | [c, r] => some ⟨{ Hdr.new r c with base := t.base }, t.mem⟩
  | _ => none

/-- The checks of `tryDice` — ContiguousTensor.h:306-317: the ranges with inclusive upper bounds, if all are valid. The upper
bound zero wraps around. -/
def diceRanges : List (Nat × Nat) → List Nat → Option (List (Nat × Nat))
  | [], [] => some []
  | (lo, hi) :: rs, d :: ds =>
    let hi' := (hi + (2 ^ 64 - 1)) % 2 ^ 64
    if lo ≥ d ∨ hi' ≥ d ∨ lo > hi' then none
    else (diceRanges rs ds).map ((lo, hi') :: ·)
  | _, _ => none

/-- The decoding of an element number — ContiguousTensor.h:334-338: from the last to the first dimension. -/
def unrank : List (Nat × Nat) → Nat → List Nat × Nat
  | [], tmp => ([], tmp)
  | (s, lo) :: rest, tmp =>
    let q := unrank rest tmp
    ((q.2 / s + lo) :: q.1, q.2 % s)

/-- `tryDice` — ContiguousTensor.h:304-344 (`none` is `nullptr`). -/
def tryDice (junk : Nat → α) (t : CT α) (ranges : List (Nat × Nat)) : Res (Option (CT α)) :=
  if ranges.length ≠ t.shape.length then .ok none
  else match diceRanges ranges t.shape with
    | none => .ok none
    | some rs =>
      let shape := rs.map fun q => q.2 - q.1 + 1
      if 0 ∈ shape then .error (.throw "Tensors with dimensions of extend 0 are disallowed.")
      else do
        let strides := stridesFrom 1 shape
        let b ← forLoop 0 (count shape) ⟨count shape, junk⟩ fun i (b : Buf α) => do
          let v ← t.get (unrank (List.zip strides (rs.map Prod.fst)) i).1
          b.write i v
        .ok (some ⟨shape, strides, count shape, 0, b⟩)

/-- The body of the loop of `reduceRank` on extents and strides. -/
def reduceStep (i : Nat) (q : List Nat × List Nat) : Res (List Nat × List Nat) :=
  match q.1[i]? with
  | none => .error (.ub "read beyond the end of the extents")
  | some d => if d = 1 then .ok (q.1.eraseIdx i, q.2.eraseIdx i) else .ok q

/-- `reduceRank` — ContiguousTensor.h:347-355: the loop runs to the old rank. -/
def reduceRank (t : CT α) : Res (CT α) := do
  let q ← forLoop 0 t.shape.length (t.shape, t.strides) reduceStep
  .ok { t with shape := q.1, strides := q.2 }

end CT
end Verif.Tens
