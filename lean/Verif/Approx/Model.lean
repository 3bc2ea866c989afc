/-
  Approximating the number of distinct values of a matrix (`src/runtime/local/kernels/NumDistinctApprox.h`) and the bounded
  set of hash values it uses (`src/util/UniqueBoundedSet.h`).

  Simplifications: the hash function (`MurmurHash3_x86_32` on the bytes of a value, for the given seed) is a parameter; the
  seed `-1` (current time) only selects another one. `std::set<uint32_t>` is a `Finset`. The floating-point quotient of the
  estimate is a parameter `fl K t` (applied to the biggest kept hash value `t`), except that for `t = 0` the quotient is not
  finite, and converting it to `size_t` is undefined.
-/
import Verif.Dense.Lemmas
import Verif.Csr.Model
import Mathlib.Data.Finset.Lattice.Fold
import Mathlib.Data.Finset.Card

namespace Verif.Approx
open Verif Verif.Csr Verif.Dense
variable {α : Type}

/-- `UniqueBoundedSet::top` — UniqueBoundedSet.h:61-64: `*rbegin()`; undefined if the set is empty. -/
def top (s : Finset Nat) : Res Nat :=
  if s = ∅ then .error (.ub "dereferencing rbegin() of an empty set") else .ok (s.sup id)

/-- `UniqueBoundedSet::pop` — UniqueBoundedSet.h:48-56. -/
def pop (s : Finset Nat) : Finset Nat :=
  if s = ∅ then s else s.erase (s.sup id)

/-- `UniqueBoundedSet::push` — UniqueBoundedSet.h:35-43. -/
def push (K : Nat) (s : Finset Nat) (v : Nat) : Res (Finset Nat) :=
  if s.card < K then .ok (insert v s)
  else do
    let t ← top s
    if t > v then .ok (insert v (pop s)) else .ok s

/-- The end of all three kernels — NumDistinctApprox.h:87-98, 136-147, 174-183. -/
def finish (fl : Nat → Nat → Nat) (K : Nat) (s : Finset Nat) : Res Nat :=
  if s.card < K then .ok s.card
  else do
    let t ← top s
    if t = 0 then .error (.ub "conversion of a non-finite double to size_t") else .ok (fl K t)

/-- `NumDistinctApprox<DenseMatrix>` — NumDistinctApprox.h:66-99 (`NumDistinctApprox<Matrix>`, lines 154-184, is the same
loop). -/
def approxDense (fl : Nat → Nat → Nat) (hash : α → Nat) (K : Nat) (x : DM α) : Res Nat := do
  let s ← forLoop 0 x.h.numRows ∅ fun r s =>
    forLoop 0 x.h.numCols s fun c s => do
      let el ← x.h.get x.mem r c
      push K s (hash el)
  finish fl K s

/-- The zero of a sparse matrix — NumDistinctApprox.h:117-122: inserted once, if there are more cells than entries. -/
def zeroFirst (hash : α → Nat) (zero : α) (K numElements nnz : Nat) : Res (Finset Nat) :=
  if numElements > nnz then push K ∅ (hash zero) else .ok ∅

/-- `NumDistinctApprox<CSRMatrix>` — NumDistinctApprox.h:105-148. -/
def approxCsr (fl : Nat → Nat → Nat) (hash : α → Nat) (zero : α) (K : Nat) (x : CM α) : Res Nat := do
  let nnz ← x.h.numNonZeros x.mem
  let s0 ← zeroFirst hash zero K (x.h.numRows * x.h.numCols) nnz
  let s ← forLoop 0 x.h.numRows s0 fun r s => do
    let p ← x.h.rowPtr x.mem r
    let n ← x.h.rowNumNonZeros x.mem r
    forLoop 0 n s fun i s => do
      let el ← x.mem.vals.read (p + i)
      push K s (hash el)
  finish fl K s

end Verif.Approx
