/-
  Chunked tensors: `src/runtime/local/datastructures/ChunkedTensor.h`.

  Simplifications: vectors are lists; numbers do not wrap; one thread (the flags are atomic, loading of chunks by other threads is
  not modelled). Not modelled: the initialisation with consecutive numbers, dicing to contiguous tensors, printing, copies of chunks.
-/
import Verif.Tens.Props

namespace Verif.Chunk
open Verif Verif.Dense Verif.Tens

variable {α : Type}

/-- A `ChunkedTensor`: `tensor_shape`, `chunk_shape`, `data`, `chunk_materialization_flags` — ChunkedTensor.h:92-108. -/
structure CK (α : Type) where
  shape : List Nat
  chunk : List Nat
  mem : Buf α
  flags : Buf Bool

/-- `chunks_per_dim[i]` — ChunkedTensor.h:142-145. -/
def perDim (d c : Nat) : Nat := if d % c = 0 then d / c else d / c + 1

namespace CK

/-- `rank` -/
def rank (t : CK α) : Nat := t.shape.length

/-- `chunks_per_dim` -/
def per (t : CK α) : List Nat := List.zipWith perDim t.shape t.chunk

/-- `chunk_element_count` — ChunkedTensor.h:134-137. -/
def elems (t : CK α) : Nat := count t.chunk

/-- `intra_chunk_strides` — ChunkedTensor.h:120-132. -/
def intra (t : CK α) : List Nat := stridesFrom 1 t.chunk

/-- `chunk_strides` — ChunkedTensor.h:147. -/
def cstrides (t : CK α) : List Nat := stridesFrom t.elems t.per

end CK

/-- The constructor — ChunkedTensor.h:114-193 (`init`: the value written to all elements by `ZERO`, `MAX` or `MIN`; none for
`NONE`). -/
def create (junk : Nat → α) (shape chunk : List Nat) (init : Option α) : Res (CK α) :=
  if chunk.length < shape.length then .error (.ub "read beyond the end of chunk_shape")
  else if 0 ∈ shape ∨ 0 ∈ chunk.take shape.length then
    .error (.throw "Tensors with dimensions of extent 0 are disallowed.")
  else
    let chunks := count (List.zipWith perDim shape chunk)
    match init with
    | none => .ok ⟨shape, chunk, ⟨chunks * count chunk, junk⟩, ⟨chunks, fun _ => false⟩⟩
    | some v => .ok ⟨shape, chunk, ⟨chunks * count chunk, fun _ => v⟩, ⟨chunks, fun _ => true⟩⟩

/-- The constructor from a matrix — ChunkedTensor.h:245-252: the check reads `chunk_shape[i]` before `chunk_shape` is set, when
the vector is still empty. -/
def ofMatrix (x : DM α) (_cx _cy : Nat) : Res (CK α) :=
  if x.h.numCols = 0 then .error (.throw "Tensors with dimensions of extent 0 are disallowed.")
  else .error (.ub "read beyond the end of chunk_shape")

/-- The summands of `linear_id` for the dimensions from the second on — ChunkedTensor.h:372-376. -/
def linRest2 : List Nat → List Nat → List Nat → List Nat → Nat
  | i :: is, c :: cs, s :: ss, t :: ts => (i % c) * s + (i / c) * t + linRest2 is cs ss ts
  | _, _, _, _ => 0

/-- `getLinearId` — ChunkedTensor.h:367-378. -/
def lin2 : List Nat → List Nat → List Nat → List Nat → Nat
  | i :: is, c :: cs, _ :: ss, t :: ts => i % c + t * (i / c) + linRest2 is cs ss ts
  | _, _, _, _ => 0

namespace CK

/-- `getLinearId`; the index vector must not be shorter than the rank, and not empty. -/
def linearId (t : CK α) (idx : List Nat) : Res Nat :=
  if idx.length < t.rank ∨ idx = [] ∨ t.chunk = [] then .error (.ub "read beyond the end of a vector")
  else .ok (lin2 (idx.take t.rank) t.chunk t.intra t.cstrides)

/-- `getChunkIdsFromIds` — ChunkedTensor.h:427-435. -/
def chunkIds (t : CK α) (idx : List Nat) : List Nat := List.zipWith (· / ·) idx t.chunk

/-- `getLinearChunkIdFromChunkIds` — ChunkedTensor.h:407-425. -/
def chunkLin (t : CK α) (cids : List Nat) : Nat := linRest cids (stridesFrom 1 t.per)

/-- `tryGet` — ChunkedTensor.h:594-613; the flag is read before the indexes are checked. -/
def tryGet (t : CK α) (idx : List Nat) : Res (Option α) :=
  if idx.length ≠ t.rank then .ok none
  else if t.rank = 0 then do
    let v ← t.mem.read 0
    .ok (some v)
  else do
    let f ← t.flags.read (t.chunkLin (t.chunkIds idx))
    if !f then .ok none
    else if (List.zip idx t.shape).any (fun q => decide (q.1 ≥ q.2)) then .ok none
    else do
      let l ← t.linearId idx
      let v ← t.mem.read l
      .ok (some v)

/-- `get` — ChunkedTensor.h:615-621. -/
def get (t : CK α) (idx : List Nat) : Res α :=
  if t.rank = 0 then t.mem.read 0
  else do
    let l ← t.linearId idx
    t.mem.read l

/-- `trySet` — ChunkedTensor.h:696-715. -/
def trySet (t : CK α) (idx : List Nat) (v : α) : Res (CK α × Bool) :=
  if idx.length ≠ t.rank then .ok (t, false)
  else if t.rank = 0 then do
    let m ← t.mem.write 0 v
    .ok ({ t with mem := m }, true)
  else if (List.zip idx t.shape).any (fun q => decide (q.1 ≥ q.2)) then .ok (t, false)
  else do
    let l ← t.linearId idx
    let m ← t.mem.write l v
    let f ← t.flags.write (t.chunkLin (t.chunkIds idx)) true
    .ok ({ t with mem := m, flags := f }, true)

/-- `set` — ChunkedTensor.h:717-724: for rank zero the function continues after the write. -/
def set (t : CK α) (idx : List Nat) (v : α) : Res (CK α) := do
  let m ← if t.rank = 0 then t.mem.write 0 v else .ok t.mem
  let l ← t.linearId idx
  let m ← m.write l v
  let f ← t.flags.write (t.chunkLin (t.chunkIds idx)) true
  .ok { t with mem := m, flags := f }

/-- `trySetChunk` — ChunkedTensor.h:726-746: the chunk indexes are compared with the extents of the tensor. -/
def trySetChunk (t : CK α) (cids : List Nat) (values : Buf α) : Res (CK α × Bool) :=
  if cids.length ≠ t.rank then .ok (t, false)
  else if t.rank = 0 then do
    let v ← values.read 0
    let m ← t.mem.write 0 v
    .ok ({ t with mem := m }, true)
  else if (List.zip cids t.shape).any (fun q => decide (q.1 ≥ q.2)) then .ok (t, false)
  else do
    let l := linRest cids t.cstrides
    let m ← forLoop 0 t.elems t.mem fun i m => do
      let v ← values.read i
      m.write (l + i) v
    let f ← t.flags.write (t.chunkLin cids) true
    .ok ({ t with mem := m, flags := f }, true)

/-- `getChunkIdsFromLinearChunkId` followed by `getPtrToChunk` — ChunkedTensor.h:388-405, 640-645; for rank zero an element of
an empty vector is written. -/
def chunkPtr (t : CK α) (i : Nat) : Res Nat :=
  if t.rank = 0 then .error (.ub "write beyond the end of chunk_id_strides")
  else .ok (linRest (CT.unrank ((stridesFrom 1 t.per).map fun s => (s, 0)) i).1 t.cstrides)

/-- `operator==` of tensors in different memory — ChunkedTensor.h:335-365 (`eqv`: same bytes). -/
def equal (eqv : α → α → Bool) (t u : CK α) : Res Bool :=
  if t.shape ≠ u.shape ∨ t.chunk ≠ u.chunk then .ok false
  else do
    let same ← forLoop 0 (count t.per) true fun i ok => do
      let a ← t.flags.read i
      let b ← u.flags.read i
      .ok (ok && a == b)
    if !same then .ok false
    else forLoop 0 (count t.per) true fun i ok =>
      if !ok then .ok false
      else do
        let a ← t.flags.read i
        let b ← u.flags.read i
        if !a || !b then .ok false
        else do
          let p ← t.chunkPtr i
          let q ← u.chunkPtr i
          CT.memcmp eqv t.mem p u.mem q t.elems

end CK

/-- `ReverseArray` — ChunkedTensor.h:39-46, on memory of bytes: byte `j` of an element of `size` bytes is written to
`size - j` of it. -/
def reverseArray (size : Nat) (mem : Buf Nat) (start n : Nat) : Res (Buf Nat) :=
  forLoop 0 n mem fun i mem => do
    let p := start + i * size
    let tmp ← forLoop 0 size [] fun j (tmp : List Nat) => do
      let b ← mem.read (p + j)
      .ok (tmp ++ [b])
    forLoop 0 size mem fun j mem => mem.write (p + size - j) (tmp.getD j 0)

end Verif.Chunk
