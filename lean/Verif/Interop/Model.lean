/-
  Model of the exchange of matrices with Python and with generated code: src/runtime/local/kernels/ReceiveFromNumpy.h,
  SaveDaphneLibResult.h, Convert*MemRef*.h, ConvertSparseBuffersToMatrix.h, the Python side of the shared-memory transfer
  (src/api/python/daphne/context/daphne_context.py, operator/operation_node.py), and Map.h.

  Addresses are positions in one allocation.  Simplifications: host memory only; strides of numpy arrays are not negative.
-/
import Verif.Dense.Ew
import Verif.Csr.Windows

namespace Verif.Interop
open Verif Verif.Dense Verif.Csr

/-- A two-dimensional numpy array: start, shape and strides (in elements). What Python code sees at `[r, c]` is
`data (off + r * s0 + c * s1)`; this is the specification of numpy. -/
structure NArr (α : Type) where
  mem : Buf α
  off : Nat
  rows : Nat
  cols : Nat
  s0 : Nat
  s1 : Nat

/-- The element `[r, c]`. -/
def NArr.at {α : Type} (a : NArr α) (r c : Nat) : α := a.mem.data (a.off + r * a.s0 + c * a.s1)

/-- All elements lie in the allocation. -/
def NArr.Valid {α : Type} (a : NArr α) : Prop :=
  ∀ r c, r < a.rows → c < a.cols → a.off + r * a.s0 + c * a.s1 < a.mem.size

/-- numpy's flag `C_CONTIGUOUS`: row-major without gaps (strides of dimensions of extent one do not matter). -/
def NArr.CContiguous {α : Type} (a : NArr α) : Prop := (a.s1 = 1 ∨ a.cols = 1) ∧ (a.s0 = a.cols ∨ a.rows = 1)

/-- `x[:, :].T` of numpy: the same memory with rows and columns exchanged. -/
def NArr.T {α : Type} (a : NArr α) : NArr α := ⟨a.mem, a.off, a.cols, a.rows, a.s1, a.s0⟩

variable {α : Type}

/-- `DataObjectFactory::create<DenseMatrix>(rows, cols, values)` for memory at `base` of an existing allocation.
DenseMatrix.cpp:89-97. -/
def wrap (mem : Buf α) (base rows cols : Nat) : DM α := ⟨{ Hdr.new rows cols with base := base }, mem⟩

/-- daphne_context.py:141-176 (`from_numpy` of a two-dimensional array: address, rows and columns; the strides are not
looked at) followed by ReceiveFromNumpy.h:58-61. -/
def fromNumpy (a : NArr α) : DM α := wrap a.mem a.off a.rows a.cols

/-- SaveDaphneLibResult.h:49-64 (address of the first value, rows and columns) followed by operation_node.py:189-194
(`as_array` of these: row-major without gaps). -/
def toNumpy (x : DM α) : NArr α := ⟨x.mem, x.h.start, x.h.numRows, x.h.numCols, x.h.numCols, 1⟩

/-- A `StridedMemRefType<T, 2>`. -/
structure MemRef2 where
  basePtr : Nat
  offset : Nat
  size0 : Nat
  size1 : Nat
  stride0 : Nat
  stride1 : Nat
  deriving DecidableEq, Repr

/-- MLIR's meaning of a memref: the position of the element `[r, c]`. -/
def MemRef2.pos (m : MemRef2) (r c : Nat) : Nat := m.basePtr + m.offset + r * m.stride0 + c * m.stride1

/-- ConvertDenseMatrixToMemRef.h:23-39. -/
def denseToMemRef (x : DM α) : MemRef2 := ⟨x.h.base, 0, x.h.numRows, x.h.numCols, x.h.numCols, 1⟩

/-- ConvertMemRefToDenseMatrix.h:22-30: offset and strides are ignored. -/
def memRefToDense (mem : Buf α) (m : MemRef2) : DM α := wrap mem m.basePtr m.size0 m.size1

/-- A `StridedMemRefType<T, 1>` of stride one. -/
structure MemRef1 where
  basePtr : Nat
  offset : Nat
  size : Nat
  stride : Nat
  deriving DecidableEq, Repr

/-- ConvertCSRMatrixToValuesMemRef.h:24-37 and ConvertCSRMatrixToColIdxsMemRef.h:24-37 (views share the pointers of the
original, CSRMatrix.h:148-149). -/
def csrValuesMemRef (x : CM α) : Res MemRef1 := do
  let n ← x.h.numNonZeros x.mem
  .ok ⟨0, 0, n, 1⟩

/-- ConvertCSRMatrixToRowOffsetsMemRef.h:24-37. -/
def csrRowOffsetsMemRef (x : CM α) : MemRef1 := ⟨x.h.rowOff, 0, x.h.numRows + 1, 1⟩

/-- ConvertSparseBuffersToMatrix.h:7-29 for the three buffers of one matrix; `vals` and `cols` start at their allocations.
CSRMatrix.h:150-155 (constructor from pointers). -/
def sparseFromBuffers (mem : CMem α) (offsets : MemRef1) (numRows numCols : Nat) : CM α :=
  let actualRows := if 0 < offsets.size then offsets.size - 1 else 0
  let rows := min numRows actualRows
  ⟨⟨rows, numCols, rows, false, offsets.basePtr + offsets.offset * offsets.stride, 0⟩, mem⟩

/-- Map.h:54-74 (dense), `res == nullptr`. The function is code of the user, which may have effects (a state `σ`) and may
fail; `valuesArg` and `valuesRes` are advanced by the row skips. -/
def mapKernel {σ γ : Type} (udf : σ → α → Res (σ × γ)) (junk : Nat → γ) (arg : DM α) (s : σ) : Res (σ × DM γ) := do
  let res := DM.create arg.numRows arg.numCols junk
  let (s, _, _, m) ← forLoop 0 arg.numRows (s, arg.h.start, res.h.start, res.mem) fun _ (s, va, vr, m) => do
    let (s, m) ← forLoop 0 arg.numCols (s, m) fun c (s, m) => do
      let a ← arg.mem.read (va + c)
      let (s, v) ← udf s a
      let m ← m.write (vr + c) v
      .ok (s, m)
    .ok (s, va + arg.h.rowSkip, vr + res.h.rowSkip, m)
  .ok (s, ⟨res.h, m⟩)

/-- daphne_context.py:146-155: for 16-bit integers the address is that of the original array, but the type handed over is
the 32-bit one. Memory in units of 16 bits; the 32-bit number at an address, little-endian, as the kernel reads it. -/
def read32 (mem : Buf Nat) (addr : Nat) : Res Nat := do
  let lo ← mem.read addr
  let hi ← mem.read (addr + 1)
  .ok (lo + 65536 * hi)

/-- The cell of the matrix that `from_numpy` makes from a contiguous array of unsigned 16-bit integers. -/
def cellOfUInt16 (a : NArr Nat) (r c : Nat) : Res Nat := read32 a.mem (a.off + 2 * (r * a.cols + c))

end Verif.Interop
