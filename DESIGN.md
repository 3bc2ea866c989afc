# Formal model of daphne-eu/daphne in Lean 4

## 1. Trusted base

* Lean 4.33.0's kernel. Theorems may depend on Lean's standard axioms only:
  `propext`, `Classical.choice`, `Quot.sound` (the list per theorem is what `#print axioms`
  prints; no other axiom is declared or used; no compiled-code tactics are used).
* The reading of the C++ sources: every model definition cites file and lines of `/repo`.
  The code is not executed, so the faithfulness of that reading is trusted.
* The specifications (`Spec` sections / `*Spec.lean`), which are small and stated without the model's helpers.

## 2. Modelling conventions

* **Outcome type.** `Res a = Except Err a` with `Err.throw` (a C++ exception reaches the caller) and
  `Err.ub` (undefined behaviour: out-of-bounds read/write of a heap array, division by zero, ...). UB is a *distinct
  outcome*; correctness theorems have the form "the call returns `ok s'` and s' satisfies ...", hence they also
  exclude UB.
* **Memory.** A heap array is `Buf a` (size + contents). Freshly allocated arrays have *arbitrary* contents
  (universally quantified), so a theorem cannot silently rely on zero-initialisation. Reads and writes are bounds-checked and
  yield `Err.ub` outside.
* **Pointers into arrays** are (array, offset). Loops are `forRange` (a counted loop in `Res`), proved with an
  invariant rule.
* **Integers.** `size_t`/`uint64_t` are `Nat` unless wrap-around matters for the property (then `BitVec`/explicit
  `mod 2^64`); this is said at each definition. Assumption where `Nat` is used: sizes stay below 2^64.
* **Value types.** Kernels are templates: the value type is a type variable with the operations the kernel uses.
  Floating-point arithmetic is not modelled; theorems that need algebraic laws (e.g. associativity for aggregation) state them as
  hypotheses/instances which integers satisfy and floats do not.
* **Hash maps** (`unordered_map`, `flat_hash_map`) are finite maps; iteration order is universally quantified where the
  code iterates.
* **Concurrency.** Threads are interleaved at the granularity of critical sections (mutex-protected regions); schedules are
  arbitrary lists of thread ids / step relations.

## 3. Per-property plan

| Property | What is modelled | How it is proved |
|---|---|---|
| C01 | constructor + `hasNextChunk`/`getNextChunk`, all schemes (integer schemes exactly, floating-point formulas as an arbitrary function of the state), the producer loop | invariant scheduled+remaining=total, remaining strictly decreases; induction on the chunk sequence |
| C02 | `prePartitionRows` branch: one partitioner per queue | C01 per queue + concatenation of ranges |
| C03, C04 | `CreateRange`, `SetOutputsMetadata` arithmetic | div/mod arithmetic, `omega`/`nlinarith` |
| C05 | queue state machine with mutex-atomic steps, waiting sets, `notify_one/all` | invariant over all step sequences |
| C06, C07 | workers as state machines over the queues, all victim selections | invariant (history: enqueued = executed + held + queued) and progress lemma |
| C08, C09 | dense task `execute`/`accumulateOutputs`, batches, arbitrary completion order | permutation-invariance of disjoint writes / commutative folds |
| C10, C11 | `VectorizedDataSink` at array level | loop invariants on offsets |
| C12-C15 | `CSRMatrix` at array level (values, colIdxs, rowOffsets, numRowsAllocated) | representation invariant + refinement to `Nat -> Nat -> a` |
| C16, C17 | CSR kernels at array level | counting-sort invariants |
| C18, C19, C21-C25 | `DenseMatrix` (buffer, offset, rowSkip) and kernels as pointer loops | loop invariants |
| C20 | index normalisation + validation + slice | case analysis, `omega` |
| C26 | pass on a structured IR (blocks, if, for, while) + refcounting interpreter | simulation / counting invariant |
| C27 | lists over a refcounted heap | counting invariant over all histories |
| C28 | `ScopedSymbolTable` as a stack of finite maps | refinement to a spec environment |
| C29-C33 | columnar kernels at array level, hash maps as finite maps; widths as `BitVec`/Int wrap | loop invariants, list specs |
| C34 | serializer at byte level (header layout, chunk arithmetic) | byte-position lemmas, induction on chunks |
| C35 | CSV writer/reader at character level | induction on characters |
| C36, C37 | `RowBind` / in-order `append` on dense matrices that are views of some of the columns | proved for full-width operands; counterexample theorems for column views |
| C38 | `EwBinaryMat` (dense), `EwBinaryObjSca`, `EwUnaryMat`, incl. in-place variants | loop invariants; counterexample for a vector on the left |
| C39 | FISS formula | counterexample theorem (one stage: division by zero); all other schemes are C01 |
| C40 | `ExtractRow/ExtractCol` with a strided selection | counterexample theorem |
| C41 | start queue of each worker for all queue modes | arithmetic; counterexample for PERGROUP |
| C42-C45 | corner cases of `CSRMatrix` (see findings) | counterexample theorems |
| C46 | `VectorizedDataSink` with a row view as partial result | counterexample theorem |
| C47, C48 | `EwBinaryMat` CSR (two-pointer merge loops), CSR*Dense, Dense<-CSR,Dense | loop invariants per row |
| C49, C50 | `ColAggGrp` with a boundary group id, `ColJoin` with duplicate keys | counterexample theorems |
| C51-C54 | corner cases of the serializer | counterexample theorems |
| C55, C56, C58 | corner cases of the CSV / COO readers | counterexample theorems |
| C57 | coordinate reader (both the streaming and the buffering path) at array level | loop invariants over the list of coordinates |
| C59-C62 | `DaphneDSLVisitor` statements (assignments, blocks, if, while, do-while, for) as a translation from an abstract syntax to structured SSA code; both with a fuel interpreter | forward simulation by induction on statements; fuel monotonicity for divergence |
| C63, C64 | `ManageObjRefsPass` on copies of objects | counterexample programs (use of freed objects, leak); formula for the number of references |
| C65, C68 | `Order.h`: index vector, list of groups, sort per group, scan for runs, over any list of key columns | invariant "segments of equal keys" over the key list; uniqueness of stable orders; the scan loop has fuel, NaN makes it stick for every fuel |
| C66, C67 | `Group.h` on top of Order, Frame views and labels; range aggregation | the ranges aggregated are the segments; counterexample theorems for the unguarded cases |
| C69, C70 | `Frame.h`: label maps, constructors, views | invariant "lookup is the inverse of labels" over the column loop |
| C71, C72, C74 | `Cartesian.h`, `InnerJoin.h` on `Frame.h` with abstract cells; hash table as association list | copying a row changes exactly that row of the supported columns; the table holds for each key the positions in order |
| C73, C75 | `ThetaJoin.h` with the position list in one array | the in-place filter reads ahead of its writes; counterexamples |
| C76–C78 | `SemiJoin.h` (called twice), `GroupJoin.h` with an arbitrary iteration order | loop invariants; result up to permutation for the hash-table order |
| C79, C80 | `AggAll.h` on dense matrices (contiguous and strided) and CSR; arithmetic of the value types as a record of operations, conversions as possibly undefined functions | "combines each value once" as an inductive relation; laws of arithmetic only as explicit hypotheses, proved for wrap-around int64 and for the rational numbers; zeros by permutation of the list of cells |
| C81-C84 | `AggRow.h`, `AggCol.h`, `AggCum.h`, dense and CSR, with temporary buffers and histograms | loop invariants; a column is a permutation of its stored values and zeros |
| C85-C87 | same models on empty inputs, infinite neutral elements, unsigned division | undefined behaviour / wrong sign for all such inputs |
| C88-C92 | `reshapeDense`, `reshapeCsr`, `reverseDense` (`Verif/Shape/Reshape.lean`) over the dense/CSR objects of C16-C25 | refinement to row-major sequences; sparse: storage order = order of row-major positions; C90, C92 refuted by concrete histories |
| C93, C94 | `triDense`, `triCsr`, `diag*` (`Verif/Shape/Tri.lean`) | refinement; capacity of the sparse result by a counting invariant per row |
| C95-C101 | `fill*`, `seqInt`, `outerBinary`, `cond`, `replace*` (`Verif/Shape/Cells.lean`) | refinement; C100 refuted for all empty inputs, C101 by a concrete view |
| C102-C105 | `castDense`, `castToDense`, `castToSparse`, `castSparse` (`Verif/Shape/Cast.lean`) | refinement, counting invariant for the sparse result; C105 refuted for all non-square matrices |
| C106-C111 | `ctable*`, `posListToBitmap`, `bitmapToPosList` (`Verif/Shape/CTable.lean`) | refinement to a fold over pairs; boundary cases refuted |
| C112-C115 | `oneHot`, `recode` (`Verif/Shape/Encode.lean`) | row invariant on widths; sorted list for `std::set`, any traversal order for the hash map |
| C116-C119 | `bin`, `quantize` (`Verif/Shape/Quant.lean`) | exact rational arithmetic; int64 overflow for C117 |
| C120-C127 | `performCast`, `foldBinary` against `kernel`, `castFloatRun` (`Verif/Ir/Fold.lean`) | bit vectors against integers, generic in the width; refutations by concrete constants or for all offending ones |
| C128-C130 | `VectorizedPipelineOp::canonicalize`: `dedup`, `dropUnused` (`Verif/Ir/Pipe.lean`) | strong induction on the remaining inputs; refutation by a pipeline with a shifted position |
| C131-C135 | rewrites of `a - X`, `a / X`, `a + X`, bitmap round trip (`Verif/Ir/Canon.lean`) | congruence modulo the width of the type; C107/C108 for the conversions; ℚ with overflow for division |
| C136-C140 | `ExtractColOp`, `SetColLabelsOp`, `CastOp` rewrites with the kernels on frames (`Verif/Ir/FrameRw.lean`) | on top of the label theorems of C69 |
| C141-C144 | `common`, `specializes`, `dropped`, `selectRepr` (`Verif/Infer/Types.lean`) | case analysis on types with lists of column types; C142/C144 refuted for all offending types |
| C145 | `infer` on the structured code of `Front/Ssa` (`Verif/Infer/Pass.lean`) | abstract interpretation: induction on code and on iterations, for any sound domain |
| C146, C147 | `Dom.rounds` with `tyDom` (`Verif/Infer/Loop.lean`) | measure `info` (number of known properties); C147 refuted for every number of rounds |
| C148-C153 | `Op.traits` (trait table of DaphneOps.td), `inferShape`, `foldNumRows` … (`Verif/Infer/Shape.lean`) | case analysis on the operations against the relation `Produces`, linked to the kernel theorems C20-C25, C88-C102; refutations for all offending shapes |
| C154-C163 | the specialisations of MatMul, `gemvDense`, `gemvCsr`, `syrk`, `canonMatMul`, `selectPhy` (`Verif/Mm`) | `Interleave` for OpenMP schedules; per-cell projection of the schedule onto one thread; sparse dot product = dense dot product; refinement to `matProd`; refutations for all offending shapes |
| C164-C166 | `VOp` (table of `DaphneVectorizableOpInterface.cpp`), `bodyPipe` (`Verif/Vect/Ops.lean`, `Body.lean`) | per-operation block lemmas (rows, columns, folds of commutative monoids), kernels by their own theorems; body by induction over its operations, then the engine invariants of C08/C09; C166 refuted for all X with two rows |
| C167-C173 | `pipelines`, `create`, `vectorize`, `execBlock` (`Verif/Fuse/*.lean`): the pass that collects pipelines and moves operations, then the block executed with the engine of C165 for each pipeline | invariant of the collection (`Grown`: each operation of a pipeline is a fused operand of an earlier one), order of the block preserved by each placement (`OrderedFrom`), then induction over the block with C165 for the pipelines; C168-C173 refuted on concrete programs (C169, C170 for every plan) |
| C174-C177 | `filterRowB`, `extractRowB` (`Verif/Rel/FrameBytes.lean`): row selection on frames at the level of bytes, copies of 8 bytes per element | loop invariant on all result arrays (`Copied`, elementwise relation between argument columns and result arrays); C175, C176 refuted for whole classes of frames, C177 concretely |
| C178-C189 | `Verif/Columnar/Model.lean`: each operation replaced by `RewriteToColumnarOpsPass`, as the sequence of kernel calls it is replaced by (casts between matrices, frames and columns, `Col/*` kernels, `Frame.ofMats`) | the rewritten sequence and the original kernel are both shown to meet the same specification, by composing the theorems on the kernels (C22-C33, C38, C66, C72, C76, C79, C107, C108, C174); groupings are unique up to order (`GroupsBy.unique`); C180, C183, C187-C189 refuted |
| C190-C195 | `Verif/Rand/Model.lean`: `sample` and `randMatrix` (dense, CSR); generator and distribution are arbitrary infinite sequences of draws, a rejection loop takes the first acceptable draw or does not terminate | loop invariants of Knuth's selection (number of selected cells; enough cells remain), of the row counts (their sum) and of the ordered sets of columns; counting with finite sets; C191, C194, C195 refuted in part |
| C196-C202 | `Verif/Dist/Model.lean`: coordinator objects with their placements, workers with their stores, `DistributedWrapper::execute` (allocate, distribute/broadcast, compute, collect), views copying placements, histories of operations; responses arrive in any order | invariant `Inv` (a placement marked as placed is backed by the worker's data for its range) over all histories; each phase by an invariant over the outstanding responses; C196 composes the phases; refutations C198-C202 as theorems about whole classes or a program |
| C203-C225 | `Verif/Nn/Model.lean`, `BackModel.lean`, `NormModel.lean`: the CPU kernels for convolution, pooling, bias, softmax, batch normalisation and their gradients, loop by loop on flat buffers with 32-bit offsets; `Nn/Spec.lean`: images, filters, zero padding, windows as index formulas | a small calculus `Acc` for nested loops that accumulate into cells (each cell ends as the fold of the terms addressed to it, in loop order), then index arithmetic; refutations on whole classes or concrete images |
| C226-C229 | `Verif/Labels/Model.lean`: `inferFrameLabels` of every operation; `Labels/Kernels.lean`: what the run-time kernels do to labels; expression trees of frame operations | `Basic/Post.lean` (partial correctness: if it returns, then ...); induction on the expression; refutations for whole classes |
| C230-C233 | `Verif/Check/Model.lean`: `isSymmetric`, `hasSpecialValue` on the dense and sparse memory models | loop invariant over the cursor vector of the sparse check; pigeonhole on stored column indexes for the zero test |
| C234-C242 | `Verif/Sql/Model.lean`: `SQLVisitor` (all passes, its name tables, name mangling and `group_` columns) executed on tables: each emitted operation is replaced by what its kernel does to rows; `Sql/Spec.lean`: independent meaning of queries | invariants of the visitor's state over FROM, then over expressions (structural induction), for the collecting and the generating pass; injectivity of mangled names; refutations on concrete databases |
| C243-C244 | `Verif/Sql/Escape.lean`: the sequence of `replace_all` calls that decodes literals | each pass decodes its own escape sequences and keeps the others: invariant over the list of passes |
| C245-C248 | `Verif/Call`: binding of arguments to parameters and choice of a definition | loop invariant over the placed arguments; permutation of named arguments; first match of a list; counterexamples |
| C249-C251 | `Verif/Special`: the specialisation pass on SSA functions with branches and calls; execution with a bound on nested calls | every function does what the function it was made from does (invariant of the walk, names are fresh), visited functions keep their code and their calls are recorded; induction over nested calls; counterexamples for all numbers of steps |
| C252-C255 | `Verif/Early`: functions as blocks of operations in SSA form with nested `if`s, yields and returns; the loop that moves returns out of `if`s, one round at a time | a round keeps the values returned and the effects (simulation through moved operations and replaced results), a measure decreases with each round, an invariant on the ends of blocks shows that no round fails; counterexamples for all numbers of rounds |
| C256-C262 | `Verif/Hor`: blocks of operations and vectorized pipelines, an abstract engine (partitioning, blocks, combination), the pass with its list of pairs and the movement of operations, pointer identities as numbers | execution as solution of equations (order matters only for definition before use); invariant on block, values, dependencies and remaining pairs kept by each round of fusion; counterexamples |
| C263-C272 | `Verif/Mtx`: lines, banner, sizes, the iterator of `MMFile` as a state machine (current entry, mirrored entry, position), dense, sparse and frame readers; conversion of text to values is a parameter | files given by their content (banner words, comments, sizes, entries); the iterator yields the expanded list of entries (induction over lines); positions in array format by induction over columns; all cells covered if the matrix is not zeroed (counting); rows sorted; concrete files for refutations |
| C273-C282 | `Verif/FileMeta`: meta data as JSON values, the file system as a map from names to contents, `read`/`write` of CSV files by name, inference of shape, types and labels of `ReadOp` | names of value types, what a JSON document asks for, equality of matrices and frames (C35); refutations are general theorems or documented examples |
| C283-C286 | `Verif/FrameBin`: writer and reader of binary files of frames, byte by byte; the memory of the label objects is left open | same dimensions, types, bytes of cells; induction over rows and columns |
| C287-C290 | `Verif/Approx`: bounded set of hash values, dense and sparse kernel; hash function and floating-point quotient are parameters | invariant of the set under insertions, for all sequences; K-th smallest value specified by counting |
| C291-C300 | `Verif/Tens`: tensors in one allocation with extents, strides and base address; constructors, access, dicing, conversions, comparison, `reduceRank` | induction over the rank; positions are injective, digits invert positions |
| C301-C303 | `Verif/Str16`: fixed-size strings as 16 bytes | induction over the texts; specification: equality, lexicographic order, append of lists |
| C304-C307 | `Verif/Sp`: sparsity inference over rationals, symmetry inference | case analysis and inequalities; bijections between the cells of argument and result |
| C308-C310 | `Verif/TyText`: character-level printer and parser of types; MLIR's lexer is a contract, floating-point text a parameter with a round-trip law | composition of the parser's steps on printed text; for the refutations: all ways to continue fail |
| C311-C312 | `Verif/TyText`: equality and hashing of matrix types; MLIR's hash set is a contract | induction over the history |
| C313-C318 | `Verif/Disp`: kernel catalog, look-up types, rewriting to kernel calls; classes of run-time objects as a separate specification | loop invariant of the search; induction over ODS operands; concrete calls for the refutations |
| C319-C320 | `Verif/Disp`: type names as character lists, catalog files as lists of entries (JSON not modelled) | injectivity of names by induction over nesting; induction over the entries |
| C321-C324 | `Verif/Disp`: kernel ids, casts inserted for kernels of uniform value type | induction over the history; invariant of the cast loop |
| C325-C326 | `Verif/DataProp`: the kernel for recording data properties | bijection between stored values and cells that are not zero |
| C327-C329 | `Verif/DataProp`: the passes for recording and inserting, on programs as trees of operations; which uses the iteration over a changing use list reaches is arbitrary | induction over the program; uniqueness of sorted files |
| C330-C335, C341 | `Verif/Conf`: the statements of the configuration parser and of the option processing as tables of keys, fields and types, in their order | last assignment of a field wins; case analysis over fields |
| C336-C340 | `Verif/Conf`: script arguments, kernel extensions, library directory, character by character | induction over texts; equivalence with a grammar |
| C342 | `Verif/Lower`: lowering of kernel calls and variadic packs to memory allocated at the start of the function | backward simulation between big-step semantics, disjointness of allocations |
| C343-C347 | `Verif/Lower`: string constants, passing of inputs to pipelines as words, checks of result types | bit vectors, induction over inputs |
| C348-C350 | `Verif/Views`: programs with registrations, queries, branches and loops; the pass that resolves views at compile time | simulation by induction over programs and iterations; counterexamples for all frames |
| C351 | `Verif/StrRef`: counters of strings and their calls | invariant over histories |
| C352 | `Verif/DistPipe`: functions over arguments, results and constants; replacement and erasure of arguments | invariant of the loop over inputs, renumbering lemma |
| C353-C360 | `Verif/Interop`: numpy arrays with strides, memrefs, wrapping of memory as matrices, `map` | arithmetic of positions, loop invariants |
| C361-C376 | `Verif/Chunk`: chunked tensors as memory, flags and strides | positions in mixed radix are injective and in range; counterexamples for all one-dimensional tensors |

## 4. What is modelled, what is not

| Directory `lean/Verif/` | Source modelled | Left out |
|---|---|---|
| `Basic` | memory blocks, `memcpy`, result monad | alignment, object lifetime of buffers (shared_ptr) |
| `Sched` | `runtime/local/vectorized/LoadPartitioning.h` (all schemes), `LoadPartitioningDefs.h`, the producer loops of `MTWrapper*.cpp`, `runtime/distributed/.../LoadPartitioningDistributed.h` | value of the floating-point expressions in the chunk formulas (any value is allowed), int truncation of the stage number |
| `Queue` | `TaskQueues.h`, `WorkerCPU.h`, queue setup and stealing order of `MTWrapper.h` | pinning of threads, task cost, spurious wake-ups are allowed |
| `Dense` | `DenseMatrix.h/.cpp` (numeric), dense kernels RowBind, ColBind, Slice*, Insert*, Extract*, Filter*, Transpose, Ew* | strings matrices, BLAS calls, memory sharing via shared_ptr |
| `Vect` | `Tasks.h/.cpp` (dense), `MTWrapper_dense.cpp` batching, output allocation, `DaphneVectorizableOpInterface.cpp` | C08/C09: pipelines are an arbitrary function of the row blocks; C164-C166: the kernels of the vectorizable operations on dense matrices of one value type; GPU tasks |
| `Fuse` | `VectorizeComputationsPass.cpp`, `VectorizationUtils.cpp` | nested regions, several results per operation, casts between scalars and matrices, the operations that compute output sizes, the attribute for restricted vectorization is a flag per operation |
| `Columnar` | `RewriteToColumnarOpsPass.cpp` (all replaced operations and the legality of `&&`/`\|\|`), casts between dense matrices, frames and columns in `CastObj.h` | the simplifications that run after the pass; operations are considered one at a time; the compile-time labels of a frame are the run-time ones; key columns of two different value types |
| `Rand` | `Sample.h`, `RandMatrix.h` (`DenseMatrix`, `CSRMatrix`) | the generators and distributions of the standard library (their contract is assumed: draws within bounds, every value keeps occurring); `round` of products of doubles (exact rationals); the `Matrix` specialisation (`append`/`set`); given result objects |
| `Dist` | `DistributedWrapper.h`, `Distribute.h`, `Broadcast.h`, `DistributedCompute.h`, `DistributedCollect.h`, `LoadPartitioningDistributed.h`, `WorkerImpl.cpp` (`Store`, `Compute`, `Transfer`), `MetaDataObject.cpp` (distributed placements), `Structure.cpp` `clone_mdo` | gRPC and MPI themselves, failing RPCs, chunked messages, serialisation (covered elsewhere), execution of the code fragment (any function), the MPI back end, threads of the synchronous back end (each touches one placement) |
| `Nn` | `Conv2DForward.h`, `Conv2D.h`, `Pooling.h`, `AvgPoolForward.h`, `MaxPoolForward.h`, `AvgPoolBackward.h`, `MaxPoolBackward.h`, `Padding.h`, `BiasAdd.h`, `Conv2DBackwardFilter.h`, `Conv2DBackwardData.h`, `Softmax.h`, `BatchNorm2D*.h` (CPU), shape inference of convolution and pooling | CUDA kernels, floating-point rounding (exact arithmetic where a field is used), `Activation.h` on the CPU (always throws) |
| `Labels` | `DaphneInferFrameLabelsOpInterface.cpp`, label handling of the frame kernels and of `Frame` | labels of frames from files and from SQL |
| `Check` | `IsSymmetric.h`, `HasSpecialValue.h` (dense, CSR) | the `Matrix` specialisation of IsSymmetric (virtual calls) |
| `Sql` | `SQLVisitor.cpp` (all visitor methods except the literal parser), decoding of string literals; operations of C65-C78 (join, grouping, ordering, filter, cartesian product) are used with the meaning proved there | the ANTLR lexer (e.g. `a-1`), printing of numbers in labels, value types of literals (an operation on values is any function), decoding of labels by `createStringConstant` |
| `Call` | `DaphneDSLVisitor.cpp`: orderCallArguments, getUdfParamNames, argAndUDFParamCompatible, findMatchingUDF, visitCallExpr (calls of user functions), handleMapOpCall (argument order) | built-in functions (C-entries of `Front`), evaluation of the argument expressions (any function) |
| `Special` | `SpecializeGenericFunctionsPass.cpp` | loops, `map`, several results; inference of types and canonicalisation are parameters; the repeated inference in the middle of a walk changes types only |
| `Early` | `DaphneDSLVisitor.cpp:2031-2252, 2296-2302` | loops; regions inside cloned operations keep their value names; warnings |
| `Hor` | `HorizontalFusionPass.cpp:71-212`, `VectorizationUtils.cpp:21-88` | locations and types; regions nested in pipelines; pipelines in different blocks are not paired; the engine is a parameter |
| `Mtx` | `MMFile.h:84-400`, `ReadMM.h:44-124` | new results only; `sscanf` as far as `%s` and `%lu`; the priority queue as sorting (positions differ); `malloc` and copies of iterators; conversion to floating-point numbers is a parameter |
| `FileMeta` | `MetaDataParser.cpp`, `MetaDataParser.h:27-55`, `FileMetaData.h`, `Read.h:61-173`, `Write.h:58-118`, `ReadOp` in the inference interfaces | JSON text (nlohmann), invalid UTF-8, files that cannot be opened; formats other than CSV behind `read`/`write`; floating-point cells |
| `FrameBin` | `WriteDaphne.h:105-182`, `ReadDaphne.h:98-194` | result frames that exist already; contents of string objects; `FIXEDSTR16`; files that cannot be opened |
| `Approx` | `NumDistinctApprox.h`, `UniqueBoundedSet.h` | `MurmurHash3`, seeds, double arithmetic |
| `Tens` | `ContiguousTensor.h`, `Tensor.h` | constructors from raw memory, value type conversion, printing, overflow of sizes; `ChunkedTensor.h` |
| `Str16` | `FixedSizeStringValueType.h` | locales other than "C", serialisation |
| `Sp` | `DaphneInferSparsityOpInterface.cpp`, `DaphneInferSymmetricOpInterface.cpp`, sparsity traits in `DaphneOps.td` | rounding of doubles; reading meta data |
| `TyText` | `DaphneDialect.cpp` `printType`, `parseType`, `MatrixTypeStorage` | MLIR's lexer, nested types of lists, white space, negative integers |
| `Disp` | `KernelCatalog.h`, `KernelCatalogParser.cpp`, `RewriteToCallKernelOpPass.cpp` (`KernelReplacement`), `AdaptTypesToKernelsPass.cpp`, `KernelDispatchMapping.cpp`, `CreateListOp::inferTypes`, `mlirTypeToCppTypeName`, `getValueType`, `setValueType` | JSON, dispatch of distributed operations, attribute packs of grouping and theta join, the JIT linker |
| `DataProp` | `RecordProperties.h`, `RecordPropertiesPass.cpp`, `InsertPropertiesPass.cpp` | JSON text, doubles (exact rationals), the 32-bit counter, files for other programs |
| `Conf` | `ConfigParser.cpp`, `JsonParams.h`, `DaphneUserConfig.h`, option processing of `daphne_internal.cpp` | JSON text and `get<T>` (parameter), LLVM's option parser, entries of `logging`, number of MPI ranks |
| `Lower` | kernel calls, packs, string constants and vectorized pipelines of `LowerToLLVMPass.cpp`, `createFuncInputs` of `Tasks.h` | MLIR's own patterns (control flow, arithmetic), layout of elements in memory (one cell per element), `map`, names of kernels of pipelines |
| `Views` | `RewriteSqlOpPass.cpp` | the translation of queries (see `Sql`), order in which functions of a module are visited |
| `StrRef` | `StringRefCount.cpp`, strings in `IncRef.h`, `DecRef.h` | wrapping of counters, the allocator (returns unused addresses) |
| `DistPipe` | `DistributePipelinesPass.cpp` | printing and parsing of the function |
| `Interop` | `ReceiveFromNumpy.h`, `SaveDaphneLibResult.h` (matrices), `Convert*MemRef*.h`, `ConvertSparseBuffersToMatrix.h`, `Map.h` (dense), the Python side of the transfer of arrays | negative strides, frames, generated code itself |
| `Chunk` | `ChunkedTensor.h`: constructors, element access, chunks, `==`, rechunking, dicing to chunked tensors, `areLogicalElementsEqual` | loading of chunks by other threads, dicing to contiguous tensors, printing |
| `Csr` | `CSRMatrix.h`, kernels Transpose, RowBind, ColBind, EwBinaryMat, `VectorizedDataSink.h` | `printValue`, GPU |
| `Col` | `columnar` kernels ColSelect, ColProject, ColIntersect, ColMerge, ColJoin, ColSemiJoin, ColGroupFirst/Next, ColAggGrp | float columns; signed overflow (undefined in C++) is wrap-around |
| `Ref` | `ManageObjRefsPass.cpp` on a structured IR with calls; interpreter with and without reference counters | unknown types, memref interop, bodies of vectorized pipelines |
| `Rel` | `Frame.h`, `FilterRow.h` and `ExtractRow.h` on frames (bytes), `Order.h`, `Group.h`, `Cartesian.h`, `InnerJoin.h`, `ThetaJoin.h`, `SemiJoin.h`, `GroupJoin.h` | cells are abstract values with operations; sharing of column arrays |
| `Agg` | `AggOpCode.h`, `AggAll.h`, `AggRow.h`, `AggCol.h`, `AggCum.h` | specialisations for the abstract `Matrix` type; floating-point arithmetic is an arbitrary record of operations; signed overflow is not undefined behaviour here; `res` given by the caller |
| `Shape` | `Reshape.h`, `Reverse.h`, `Tri.h`, `DiagMatrix.h`, `DiagVector.h`, `Fill.h`, `Seq.h`, `OuterBinary.h`, `Cond*.h`, `Replace.h`, `CastObj.h`, `CTable.h`, `ConvertBitmapToPosList.h`, `ConvertPosListToBitmap.h`, `OneHot.h`, `Recode.h`, `Bin.h`, `Quantize.h` | specialisations for the abstract `Matrix` type, strings in oneHot, frames in casts; floating-point rounding (exact rationals in `Quant.lean`) |
| `Ir` | `Fold.cpp` (integer and float constants), scalar kernels `EwBinarySca.h`, `CastSca.h`, `mostGeneralVt` | index and string constants, pow, log; LLVM's APInt is `BitVec` |
| `Ir` (rewrites) | `Canonicalize.cpp` 44-135, 262-407, 640-845 | CUDA body of pipelines; the other rewrites; string operands; rounding and underflow in `a / X` |
| `Infer` | `InferencePass.cpp`, `DaphneTypes.td` (isSpecializationOf), `DaphneOps.td` CastOp, `SelectMatrixRepresentationsPass.cpp` | inference of calls to functions (they are specialised first); sparsity estimates are rationals, not doubles |
| `Mm` | `MatMul.h`, `MatMul.cpp`, `Gemv.h`, `Syrk.h`, `MatMulOp::canonicalize`, `PhyOperatorSelectionPass.cpp` | BLAS and Eigen (contract only); CUDA; rounding (arithmetic is an abstract structure, sums in index order) |
| `Obj` | `List.h`, kernels append/remove/createList, `Structure.h` reference counters | the mutex around the counter: each inc/dec is one atomic step |
| `Ser` | `DaphneSerializer.h` for DenseMatrix and CSRMatrix: one-piece, chunked iterator, in-order and out-of-order deserializers | Frame (see findings), `std::ceil` on doubles is exact (true below 2^53 bytes) |
| `Io` | `WriteCsv.h`, `ReadCsvFile.h` (dense int, strings, frame), `utils.h:setCString`, COO reader; glibc `atoi`, `printf("%d")` on x86-64 | floats in CSV, I/O errors |
| `Front` | `ScopedSymbolTable.h`, `DaphneDSLVisitor.cpp` control flow, see C59-C62 | types and casts, function calls, mergeSymbols' iteration order, MLIR's lowering of scf |

Further assumptions: the 256-entry `eofWorkers` array is large enough; `std::priority_queue` is modelled as a sorted list (only the order of elements popped is used);
`std::unordered_map`/`robin_hood` maps as finite maps; the meaning of `scf.if/while/for` is MLIR's documented one.

## 5. Findings

Places where the code at the pinned commit violates the property as a user would state it. "(T)" marks those with a theorem (see MANIFEST.json).

* `LoadPartitioning.h`: STATIC uses floor division, one more task than workers may come out (T); FISS divides by zero with one stage (T); `getStages` truncates
  to int; AUTO assigns a parameter only.
* `TaskQueues.h`/`WorkerCPU.h`: a wake-up can be lost when the capacity is smaller than the number of tasks (T); PERGROUP start index can be out of range (T).
* `MTWrapper_dense.cpp`: division by zero for inputs without rows (T); batch size truncated to 32 bits can become 0 (T).
* `EwBinaryMat`: dense vector as left operand yields a result of the wrong shape (T); Dense<-CSR,Dense treats MIN, EQ, ... as sparsity preserving (T).
* `CSRMatrix.h`: equality ignores row offsets (T); clearing an entry of a full matrix reads out of bounds (T); `prepareAppend` with no rows is out of bounds (T);
  appending through a nested view corrupts (T); `RowBind` with a full nested view is wrong (T). `VectorizedDataSink.h`: row views as partial results (T).
* `DenseMatrix<const char*>`: `fill` off by one, `operator==` does not compare shapes (not modelled).
* `FilterRow/ExtractRow` on frames copy in 8-byte units (read past the end for narrow columns) (not modelled).
* `ColJoin`: only the last right occurrence of a key is matched (T). `ColAggGrp`: `grpId > numDistinct` should be `>=` (T).
* `List.h`: `append` does not update the number of items reported; out-of-range `remove` leaks the copy.
* `DaphneSerializer.h`: see C51-C54 (T); frame labels are written as raw bytes of `std::string` objects.
* CSV: C55, C56, C58 (T); floats lose precision through `%f`.
* for-loops whose upper bound is the largest integer run zero times (T, C61); after a for-loop an outer variable with the name of the loop variable holds the last
  loop value.
* `ManageObjRefsPass.cpp` (T, C63, C64): the yield of a loop hands out an object from outside without a new reference; the yield of an scf.if hands out
  an object of its block twice with one reference; arith.select on matrices gets no reference; three equal operands of a terminator get
  three additional references instead of two.
* `Group.h` (T, C67): `new bool[starLabels.size()]` is written for all keys; SUM of strings is the first string; MIN of no rows dereferences `end`; a default-labelled
  column as key and aggregate throws. With `f.*`, other keys are dropped. The `idxs` of `order` are not checked against the number of columns.
* `Order.h` (T, C68): `nextWithRowskip` starts at `first` itself, so a NaN (unequal to itself) is an endless loop.
* `Frame.h` (T, C70): deduplication can produce a label that exists already.
* `InnerJoin.h`, `Cartesian.h` (T, C74): columns of types other than (string,) int64 and double are allocated but never written.
* `ThetaJoin.h` (T, C75): no conditions → null pointer; `2 == 2.5` for an int64 left column and a double right column.
* `SemiJoin.h`, `GroupJoin.h` (T, C78): other key types → null pointer.
* `AggRow.h`, `AggCol.h`, `AggCum.h` (T, C85): inputs without columns (rows) are read out of bounds; integer mean of nothing divides by zero.
* `AggAll.h` (T, C86): for double results of integer matrices, the operation converts the accumulator to the integer type; the neutral element of MIN/MAX is infinite.
* `AggAll.h`, `AggRow.h`, `AggCol.h` (T, C87): `agg /= size_t` is unsigned for int64.
* `Reshape.h` (T, C90): `isView()` of a full slice of a row view is false, so the shared arrays are used from their start.
* `Reverse.h` (T, C92): the contiguous path advances the pointer by `rowSkip` of the argument; a view without columns of a one-column matrix overflows the empty result.
* `Replace.h` (T, C100, C101): no result for empty inputs; CSR row views are copied from the start of the arrays with unshifted offsets.
* `CastObj.h` (T, C105): CSR to CSR creates the result with rows and columns swapped.
* `ConvertPosListToBitmap.h` (T, C109): `pos > numRowsRes` should be `>=`.
* `CTable.h` (T, C110, C111): row skips are ignored, negative coordinates are not checked, `max_element` of nothing is dereferenced.
* `OneHot.h` (strings, not modelled): the recoded column is indexed with the row skip of the argument.
* `Recode.h` (T, C115): NaN in a `std::set`.
* `Bin.h` (T, C117): subtraction in the value type overflows. `Quantize.h` (T, C119): scale 0.
* `Fold.cpp` (T, C121): casts to a wider unsigned type extend with zeros, also for mixed operands. (T, C123) MOD is exact in the compiler, via doubles at run time.
  (T, C124) `true + true` is false. (T, C125) min/max with NaN. (T, C127) float to bool takes the low bit; as.ui64 of values from 2^63 on.
* `Canonicalize.cpp` (T, C129): `inputMap` holds positions after removal, the split attribute is the original one. (T, C132) `a - X` as `(X * -1) + a` overflows for the smallest number; `true - true`.
  (T, C133) `a / X` as `(X ^ -1) * a`: infinite reciprocal. (T, C134) an operand of unknown type counts as scalar and is swapped. (T, C137) extraction from a new frame drops its checks; `x.*`.
  (T, C140) frame to matrix to frame keeps the labels.
* `InferencePass.cpp` (T, C142): `const ssize_t sparsity1 = …getSparsity()` truncates. (T, C147) the loop over a while/for body does not end if a yielded value is known better than the argument
  (a cast to the less known type is inserted and inferred again each round). (T, C144) `CastOp::isRemovePropertyCast` compares no representations.
* `DaphneInferShapeOpInterface.cpp` (T, C150): `abs(vTo - vFrom) / abs(vInc) + 1`. (T, C151) `ftLhs.getNumRows() * ftRhs.getNumRows()` with -1. (T, C152) `ShapeEwBinary` takes the shape of a scalar left operand.
  (T, C153) `SyrkOp`, `ConvertPosListToBitmapOp`, `ConvertBitmapToPosListOp` have wrong traits. Not modelled: pooling and convolution use 1 for sizes that are not constant.
* `MatMul.cpp` (T, C159): gemv/gemm with inner dimension 0 return without writing; Eigen path for integers ignores `transa` in its dimensions. `Gemv.h` (T, C163): the CSR version computes `M @ v`; no check of the length of the vector.
  `MatMul.h` (T, C163): the CSR versions ignore `transa`/`transb`, but the canonicalization folds a transposed dense right operand of a sparse product into the flag.
* `DaphneVectorizableOpInterface.cpp` (T, C166): `SyrkOp` declares ROWS/ADD also for `X @ t(X)`, whose partial products have other shapes: the engine throws as soon as there are two tasks.
* `VectorizeComputationsPass.cpp`, `VectorizationUtils.cpp`: (T, C168) the members of a pipeline are merged without sorting, so a shared intermediate result can put an operation before one it uses; (T, C169) two pipelines can use
  each other's results; (T, C170) `movePipelineInterleavedOperations` starts at the last member (`pipeline.back()`), which is not the first in the block if fusion is tree-shaped, so users before it stay before the pipeline; (T, C171) an
  operand with split NONE may be computed inside the same pipeline; (T, C172) a computed row vector is divided like a matrix; (T, C173) printing is reordered. The IR verifier, which would report the first three, is disabled
  (`DaphneIrExecutor.cpp:119`). Not modelled: two uses of the same value in one operation merge a pipeline with itself (`std::vector::insert` of a vector into itself, then cleared).
* `FilterRow.h`, `ExtractRow.h` on frames: (T, C175) 8-byte loads read beyond unpadded arrays of smaller value types (frames made from matrices or by views have no padding); (T, C176) only 8 of the 16 bytes of a `FixedStr16`
  are copied; (T, C177) the row skip of the selection is ignored.

* `RewriteToColumnarOpsPass.cpp`: (T, C180) `&&`/`||` of comparison results are rewritten whatever their shapes (several columns: an exception; one row against many: only the first row; other lengths: accepted); the test `!isa` for operands that have
  already been rewritten is inverted; (T, C183) filters compare with one, do not check the length and negative positions throw; (T, C187) repeated keys in the right frame of an inner join are lost; (T, C188) semi joins return all columns;
  (T, C189) the order of groups differs, no keys: access to `keyLabels[0]`, `*` is not expanded. Not modelled: two scalar comparisons joined by `&&` are declared illegal, too; a `numRowRes` that is too small makes `ColJoin` write out of bounds.

* `RandMatrix.h`, `Sample.h`: (T, C194) the index distribution is over `int`: more than 2^31 cells give a negative bound; (T, C195) zeros drawn for a CSR matrix are stored as entries (a TODO in the code); (T, C191) floating-point samples without
  replacement are not compared with the number of representable values and may not terminate. Not modelled: `uniform_int_distribution<uint8_t>` is not allowed by the standard; for a tie (`sparsity * cells` = k + 1/2) dense matrices of sparsity >= 0.5 have k and sparse ones k + 1 non-zeros.

* Distributed runtime: (T, C198) a one-row input that is split by rows goes to all workers, but `ADD` sums over all of them; (T, C199) `sliceRow` rejects the empty ranges of surplus workers; (T, C200) the test for duplicate inputs compares bits, so equal scalars count
  as duplicates; (T, C201) views copy placements without adjusting ranges; (T, C202) placements are found by address. Not modelled: `Broadcast.h` (synchronous) ignores the gRPC status; results other than `DenseMatrix<double>` are not supported; an output of
  unknown shape stays null and is dereferenced; the MPI back end broadcasts an empty buffer if only some workers need the data; `WorkerImpl::Store` increments its counter without a lock.


* DNN kernels (CPU): (T, C204) `conv2d` without bias uses the filter as bias; (T, C207) the maximum starts at 0, in the quick path at the largest value; (T, C208, C216) pooling interchanges the strides and can read outside the image; (T, C209) the quick path ignores the padding;
  (T, C211) `biasAdd` with the documented row matrix adds one bias to all channels, leaves uneven columns zero and ignores the row skip; (T, C213) shape inference takes unknown arguments as 1, divides by stride 0 and wraps around; (T, C218) rectangular filters: weights collide or are written
  out of bounds; (T, C220) the data gradient uses only as many output gradients as a filter has weights, and drops columns for unequal paddings; (T, C222) `softmax` reads the first cell of a matrix without columns; (T, C224) batch-norm inference indexes the channel parameters by image.

* Labels and checks: (T, C227) joins with an input of unknown labels get the labels of the other input; (T, C228) grouping by `*` infers keys for aggregated columns and for ignored further keys; (T, C229) a computed label before a constant one in `setColLabels`, or a wildcard on a frame with unknown
  labels, dereferences a null pointer in the compiler, and `cbind` with unknown labels is rejected; (T, C232) the sparse `isSymmetric` denies the symmetry of the identity matrix and accepts asymmetric matrices with entries only below the diagonal.

* SQL: (T, C238) DISTINCT is skipped with GROUP BY; (T, C239) DISTINCT loses the order; (T, C240) an alias equal to a table name replaces this table later in the same clause, and valid clauses are rejected; (T, C241) `count(1)` and a join condition without operator dereference a null pointer, `!=` is
  rejected, a literal beside an aggregation of all rows fails; (T, C242) `*` with GROUP BY loses columns; (T, C244) `\\n` becomes a backslash and a line break. BETWEEN is symmetric (documented by test between_3), so it is specified that way.

* Calls of functions: (T, C247) a definition without types that comes first takes all calls; (T, C248) definitions with different parameter names reject even positional calls, recursive calls with keyword arguments are rejected, `map(udf=f, arg=X)` is rejected or dereferences a null pointer; (T, C250) a function with typed
  parameters that is called once with a constant and once with another value is erased although the second call refers to it; (T, C251) a recursive call with a constant argument is specialised without end (default configuration).
* Early returns: (T, C253) an `if` with returns that assigns a variable used later is erased while its results are in use (`r = 0; if(a > 0){ return 1; } else { r = 2; } if(b){ print(r); } return r;`); (T, C254) `if(a > 0){ if(a > 10){ return 1; } } return 2;` is compiled to code
  that uses a value that is not defined (copied operations keep the operands of the originals; the verifier is not run after parsing); (T, C255) `if(a > 0){ return 1; } if(b){ return 2; } else { return 3; }` is rejected.
* Horizontal fusion: (T, C258) of three pipelines that read `X`, where the third one depends on the second one but not on the first one, all are fused, and the result uses itself; (T, C259) `print(X + Z); print(X + Y); print(sum(Y)); print(sum(Z));` makes the pass walk past the end of the block (pairs
  are fused in an order where the "first" pipeline comes second); (T, C260) an operation right after the first pipeline that does not depend on it is put behind the fused pipeline even if the latter needs it; (T, C261) if-statements that use the first pipeline are moved before it; (T, C262) `print(sum(X));
  print("x"); print(max(X));` prints "x" first.
* Matrix Market: (T, C267) a blank line at the end of a file in array format overwrites the cell with index `cols` with zero, in coordinate format it is an exception; (T, C268) a space in front of an entry or two spaces between its indices give a wrong value without an exception, tabulators a read out of bounds; (T, C269) a missing
  file is a null pointer, error codes of the header are ignored, words of 64 characters overflow a buffer; (T, C270) a last line without newline in a file of a pattern is read out of bounds; (T, C272) indices and counts are not checked (wrong cells, writes out of bounds, uninitialised cells).
* Files by name: (T, C277) the value type of fixed-size strings becomes null in meta data and such files are not accepted; (T, C278) the documented example of a frame with empty labels throws ("labels must be unique"); (T, C279) a schema shorter than `numCols` is read out of bounds; (T, C280) unknown value types, negative and fractional dimensions are accepted; (T, C282) a script that writes a file and reads it is compiled with the shape of the old file (or fails, if there is none).
* Binary files of frames: (T, C284) labels are written as bytes of the `std::string` object (pointers!) and ignored by the reader; (T, C285) labels with more than 32 bytes are read and written out of bounds; (T, C286) files of other kinds give a null pointer, short files uninitialised memory. `writeDaphne<Frame>` is not reachable from DaphneDSL (`write` supports only `.csv` for frames).
* Approximate distinct count: (T, C289) inserting a small value again into the full set removes the biggest one without adding anything, so that the result is often `K - 1` and depends on the order of the rows; (T, C290) `K = 0` is undefined.
* Tensors: (T, C298) `reduceRank` erases while iterating to the old rank: every extent 1 except in the last position is read out of bounds; (T, C299) `tryToGetDenseMatrix` and `==` ignore the row distance of tensors made from views; (T, C300) the cell of a tensor of rank zero cannot be written.
* Fixed-size strings: (T, C302) `operator<<` writes all 16 bytes, that is, NUL bytes after each value; (T, C303) with NUL bytes inside, `<` and `==` contradict each other.
* Sparsity inference: (T, C306) `diagMatrix` of a vector with known sparsity and unknown length has a negative sparsity (the result type fails verification), of an empty vector a non-finite one; constants and meta data are not checked.
* Types as text: (T, C309) `0x4xf64` and `3x0xf64` are lexed as hexadecimal numbers, so that types of empty matrices cannot be read by a worker; (T, C310) frame types are printed with labels and extents that the parser does not expect, and many types are not parsed at all.
* Unique types: (T, C312) sparsities closer than one millionth are the same type, so that the sparsity of a type depends on what was requested before; equality is not transitive and does not agree with the hash.
* Kernel dispatch: (T, C317) a `kernel_hint` is used without any check of types or backend, so a hint to a kernel for dense matrices on a sparse one is undefined at run time; (T, C318) a list of a dense and a sparse matrix of one value type is lowered to the kernel for dense matrices.
* Call ids: (T, C322) an operation without file location is reported at another operation's place; if the first one has none, a null location is read.
* Casts of lists: (T, C324) `setValueType` of a list type returns a matrix type.
* Data properties: (T, C326) the sparsity of a CSR row view is computed from the first values of the viewed matrix; (T, C328) recorded properties that are inserted never reach an operation: casts behind loops are unused, casts in front of loops do not change the type; (T, C329) one `null` entry (recorded for a matrix without cells) blocks all later ones.
* Configuration: (T, C333) 20 of the 53 settings of a configuration file have no effect, because the default value of the option overwrites them; (T, C334) options given with their default value do not override the file; (T, C335) a configuration file that cannot be opened is ignored; (T, C338) a catalog file whose path contains a colon is refused or misread without a priority; (T, C340) `{exedir}//lib` is `/lib`.
* Lowering to LLVM: (T, C345) a single-precision scalar reaches CUDA pipelines as the lower half of the bits of a double, which is another number for every normal value; (T, C346) strings in pipelines are treated as objects; (T, C347) pipelines with results of other value types than `f64`, `f32`, `si64`, or of different types, are compiler errors with vectorization only.
* Views: (T, C349) views are resolved at compile time in the order of the text, so that queries in loops do not see registrations of earlier iterations, and registrations in branches count whether or not they are executed; (T, C350) the table of views is a variable of the process and is never cleared, so that a later program (DaphneLib) can refer to values of an earlier, destroyed one.
* Exchange of data: (T, C354) `from_numpy` ignores strides, e.g., transposed arrays arrive untransposed; (T, C355) ranges of columns returned to numpy show wrong cells; (T, C356) for 16-bit integers the address of the unconverted array is passed on; (T, C358) ranges of columns passed to generated code show wrong cells.
* Chunked tensors: (T, C362) `tryGet` reads the flag of the chunk before it checks the indexes; (T, C363) `==` compares the memory behind the last elements of overhanging chunks; (T, C364) `trySetChunk` compares chunk indexes with extents of the tensor and writes outside of it; (T, C365) the constructor from a matrix reads an empty vector; (T, C366) `set` on rank zero continues after the write and reads empty vectors; (T, C367) `ReverseArray` moves every byte one too far, so that the first byte of the next element is overwritten and the element is not reversed; (T, C371) `tryRechunk` does not reallocate the flags, so that reads after a change to more chunks read outside of them; (T, C372) `tryDice` computes the indexes of elements from `chunk_strides` instead of the chunk shape and leaves elements uninitialised if there is more than one dimension; (T, C374, C375) `tryDiceAtChunkLvl` sets the flags of the original instead of the result, so that the result shows nothing and the original shows chunks that have not been loaded.
