#!/usr/bin/env python3
"""Writes properties.jsonl from the PROPS table (kept in one place so that ids stay stable)."""
import json, os
P=[]
def p(id,title,statement,quantifier,why,anchors):
    P.append(dict(id=id,title=title,statement=statement,quantifier=quantifier,why_tests_cant=why,anchors=anchors))

V="src/runtime/local/vectorized/"
K="src/runtime/local/kernels/"
D="src/runtime/local/datastructures/"
p("C01","Local task partitioning covers every row exactly once",
  "For every self-scheduling scheme (FISS: with at least two stages, the other case is C39), every number of rows, every number of workers >= 1 and every minimum task size, asking the partitioner for chunks while it says there are more yields non-empty chunks whose sizes add up exactly to the number of rows, the loop ends, and the row ranges built from them are consecutive, disjoint and cover [0, rows).",
  "all schemes, row counts, worker counts, minimum task sizes and all values of the (floating-point) chunk formula",
  "the chunk formulas differ per scheme, involve floating point and wrap-around, and row/worker counts are unbounded",
  [V+"LoadPartitioning.h:LoadPartitioning", V+"MTWrapper_dense.cpp:executeCpuQueues"])
p("C02","Pre-partitioned queues cover every row exactly once",
  "With row pre-partitioning enabled, for any number of queues >= 1 the tasks put into queue 0, then queue 1, ... have consecutive disjoint row ranges covering exactly [0, rows); queue i receives exactly one contiguous block.",
  "all row counts, queue counts, schemes and minimum task sizes",
  "remainder handling depends on rows mod queues; all combinations cannot be enumerated",
  [V+"MTWrapper_dense.cpp:executeCpuQueues prePartitionRows", V+"MTWrapper_sparse.cpp"])
p("C03","Distributed row partitioning is an exact balanced cover",
  "Distributing a matrix to n >= 1 workers gives worker i a row range such that the ranges are consecutive, disjoint, cover all rows, span all columns, and any two workers' row counts differ by at most one; broadcasting gives every worker the full matrix.",
  "all matrix shapes and worker counts","unbounded shapes and worker counts",
  ["src/runtime/distributed/coordinator/scheduling/LoadPartitioningDistributed.h:CreateRange,GetNextChunk"])
p("C04","Distributed output metadata describes an exact tiling of the output",
  "For row-combined (column-combined) outputs the ranges recorded for the workers tile the whole output without gap or overlap, in worker order.",
  "all output shapes, worker counts and combine kinds","unbounded shapes and worker counts",
  ["src/runtime/distributed/coordinator/scheduling/LoadPartitioningDistributed.h:SetOutputsMetadata"])
p("C05","Task queue delivers every task exactly once in FIFO order, EOF only after drain",
  "Under every interleaving of producers and consumers, the sequence of dequeued tasks is a prefix of the sequence of enqueued tasks, the queue never exceeds its capacity, and a consumer receives the end marker only when the input was closed and the queue is empty.",
  "all interleavings of any number of threads, all capacities","thread schedules cannot be enumerated by tests",
  [V+"TaskQueues.h:BlockingTaskQueue"])
p("C06","Every scheduled task is executed exactly once by the worker pool",
  "For every queue layout (one central, per group, per CPU), every victim-selection policy, every valid assignment of start queues to workers (see C41) and every interleaving, when all workers have terminated every enqueued task has been executed exactly once.",
  "all schedules, victim selections, numbers of workers and queues","work stealing races depend on the schedule",
  [V+"WorkerCPU.h:WorkerCPU::run", V+"TaskQueues.h"])
p("C07","The worker pool does not get stuck",
  "With the queue capacities the engine uses (number of rows), the producer never blocks forever and no worker sleeps forever: in every reachable state that is not finished, some thread can make progress.",
  "all schedules","lost wake-ups only show under rare schedules",
  [V+"TaskQueues.h:enqueueTask,dequeueTask,closeInput", V+"MTWrapper_dense.cpp", V+"WorkerCPU.h"])
p("C08","Vectorized row/column-combined execution equals unsplit execution",
  "For a pipeline function that works row by row, executing it batch-wise on row chunks, in any order on any workers with any batch size >= 1, and writing each batch result to its slot gives exactly the result of one call on the whole input (row combine; column combine is the transposed analogue).",
  "all inputs, chunkings, batch sizes and execution orders","batch boundaries and schedules are unbounded",
  [V+"Tasks.cpp:CompiledPipelineTask<DenseMatrix>::execute,accumulateOutputs"])
p("C09","Vectorized ADD/MIN/MAX-combined execution equals unsplit aggregation",
  "For an aggregation whose combination is associative and commutative, combining per-batch and per-task partial results in any task completion order into the initialised output gives the aggregate of the whole input.",
  "all inputs, chunkings, batch sizes, completion orders","schedules are unbounded",
  [V+"Tasks.cpp:execute,accumulateOutputs", V+"MTWrapper.h:allocateOutput"])
p("C10","Sparse row-wise result collection equals row concatenation in row order",
  "Partial CSR results (that are not views; see C46) added to the sink in any order are combined into the CSR matrix whose rows are the partial results' rows in start-row order; the sparse pipeline with row-wise combination equals the unsplit operation for every task list, batch size and completion order.",
  "all partial matrices, all insertion orders","insertion order is schedule dependent",
  [V+"VectorizedDataSink.h:add,consume"])
p("C11","Sparse column-wise result collection equals column concatenation",
  "Partial CSR results for column blocks added in any order are combined into the CSR matrix that is their column-wise concatenation in start-column order; the sparse pipeline with column-wise combination equals the unsplit operation for every task list, batch size and completion order.",
  "all partial matrices, all insertion orders","insertion order is schedule dependent",
  [V+"VectorizedDataSink.h:add,consume"])
p("C12","Sparse (CSR) matrix behaves like a plain two-dimensional table under get/set",
  "After any sequence of in-bounds set operations (that fit the allocated capacity), get(r,c) returns the last value set at (r,c), all other cells are unchanged, and out-of-bounds accesses are rejected with an exception and no change.",
  "all matrices, all operation histories","histories are unbounded; gap creation/closing shifts shared arrays",
  [D+"CSRMatrix.h:get,set"])
p("C13","Building a sparse matrix by in-order append yields exactly the appended cells",
  "prepareAppend, any row-major increasing sequence of append calls and finishAppend produce a matrix (with at least one row, see C43), or a direct row view of one (see C44 for views of views), in which get returns the appended value at every appended position and zero elsewhere.",
  "all shapes and append sequences","sequences and gaps are unbounded",
  [D+"CSRMatrix.h:prepareAppend,append,finishAppend"])
p("C14","A sparse row view shows exactly its window and writes through it stay in the window",
  "For a row slice [rl,ru) of a CSR matrix, get(r,c) equals the parent's get(rl+r,c); set through the view changes exactly the parent's cell (rl+r,c).",
  "all matrices, ranges, nested views, histories","views share memory; all nestings cannot be enumerated",
  [D+"CSRMatrix.h:CSRMatrix(src,rl,ru),sliceRow,set"])
p("C15","Equality of sparse matrices means equal contents",
  "operator== on two well-formed CSR matrices returns true exactly if both have the same shape and the same cells.",
  "all pairs of matrices","pairs of matrices are unbounded",
  [D+"CSRMatrix.h:operator=="])
p("C16","Sparse transposition",
  "The transposed CSR matrix has swapped dimensions, is well-formed with sorted column indexes, and its cell (c,r) equals cell (r,c) of the argument (also if the argument is a row view).",
  "all well-formed CSR matrices","counting-sort offsets must be right for every sparsity pattern",
  [K+"Transpose.h:Transpose<CSRMatrix,CSRMatrix>"])
p("C17","Sparse row and column binding",
  "rowBind/colBind of CSR matrices yields a well-formed CSR matrix whose cells are the cells of the operands stacked vertically/horizontally, for originals and row views (C45 covers views of views as upper operand); mismatched dimensions are rejected.",
  "all pairs of CSR matrices incl. views","offset translation must be right for every pattern",
  [K+"RowBind.h:RowBind<CSRMatrix>", K+"ColBind.h:ColBind<CSRMatrix>"])
p("C18","Dense matrix and its views behave like windows of one table under get/set",
  "get/set on a dense matrix or on any nested view address exactly the window's cell of the underlying table: a set through one view is seen through every other view at the corresponding position and nowhere else; out-of-bounds accesses are rejected.",
  "all shapes, nestings of views, histories","aliasing histories are unbounded",
  [D+"DenseMatrix.h:pos,get,set,slice", D+"DenseMatrix.cpp:DenseMatrix(src,rl,ru,cl,cu),validateArgs"])
p("C19","Building a dense matrix by in-order append zero-fills the gaps",
  "prepareAppend, any row-major increasing sequence of appends and finishAppend leave the appended values at their positions and the default value everywhere else, for original matrices and for views of complete rows (where cells outside the view are untouched).",
  "all shapes, append sequences, row views","gap positions and view geometries are unbounded",
  [D+"DenseMatrix.h:prepareAppend,append,finishAppend,fillZeroUntil"])
p("C20","Range slicing with negative indices",
  "sliceRow/sliceCol with bounds (l,u) select exactly the rows/columns a Python user expects (negative bounds count from the end, an upper bound of 0 with negative lower bound means the end) and reject exactly the out-of-range bounds.",
  "all matrices and all signed bounds","bounds are arbitrary integers",
  [K+"SliceRow.h", K+"SliceCol.h"])
p("C21","Dense column binding",
  "colBind of dense matrices puts the operands' cells side by side, also if operands are views; mismatched dimensions are rejected.",
  "all shapes incl. views","strides and shapes are unbounded",
  [K+"RowBind.h:RowBind<DenseMatrix>", K+"ColBind.h:ColBind<DenseMatrix>"])
p("C22","Row/column filtering keeps exactly the selected rows/columns in order",
  "For a 0/1 selection vector, filterRow/filterCol return exactly the selected rows/columns, in order, and the result's dimension is the number of ones.",
  "all matrices and selection vectors","unbounded inputs",
  [K+"FilterRow.h", K+"FilterCol.h"])
p("C23","Positional extraction",
  "extractRow/extractCol return, for every position in a contiguously stored selection (strided ones: C40), the addressed row/column (negative positions count from the end), in selection order, and throws iff some position is out of range.",
  "all matrices and selection vectors","unbounded inputs",
  [K+"ExtractRow.h", K+"ExtractCol.h"])
p("C24","Range insertion replaces exactly the addressed rows/columns",
  "insertRow/insertCol return a matrix equal to the argument except that the addressed row/column range equals the inserted matrix; wrong shapes or ranges are rejected.",
  "all matrices, ranges","unbounded inputs",
  [K+"InsertRow.h", K+"InsertCol.h"])
p("C25","Dense transposition",
  "transpose returns a matrix with swapped dimensions and swapped cell coordinates, for original matrices and views; transposing twice gives the original contents.",
  "all shapes and strides","unbounded inputs",
  [K+"Transpose.h:Transpose<DenseMatrix,DenseMatrix>"])
p("C26","Compiler-inserted reference counting is safe and leak-free",
  "After the reference-management pass a program behaves exactly as on a machine on which nothing is ever freed: no data object is used or released after it was freed, and when a function returns, exactly one reference per returned value remains of all references the call had. (Copies of objects between variables are the subject of C63 and C64: terminators of loops and functions hand out objects of their own block, none more than twice; an if hands out no object of its own block twice; arith.select is on strings and scalars.)",
  "all programs (straight-line, nested ifs, loops, casts, string literals, recursive calls), all kernels, all executions",
  "programs and executions are unbounded",
  ["src/compiler/lowering/ManageObjRefsPass.cpp","src/compiler/utils/LoweringUtils.cpp:findLastUseOfSSAValue","src/runtime/local/kernels/IncRef.h","src/runtime/local/kernels/DecRef.h","src/runtime/local/datastructures/DataObjectFactory.h:destroy","src/runtime/local/datastructures/Structure.h:increaseRefCounter"])

p("C27","Lists keep their elements alive and behave like sequences",
  "Any history of create/append/remove/copy/destroy on lists keeps every element alive exactly as long as it is in some list or held by a caller; append adds at the end, remove(i) returns and removes the i-th element and rejects out-of-range positions.",
  "all histories","histories are unbounded",
  [D+"List.h", K+"Append.h", K+"Remove.h", K+"CreateList.h"])
p("C28","Scoped symbol table implements lexical scoping",
  "After any sequence of push/put/pop, a lookup returns the value most recently put for that name in the innermost open scope defining it; popping a scope restores the outer bindings and reports exactly the outer names overwritten inside it with their last values.",
  "all histories of operations","histories are unbounded",
  ["src/parser/ScopedSymbolTable.h"])
p("C29","Columnar selection and projection",
  "Selecting with a comparison returns exactly the ascending positions whose value satisfies it; projecting by positions returns the addressed values and throws iff a position is out of range; select-then-project equals filtering.",
  "all columns, all comparison operators","unbounded inputs",
  [K+"ColSelectCmp.h", K+"ColProject.h"])
p("C30","Position-list intersection and merge are set intersection and union",
  "For strictly increasing position lists, intersect/merge return the strictly increasing list of positions in both/in at least one.",
  "all pairs of position lists","unbounded inputs",
  [K+"ColIntersect.h", K+"ColMerge.h"])
p("C31","Columnar join and semi-join",
  "If the right keys are unique, join returns exactly the matching (left position, right position) pairs in left order; semi-join returns exactly the left positions with a partner. Both hold when the number of result rows is left to the kernel or given as an upper bound; duplicate right keys are C50.",
  "all columns","unbounded inputs",
  [K+"ColJoin.h", K+"ColSemiJoin.h"])
p("C32","Columnar grouping numbers groups densely in first-occurrence order",
  "Two rows get the same group id iff they agree on all grouping columns processed so far; ids are 0..g-1 in order of first occurrence and the representative of each group is its first row.",
  "all columns, any number of grouping columns","unbounded inputs",
  [K+"ColGroupFirst.h", K+"ColGroupNext.h"])
p("C33","Grouped aggregation with optimistic splitting equals plain grouped aggregation",
  "For integer sums, accumulating in half-width counters with overflow spilling gives, for every group, the same (wrap-around) sum as accumulating in full width; plain grouped aggregation folds each group's rows in row order; negative group ids and group ids above the number of groups are rejected (an id equal to it: C49).",
  "all value and group-id columns, all integer widths","overflow patterns are unbounded",
  [K+"ColAggGrp.h"])
p("C34","Binary (de)serialization round-trips",
  "Deserializing the serialized bytes of a dense matrix without gaps between its rows or of a sparse matrix (original or row view, nested too) yields an equal object: whether the bytes are produced and consumed in one piece, or written to a file in chunks of any admissible size and read in chunks of any other admissible size, or sent as self-describing chunks that arrive in any order. Nothing outside the buffers is touched and all loops end.",
  "all objects, all chunk sizes on both sides, all arrival orders","chunk boundaries and arrival orders are unbounded",
  ["src/runtime/local/io/DaphneSerializer.h","src/runtime/local/io/WriteDaphne.h","src/runtime/local/io/ReadDaphne.h"])
p("C35","CSV round-trip",
  "Reading back a CSV file written from a matrix of integers, a matrix of strings (views included) or a frame with any mix of such columns yields the same values: all values of 8- and 32-bit types, 64-bit values in the range of int, and all strings (with quotes, separators, newlines) without NUL and carriage return in which, if they need quotes, no backslash stands before a quote or at the end.",
  "all contents","string contents are unbounded",
  ["src/runtime/local/io/WriteCsv.h","src/runtime/local/io/ReadCsvFile.h","src/runtime/local/io/utils.cpp"])
out=os.path.join(os.path.dirname(__file__),"..","properties.jsonl")
import importlib.util
extra=os.path.join(os.path.dirname(__file__),"props_extra.py")
if os.path.exists(extra):
    exec(open(extra).read())
with open(out,"w") as f:
    for x in P: f.write(json.dumps(x)+"\n")
print(len(P))
