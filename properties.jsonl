{"id": "C01", "title": "Local task partitioning covers every row exactly once", "statement": "For every self-scheduling scheme (FISS: with at least two stages, the other case is C39), every number of rows, every number of workers >= 1 and every minimum task size, asking the partitioner for chunks while it says there are more yields non-empty chunks whose sizes add up exactly to the number of rows, the loop ends, and the row ranges built from them are consecutive, disjoint and cover [0, rows).", "quantifier": "all schemes, row counts, worker counts, minimum task sizes and all values of the (floating-point) chunk formula", "why_tests_cant": "the chunk formulas differ per scheme, involve floating point and wrap-around, and row/worker counts are unbounded", "anchors": ["src/runtime/local/vectorized/LoadPartitioning.h:LoadPartitioning", "src/runtime/local/vectorized/MTWrapper_dense.cpp:executeCpuQueues"]}
{"id": "C02", "title": "Pre-partitioned queues cover every row exactly once", "statement": "With row pre-partitioning enabled, for any number of queues >= 1 the tasks put into queue 0, then queue 1, ... have consecutive disjoint row ranges covering exactly [0, rows); queue i receives exactly one contiguous block.", "quantifier": "all row counts, queue counts, schemes and minimum task sizes", "why_tests_cant": "remainder handling depends on rows mod queues; all combinations cannot be enumerated", "anchors": ["src/runtime/local/vectorized/MTWrapper_dense.cpp:executeCpuQueues prePartitionRows", "src/runtime/local/vectorized/MTWrapper_sparse.cpp"]}
{"id": "C03", "title": "Distributed row partitioning is an exact balanced cover", "statement": "Distributing a matrix to n >= 1 workers gives worker i a row range such that the ranges are consecutive, disjoint, cover all rows, span all columns, and any two workers' row counts differ by at most one; broadcasting gives every worker the full matrix.", "quantifier": "all matrix shapes and worker counts", "why_tests_cant": "unbounded shapes and worker counts", "anchors": ["src/runtime/distributed/coordinator/scheduling/LoadPartitioningDistributed.h:CreateRange,GetNextChunk"]}
{"id": "C04", "title": "Distributed output metadata describes an exact tiling of the output", "statement": "For row-combined (column-combined) outputs the ranges recorded for the workers tile the whole output without gap or overlap, in worker order.", "quantifier": "all output shapes, worker counts and combine kinds", "why_tests_cant": "unbounded shapes and worker counts", "anchors": ["src/runtime/distributed/coordinator/scheduling/LoadPartitioningDistributed.h:SetOutputsMetadata"]}
{"id": "C05", "title": "Task queue delivers every task exactly once in FIFO order, EOF only after drain", "statement": "Under every interleaving of producers and consumers, the sequence of dequeued tasks is a prefix of the sequence of enqueued tasks, the queue never exceeds its capacity, and a consumer receives the end marker only when the input was closed and the queue is empty.", "quantifier": "all interleavings of any number of threads, all capacities", "why_tests_cant": "thread schedules cannot be enumerated by tests", "anchors": ["src/runtime/local/vectorized/TaskQueues.h:BlockingTaskQueue"]}
{"id": "C06", "title": "Every scheduled task is executed exactly once by the worker pool", "statement": "For every queue layout (one central, per group, per CPU), every victim-selection policy, every valid assignment of start queues to workers (see C41) and every interleaving, when all workers have terminated every enqueued task has been executed exactly once.", "quantifier": "all schedules, victim selections, numbers of workers and queues", "why_tests_cant": "work stealing races depend on the schedule", "anchors": ["src/runtime/local/vectorized/WorkerCPU.h:WorkerCPU::run", "src/runtime/local/vectorized/TaskQueues.h"]}
{"id": "C07", "title": "The worker pool does not get stuck", "statement": "With the queue capacities the engine uses (number of rows), the producer never blocks forever and no worker sleeps forever: in every reachable state that is not finished, some thread can make progress.", "quantifier": "all schedules", "why_tests_cant": "lost wake-ups only show under rare schedules", "anchors": ["src/runtime/local/vectorized/TaskQueues.h:enqueueTask,dequeueTask,closeInput", "src/runtime/local/vectorized/MTWrapper_dense.cpp", "src/runtime/local/vectorized/WorkerCPU.h"]}
{"id": "C08", "title": "Vectorized row/column-combined execution equals unsplit execution", "statement": "For a pipeline function that works row by row, executing it batch-wise on row chunks, in any order on any workers with any batch size >= 1, and writing each batch result to its slot gives exactly the result of one call on the whole input (row combine; column combine is the transposed analogue).", "quantifier": "all inputs, chunkings, batch sizes and execution orders", "why_tests_cant": "batch boundaries and schedules are unbounded", "anchors": ["src/runtime/local/vectorized/Tasks.cpp:CompiledPipelineTask<DenseMatrix>::execute,accumulateOutputs"]}
{"id": "C09", "title": "Vectorized ADD/MIN/MAX-combined execution equals unsplit aggregation", "statement": "For an aggregation whose combination is associative and commutative, combining per-batch and per-task partial results in any task completion order into the initialised output gives the aggregate of the whole input.", "quantifier": "all inputs, chunkings, batch sizes, completion orders", "why_tests_cant": "schedules are unbounded", "anchors": ["src/runtime/local/vectorized/Tasks.cpp:execute,accumulateOutputs", "src/runtime/local/vectorized/MTWrapper.h:allocateOutput"]}
{"id": "C10", "title": "Sparse row-wise result collection equals row concatenation in row order", "statement": "Partial CSR results (that are not views; see C46) added to the sink in any order are combined into the CSR matrix whose rows are the partial results' rows in start-row order; the sparse pipeline with row-wise combination equals the unsplit operation for every task list, batch size and completion order.", "quantifier": "all partial matrices, all insertion orders", "why_tests_cant": "insertion order is schedule dependent", "anchors": ["src/runtime/local/vectorized/VectorizedDataSink.h:add,consume"]}
{"id": "C11", "title": "Sparse column-wise result collection equals column concatenation", "statement": "Partial CSR results for column blocks added in any order are combined into the CSR matrix that is their column-wise concatenation in start-column order; the sparse pipeline with column-wise combination equals the unsplit operation for every task list, batch size and completion order.", "quantifier": "all partial matrices, all insertion orders", "why_tests_cant": "insertion order is schedule dependent", "anchors": ["src/runtime/local/vectorized/VectorizedDataSink.h:add,consume"]}
{"id": "C12", "title": "Sparse (CSR) matrix behaves like a plain two-dimensional table under get/set", "statement": "After any sequence of in-bounds set operations (that fit the allocated capacity), get(r,c) returns the last value set at (r,c), all other cells are unchanged, and out-of-bounds accesses are rejected with an exception and no change.", "quantifier": "all matrices, all operation histories", "why_tests_cant": "histories are unbounded; gap creation/closing shifts shared arrays", "anchors": ["src/runtime/local/datastructures/CSRMatrix.h:get,set"]}
{"id": "C13", "title": "Building a sparse matrix by in-order append yields exactly the appended cells", "statement": "prepareAppend, any row-major increasing sequence of append calls and finishAppend produce a matrix (with at least one row, see C43), or a direct row view of one (see C44 for views of views), in which get returns the appended value at every appended position and zero elsewhere.", "quantifier": "all shapes and append sequences", "why_tests_cant": "sequences and gaps are unbounded", "anchors": ["src/runtime/local/datastructures/CSRMatrix.h:prepareAppend,append,finishAppend"]}
{"id": "C14", "title": "A sparse row view shows exactly its window and writes through it stay in the window", "statement": "For a row slice [rl,ru) of a CSR matrix, get(r,c) equals the parent's get(rl+r,c); set through the view changes exactly the parent's cell (rl+r,c).", "quantifier": "all matrices, ranges, nested views, histories", "why_tests_cant": "views share memory; all nestings cannot be enumerated", "anchors": ["src/runtime/local/datastructures/CSRMatrix.h:CSRMatrix(src,rl,ru),sliceRow,set"]}
{"id": "C15", "title": "Equality of sparse matrices means equal contents", "statement": "operator== on two well-formed CSR matrices returns true exactly if both have the same shape and the same cells.", "quantifier": "all pairs of matrices", "why_tests_cant": "pairs of matrices are unbounded", "anchors": ["src/runtime/local/datastructures/CSRMatrix.h:operator=="]}
{"id": "C16", "title": "Sparse transposition", "statement": "The transposed CSR matrix has swapped dimensions, is well-formed with sorted column indexes, and its cell (c,r) equals cell (r,c) of the argument (also if the argument is a row view).", "quantifier": "all well-formed CSR matrices", "why_tests_cant": "counting-sort offsets must be right for every sparsity pattern", "anchors": ["src/runtime/local/kernels/Transpose.h:Transpose<CSRMatrix,CSRMatrix>"]}
{"id": "C17", "title": "Sparse row and column binding", "statement": "rowBind/colBind of CSR matrices yields a well-formed CSR matrix whose cells are the cells of the operands stacked vertically/horizontally, for originals and row views (C45 covers views of views as upper operand); mismatched dimensions are rejected.", "quantifier": "all pairs of CSR matrices incl. views", "why_tests_cant": "offset translation must be right for every pattern", "anchors": ["src/runtime/local/kernels/RowBind.h:RowBind<CSRMatrix>", "src/runtime/local/kernels/ColBind.h:ColBind<CSRMatrix>"]}
{"id": "C18", "title": "Dense matrix and its views behave like windows of one table under get/set", "statement": "get/set on a dense matrix or on any nested view address exactly the window's cell of the underlying table: a set through one view is seen through every other view at the corresponding position and nowhere else; out-of-bounds accesses are rejected.", "quantifier": "all shapes, nestings of views, histories", "why_tests_cant": "aliasing histories are unbounded", "anchors": ["src/runtime/local/datastructures/DenseMatrix.h:pos,get,set,slice", "src/runtime/local/datastructures/DenseMatrix.cpp:DenseMatrix(src,rl,ru,cl,cu),validateArgs"]}
{"id": "C19", "title": "Building a dense matrix by in-order append zero-fills the gaps", "statement": "prepareAppend, any row-major increasing sequence of appends and finishAppend leave the appended values at their positions and the default value everywhere else, for original matrices and for views of complete rows (where cells outside the view are untouched).", "quantifier": "all shapes, append sequences, row views", "why_tests_cant": "gap positions and view geometries are unbounded", "anchors": ["src/runtime/local/datastructures/DenseMatrix.h:prepareAppend,append,finishAppend,fillZeroUntil"]}
{"id": "C20", "title": "Range slicing with negative indices", "statement": "sliceRow/sliceCol with bounds (l,u) select exactly the rows/columns a Python user expects (negative bounds count from the end, an upper bound of 0 with negative lower bound means the end) and reject exactly the out-of-range bounds.", "quantifier": "all matrices and all signed bounds", "why_tests_cant": "bounds are arbitrary integers", "anchors": ["src/runtime/local/kernels/SliceRow.h", "src/runtime/local/kernels/SliceCol.h"]}
{"id": "C21", "title": "Dense column binding", "statement": "colBind of dense matrices puts the operands' cells side by side, also if operands are views; mismatched dimensions are rejected.", "quantifier": "all shapes incl. views", "why_tests_cant": "strides and shapes are unbounded", "anchors": ["src/runtime/local/kernels/RowBind.h:RowBind<DenseMatrix>", "src/runtime/local/kernels/ColBind.h:ColBind<DenseMatrix>"]}
{"id": "C22", "title": "Row/column filtering keeps exactly the selected rows/columns in order", "statement": "For a 0/1 selection vector, filterRow/filterCol return exactly the selected rows/columns, in order, and the result's dimension is the number of ones.", "quantifier": "all matrices and selection vectors", "why_tests_cant": "unbounded inputs", "anchors": ["src/runtime/local/kernels/FilterRow.h", "src/runtime/local/kernels/FilterCol.h"]}
{"id": "C23", "title": "Positional extraction", "statement": "extractRow/extractCol return, for every position in a contiguously stored selection (strided ones: C40), the addressed row/column (negative positions count from the end), in selection order, and throws iff some position is out of range.", "quantifier": "all matrices and selection vectors", "why_tests_cant": "unbounded inputs", "anchors": ["src/runtime/local/kernels/ExtractRow.h", "src/runtime/local/kernels/ExtractCol.h"]}
{"id": "C24", "title": "Range insertion replaces exactly the addressed rows/columns", "statement": "insertRow/insertCol return a matrix equal to the argument except that the addressed row/column range equals the inserted matrix; wrong shapes or ranges are rejected.", "quantifier": "all matrices, ranges", "why_tests_cant": "unbounded inputs", "anchors": ["src/runtime/local/kernels/InsertRow.h", "src/runtime/local/kernels/InsertCol.h"]}
{"id": "C25", "title": "Dense transposition", "statement": "transpose returns a matrix with swapped dimensions and swapped cell coordinates, for original matrices and views; transposing twice gives the original contents.", "quantifier": "all shapes and strides", "why_tests_cant": "unbounded inputs", "anchors": ["src/runtime/local/kernels/Transpose.h:Transpose<DenseMatrix,DenseMatrix>"]}
{"id": "C26", "title": "Compiler-inserted reference counting is safe and leak-free", "statement": "After the reference-management pass a program behaves exactly as on a machine on which nothing is ever freed: no data object is used or released after it was freed, and when a function returns, exactly one reference per returned value remains of all references the call had. (Copies of objects between variables are the subject of C63 and C64: terminators of loops and functions hand out objects of their own block, none more than twice; an if hands out no object of its own block twice; arith.select is on strings and scalars.)", "quantifier": "all programs (straight-line, nested ifs, loops, casts, string literals, recursive calls), all kernels, all executions", "why_tests_cant": "programs and executions are unbounded", "anchors": ["src/compiler/lowering/ManageObjRefsPass.cpp", "src/compiler/utils/LoweringUtils.cpp:findLastUseOfSSAValue", "src/runtime/local/kernels/IncRef.h", "src/runtime/local/kernels/DecRef.h", "src/runtime/local/datastructures/DataObjectFactory.h:destroy", "src/runtime/local/datastructures/Structure.h:increaseRefCounter"]}
{"id": "C27", "title": "Lists keep their elements alive and behave like sequences", "statement": "Any history of create/append/remove/copy/destroy on lists keeps every element alive exactly as long as it is in some list or held by a caller; append adds at the end, remove(i) returns and removes the i-th element and rejects out-of-range positions.", "quantifier": "all histories", "why_tests_cant": "histories are unbounded", "anchors": ["src/runtime/local/datastructures/List.h", "src/runtime/local/kernels/Append.h", "src/runtime/local/kernels/Remove.h", "src/runtime/local/kernels/CreateList.h"]}
{"id": "C28", "title": "Scoped symbol table implements lexical scoping", "statement": "After any sequence of push/put/pop, a lookup returns the value most recently put for that name in the innermost open scope defining it; popping a scope restores the outer bindings and reports exactly the outer names overwritten inside it with their last values.", "quantifier": "all histories of operations", "why_tests_cant": "histories are unbounded", "anchors": ["src/parser/ScopedSymbolTable.h"]}
{"id": "C29", "title": "Columnar selection and projection", "statement": "Selecting with a comparison returns exactly the ascending positions whose value satisfies it; projecting by positions returns the addressed values and throws iff a position is out of range; select-then-project equals filtering.", "quantifier": "all columns, all comparison operators", "why_tests_cant": "unbounded inputs", "anchors": ["src/runtime/local/kernels/ColSelectCmp.h", "src/runtime/local/kernels/ColProject.h"]}
{"id": "C30", "title": "Position-list intersection and merge are set intersection and union", "statement": "For strictly increasing position lists, intersect/merge return the strictly increasing list of positions in both/in at least one.", "quantifier": "all pairs of position lists", "why_tests_cant": "unbounded inputs", "anchors": ["src/runtime/local/kernels/ColIntersect.h", "src/runtime/local/kernels/ColMerge.h"]}
{"id": "C31", "title": "Columnar join and semi-join", "statement": "If the right keys are unique, join returns exactly the matching (left position, right position) pairs in left order; semi-join returns exactly the left positions with a partner. Both hold when the number of result rows is left to the kernel or given as an upper bound; duplicate right keys are C50.", "quantifier": "all columns", "why_tests_cant": "unbounded inputs", "anchors": ["src/runtime/local/kernels/ColJoin.h", "src/runtime/local/kernels/ColSemiJoin.h"]}
{"id": "C32", "title": "Columnar grouping numbers groups densely in first-occurrence order", "statement": "Two rows get the same group id iff they agree on all grouping columns processed so far; ids are 0..g-1 in order of first occurrence and the representative of each group is its first row.", "quantifier": "all columns, any number of grouping columns", "why_tests_cant": "unbounded inputs", "anchors": ["src/runtime/local/kernels/ColGroupFirst.h", "src/runtime/local/kernels/ColGroupNext.h"]}
{"id": "C33", "title": "Grouped aggregation with optimistic splitting equals plain grouped aggregation", "statement": "For integer sums, accumulating in half-width counters with overflow spilling gives, for every group, the same (wrap-around) sum as accumulating in full width; plain grouped aggregation folds each group's rows in row order; negative group ids and group ids above the number of groups are rejected (an id equal to it: C49).", "quantifier": "all value and group-id columns, all integer widths", "why_tests_cant": "overflow patterns are unbounded", "anchors": ["src/runtime/local/kernels/ColAggGrp.h"]}
{"id": "C34", "title": "Binary (de)serialization round-trips", "statement": "Deserializing the serialized bytes of a dense matrix without gaps between its rows or of a sparse matrix (original or row view, nested too) yields an equal object: whether the bytes are produced and consumed in one piece, or written to a file in chunks of any admissible size and read in chunks of any other admissible size, or sent as self-describing chunks that arrive in any order. Nothing outside the buffers is touched and all loops end.", "quantifier": "all objects, all chunk sizes on both sides, all arrival orders", "why_tests_cant": "chunk boundaries and arrival orders are unbounded", "anchors": ["src/runtime/local/io/DaphneSerializer.h", "src/runtime/local/io/WriteDaphne.h", "src/runtime/local/io/ReadDaphne.h"]}
{"id": "C35", "title": "CSV round-trip", "statement": "Reading back a CSV file written from a matrix of integers, a matrix of strings (views included) or a frame with any mix of such columns yields the same values: all values of 8- and 32-bit types, 64-bit values in the range of int, and all strings (with quotes, separators, newlines) without NUL and carriage return in which, if they need quotes, no backslash stands before a quote or at the end.", "quantifier": "all contents", "why_tests_cant": "string contents are unbounded", "anchors": ["src/runtime/local/io/WriteCsv.h", "src/runtime/local/io/ReadCsvFile.h", "src/runtime/local/io/utils.cpp"]}
{"id": "C36", "title": "Dense row binding", "statement": "rowBind of two dense matrices or views with the same number of columns stacks the operands' cells; mismatched numbers of columns are rejected.", "quantifier": "all shapes incl. views of some of the columns", "why_tests_cant": "shapes and strides are unbounded", "anchors": ["src/runtime/local/kernels/RowBind.h:RowBind<DenseMatrix,DenseMatrix,DenseMatrix>"]}
{"id": "C37", "title": "In-order append into views of some columns", "statement": "prepareAppend, any row-major increasing sequence of appends and finishAppend on a view of some of the columns of a larger matrix leave the appended values at their positions, the default value in all other cells of the view, and cells outside the view untouched.", "quantifier": "all shapes, append sequences, column views", "why_tests_cant": "gap positions and view geometries are unbounded", "anchors": ["src/runtime/local/datastructures/DenseMatrix.h:prepareAppend,append,finishAppend,fillZeroUntil"]}
{"id": "C38", "title": "Elementwise binary and unary operations with broadcasting", "statement": "For operands of the same shape, or of which one is a row/column vector of matching width/height, the elementwise operation returns the matrix whose cells are the operation applied to the corresponding (broadcast) cells, also for views and when the result is written into the left operand; other shapes are rejected; the same holds for matrix-scalar and unary operations.", "quantifier": "all shapes, strides and scalar functions", "why_tests_cant": "shapes, strides and value types are unbounded", "anchors": ["src/runtime/local/kernels/EwBinaryMat.h:EwBinaryMat<DenseMatrix,DenseMatrix,DenseMatrix>", "src/runtime/local/kernels/EwBinaryObjSca.h", "src/runtime/local/kernels/EwUnaryMat.h"]}
{"id": "C39", "title": "The FISS chunk formula is defined for all inputs", "statement": "For every number of rows and workers the FISS partitioning scheme computes its chunk size without a division by zero.", "quantifier": "all row and worker counts", "why_tests_cant": "the failing combinations depend on both counts", "anchors": ["src/runtime/local/vectorized/LoadPartitioning.h:getNextChunk,getStages"]}
{"id": "C40", "title": "Positional extraction with a strided selection", "statement": "extractRow/extractCol return the addressed rows/columns also if the selection is a column of a wider matrix.", "quantifier": "all selections that are views", "why_tests_cant": "stride and shape of the selection are unbounded", "anchors": ["src/runtime/local/kernels/ExtractRow.h", "src/runtime/local/kernels/ExtractCol.h"]}
{"id": "C41", "title": "Every worker starts at an existing queue", "statement": "For every machine topology and every queue layout the initial queue index of each worker is smaller than the number of queues.", "quantifier": "all topologies (physical id assignments), worker counts and queue modes", "why_tests_cant": "topologies of the test machines are few", "anchors": ["src/runtime/local/vectorized/WorkerCPU.h:run", "src/runtime/local/vectorized/MTWrapper.h:initCPPWorkers"]}
{"id": "C42", "title": "Clearing an entry of a sparse matrix that is filled to capacity", "statement": "Setting a stored cell of a CSR matrix to zero is defined (reads and writes only allocated memory) also if the matrix already holds as many entries as were allocated.", "quantifier": "all matrices filled to capacity", "why_tests_cant": "the access past the end is silent in tests", "anchors": ["src/runtime/local/datastructures/CSRMatrix.h:set"]}
{"id": "C43", "title": "Appending to a sparse matrix without rows", "statement": "prepareAppend and finishAppend on a CSR matrix with zero rows touch only allocated memory.", "quantifier": "all numbers of columns and capacities", "why_tests_cant": "the write past the end is silent in tests", "anchors": ["src/runtime/local/datastructures/CSRMatrix.h:prepareAppend,finishAppend"]}
{"id": "C44", "title": "Appending through a view of a view of a sparse matrix", "statement": "In-order append through a row view of a row view writes the appended cells of the window and nothing else.", "quantifier": "all nestings of row views", "why_tests_cant": "nestings are unbounded", "anchors": ["src/runtime/local/datastructures/CSRMatrix.h:prepareAppend,CSRMatrix(src,rl,ru)"]}
{"id": "C45", "title": "Row binding below a full view of a row view", "statement": "rowBind of CSR matrices stacks the operands also if the upper operand is a view of all rows of a view that does not start at the first row.", "quantifier": "all nestings of row views", "why_tests_cant": "nestings are unbounded", "anchors": ["src/runtime/local/kernels/RowBind.h:RowBind<CSRMatrix>", "src/runtime/local/datastructures/CSRMatrix.h:isView"]}
{"id": "C46", "title": "Sparse row-wise result collection when partial results are row views", "statement": "Row-wise combination of sparse partial results gives their concatenation also if a partial result is a row view of a larger matrix.", "quantifier": "all row views", "why_tests_cant": "view offsets are unbounded", "anchors": ["src/runtime/local/vectorized/VectorizedDataSink.h:consume"]}
{"id": "C47", "title": "Elementwise addition and multiplication of sparse matrices", "statement": "For sparse operands (originals or row views) with equal shapes the elementwise sum and product are the cellwise sum and product, and likewise sparse times a dense matrix, row vector, column vector or 1x1 matrix (broadcast); the result is a well-formed sparse matrix within its estimated capacity, only allocated memory is touched, and other shapes are rejected.", "quantifier": "all operands, shapes, sparsity patterns", "why_tests_cant": "sparsity patterns and sizes are unbounded; the capacity estimate is a bound over all of them", "anchors": ["src/runtime/local/kernels/EwBinaryMat.h:EwBinaryMat<CSRMatrix,CSRMatrix,CSRMatrix>,EwBinaryMat<CSRMatrix,CSRMatrix,DenseMatrix>"]}
{"id": "C48", "title": "Elementwise operations on a sparse and a dense matrix with a dense result", "statement": "For every binary elementwise operation offered on a sparse and a dense matrix with a dense result, every result cell is the operation applied to the operands' cells.", "quantifier": "all operation codes, operands, shapes", "why_tests_cant": "values and patterns are unbounded", "anchors": ["src/runtime/local/kernels/EwBinaryMat.h:EwBinaryMat<DenseMatrix,CSRMatrix,DenseMatrix>"]}
{"id": "C49", "title": "Columnar grouped aggregation rejects the group id equal to the number of groups", "statement": "A group id equal to the number of groups (the smallest invalid id) is rejected with an exception instead of reading and writing past the end of the result column.", "quantifier": "all numbers of groups, aggregations", "why_tests_cant": "the access past the end is silent in tests", "anchors": ["src/runtime/local/kernels/ColAggGrp.h:ColAggGrp::apply"]}
{"id": "C50", "title": "Columnar inner join with duplicate right keys", "statement": "The inner join returns every matching pair of positions also if keys occur repeatedly in the right column.", "quantifier": "all columns", "why_tests_cant": "value distributions are unbounded", "anchors": ["src/runtime/local/kernels/ColJoin.h:ColJoin::apply"]}
{"id": "C51", "title": "Serializing column views of dense matrices", "statement": "A view of a part of the columns of a dense matrix round-trips through (de)serialization.", "quantifier": "all views", "why_tests_cant": "the defect depends on the row skip", "anchors": ["src/runtime/local/io/DaphneSerializer.h:DaphneSerializer<DenseMatrix<VT>>::serialize"]}
{"id": "C52", "title": "Serializing matrices with 2^32 rows or columns and more", "statement": "The dimensions of a matrix survive (de)serialization for all sizes.", "quantifier": "all dimensions", "why_tests_cant": "matrices of this size do not fit into a test", "anchors": ["src/runtime/local/io/DaphneSerializer.h:serializeHeader", "src/runtime/local/io/DaphneFile.h:DF_body_block"]}
{"id": "C53", "title": "Out-of-order serialization of sparse matrices with spare capacity ends", "statement": "The loop that serializes a sparse matrix into self-describing chunks ends also if the matrix has room for more non-zeros than it has.", "quantifier": "all sparse matrices, all chunk sizes", "why_tests_cant": "non-termination cannot be observed by a test", "anchors": ["src/runtime/local/io/DaphneSerializer.h:DaphneSerializerOutOfOrderChunks::HasNextChunk", "src/runtime/local/io/DaphneSerializer.h:DaphneSerializer<CSRMatrix<VT>>::length"]}
{"id": "C54", "title": "Serializing a sparse matrix into a buffer allocated by the serializer", "statement": "The overload of serialize that is given a null pointer allocates a buffer of sufficient size.", "quantifier": "all sparse matrices", "why_tests_cant": "the heap overflow is silent in tests", "anchors": ["src/runtime/local/io/DaphneSerializer.h:DaphneSerializer<CSRMatrix<VT>>::serialize(arg,char**)"]}
{"id": "C55", "title": "CSV round-trip of 64-bit integers", "statement": "Reading back a CSV file written from a matrix of 64-bit integers yields the same values, for all values.", "quantifier": "all 64-bit values", "why_tests_cant": "values are unbounded for a test", "anchors": ["src/runtime/local/io/utils.h:convertCstr", "src/runtime/local/io/WriteCsv.h:WriteCsv<DenseMatrix<VT>>"]}
{"id": "C56", "title": "CSV round-trip of strings with carriage returns or backslashes", "statement": "Reading back a CSV file yields the same strings also if they contain carriage returns, or backslashes before quotes or at the end.", "quantifier": "all strings", "why_tests_cant": "string contents are unbounded", "anchors": ["src/runtime/local/io/utils.h:setCString", "src/runtime/local/io/WriteCsv.h:quoteStrCsvIf"]}
{"id": "C57", "title": "Sparse matrices from files of coordinates", "statement": "Reading a file of coordinates gives a sparse matrix with well-formed row offsets and exactly the listed entries, row by row (sorted if the file is not declared sorted); a coordinate outside the matrix is rejected if the file is not declared sorted.", "quantifier": "all lists of coordinates below 2^31, all orders", "why_tests_cant": "lists are unbounded", "anchors": ["src/runtime/local/io/ReadCsvFile.h:ReadCsvFile<CSRMatrix<VT>>::readCOOSorted,readCOOUnsorted"]}
{"id": "C58", "title": "Coordinates outside the matrix in sorted files", "statement": "A coordinate with a row outside the matrix in a file declared sorted is rejected.", "quantifier": "all files", "why_tests_cant": "the access out of bounds is silent in tests", "anchors": ["src/runtime/local/io/ReadCsvFile.h:ReadCsvFile<CSRMatrix<VT>>::readCOOSorted"]}
{"id": "C59", "title": "Which scripts the parser accepts as far as variables are concerned", "statement": "The parser accepts a script exactly if it reads variables only where they exist (assigned before, in the same or a surrounding block) and never assigns the variable of a for-loop inside that loop; every other script is rejected with an exception, none makes the parser run into undefined behaviour.", "quantifier": "all scripts made of assignments, blocks, if, while, do-while and for, nested arbitrarily", "why_tests_cant": "scripts are unbounded", "anchors": ["src/parser/daphnedsl/DaphneDSLVisitor.cpp:visitIdentifierExpr,handleAssignmentPart,visitAssignStatement,visitBlockStatement,visitIfStatement,visitWhileStatement,visitForStatement"]}
{"id": "C60", "title": "The generated IR computes what the script says", "statement": "For every accepted script, every meaning of the builtin operations and every state of the outside world: if the script ends, the IR generated by the parser ends with the same effects on the outside world and the same values of all variables; if the script runs forever, so does the IR; no accepted script reads a variable that does not exist.", "quantifier": "all scripts made of assignments (also of several variables), blocks, if, while, do-while and for with loop-carried variables, all operations, all inputs", "why_tests_cant": "scripts, iteration counts and values are unbounded", "anchors": ["src/parser/daphnedsl/DaphneDSLVisitor.cpp:renameIf,handleAssignmentPart,visitAssignStatement,visitBlockStatement,visitIfStatement,visitWhileStatement,visitForStatement"]}
{"id": "C61", "title": "For-loops up to the largest integer", "statement": "A for-loop whose last value is the largest 64-bit integer runs its body for all values.", "quantifier": "all lower bounds", "why_tests_cant": "the loops are too long for a test, except for those that reveal the error", "anchors": ["src/parser/daphnedsl/DaphneDSLVisitor.cpp:visitForStatement"]}
{"id": "C62", "title": "The generated IR is valid SSA code", "statement": "In the IR generated for an accepted script every value is defined exactly once, and every operand is defined before its use, in the same block or in a block around it.", "quantifier": "all accepted scripts", "why_tests_cant": "scripts are unbounded", "anchors": ["src/parser/daphnedsl/DaphneDSLVisitor.cpp:visitIfStatement,visitWhileStatement,visitForStatement"]}
{"id": "C63", "title": "Copying a data object to another variable inside loops and branches", "statement": "Programs in which a loop assigns an object from outside to one of its variables, a branch assigns the same new object to two variables, or a branch chooses between two existing objects do not use freed objects.", "quantifier": "all such programs", "why_tests_cant": "programs are unbounded", "anchors": ["src/compiler/lowering/ManageObjRefsPass.cpp:processBlock,processValue"]}
{"id": "C64", "title": "Returning the same object several times does not leak", "statement": "When a function returns (or a loop hands out) the same object several times, the object is left with one reference per returned value.", "quantifier": "all numbers of copies", "why_tests_cant": "programs are unbounded", "anchors": ["src/compiler/lowering/ManageObjRefsPass.cpp:processBlock"]}
{"id": "C65", "title": "Ordering rows by several columns", "statement": "order by a non-empty list of columns with directions returns the rows (or their positions) sorted lexicographically, each column ascending or descending as requested, with equal rows in their original order; this result is unique. The list of groups computed for GROUP BY contains exactly the maximal runs of two or more equal rows. Ordering by no column is rejected. Columns must be totally ordered (no NaN).", "quantifier": "all row counts, key lists, directions, contents; views", "why_tests_cant": "the number of ties and key columns is unbounded", "anchors": ["src/runtime/local/kernels/Order.h:columnIDSort,columnGroupScan,multiColumnIDSort,OrderFrame,Order<DenseMatrix,DenseMatrix>"]}
{"id": "C66", "title": "GROUP BY with aggregates", "statement": "group returns one row per distinct combination of key values, in ascending key order; key columns show the keys, aggregate columns the COUNT/SUM/MIN/MAX/AVG of the group's values taken in row order; labels and value types are as documented; without keys there is one group of all rows. Keys may be * or f.*; the result's labels must be distinct; keys must be totally ordered; the allocator must round up the array of sort directions (see C67).", "quantifier": "all frames, key lists, aggregate lists", "why_tests_cant": "the number of groups, keys and aggregates is unbounded", "anchors": ["src/runtime/local/kernels/Group.h:Group<Frame>,ColumnGroupAgg,aggregate", "src/runtime/local/kernels/Order.h:OrderFrame"]}
{"id": "C67", "title": "GROUP BY is defined for every query", "statement": "group by existing columns with any aggregate has a defined result or is rejected: it stays within its arrays, sums of strings are rejected, MIN/MAX of no rows is rejected, and a column can be key and aggregate at once.", "quantifier": "all frames and queries", "why_tests_cant": "memory errors are silent in tests", "anchors": ["src/runtime/local/kernels/Group.h:Group<Frame>,aggregate", "src/runtime/local/datastructures/Frame.h:initDeduplicatedLabels2Idxs"]}
{"id": "C68", "title": "Ordering terminates in the presence of NaN", "statement": "order and group by a floating-point column that contains NaN return.", "quantifier": "all row counts and positions of NaN", "why_tests_cant": "a hanging test is no result", "anchors": ["src/runtime/local/kernels/Order.h:columnGroupScan,nextWithRowskip"]}
{"id": "C69", "title": "Frame labels", "statement": "Creating a frame (with given or default labels, or from column matrices), binding frames column-wise and renaming columns succeed exactly if all labels are distinct (and shapes match); then looking up a label gives the position of exactly that column. Selecting rows and columns by position keeps types, data and distinct labels; a column selected twice gets a label of its own if no selected label has the default form col_k; invalid positions and row ranges are rejected.", "quantifier": "all frames, label lists, selections", "why_tests_cant": "label sets are unbounded", "anchors": ["src/runtime/local/datastructures/Frame.h:Frame,initLabels2Idxs,initDeduplicatedLabels2Idxs,setLabels,getColumnIdx,slice"]}
{"id": "C70", "title": "Selecting a column with a default label twice", "statement": "After selecting a column twice all columns of the result have distinct labels.", "quantifier": "all frames and selections", "why_tests_cant": "label sets are unbounded", "anchors": ["src/runtime/local/datastructures/Frame.h:initDeduplicatedLabels2Idxs"]}
{"id": "C71", "title": "Cartesian product of frames", "statement": "cartesian returns one row for each pair of a row of lhs and a row of rhs, ordered by the lhs row, then the rhs row; it has the columns of lhs followed by those of rhs with the values of the two rows (int64 and double columns). If a label occurs twice, it is rejected.", "quantifier": "all frames without a common label", "why_tests_cant": "the number of rows and columns is unbounded", "anchors": ["src/runtime/local/kernels/Cartesian.h:cartesian,cartesianSet"]}
{"id": "C72", "title": "Inner join of frames", "statement": "innerJoin returns one row for each pair of rows with equal keys (and no others), ordered by the lhs row, then the rhs row, with the columns of both inputs (string, int64 and double columns). The key columns must both be strings or both be int64; anything else, a missing column, a repeated label or a row-count hint that is too small is rejected.", "quantifier": "all frames, key columns, hints", "why_tests_cant": "duplicates of keys on both sides are unbounded", "anchors": ["src/runtime/local/kernels/InnerJoin.h:innerJoin,BuildHashRhs,ProbeHashLhs"]}
{"id": "C73", "title": "Theta join of frames", "statement": "thetaJoin with one or more conditions returns one row for each pair of rows for which all conditions hold (and no others), ordered by the lhs row, then the rhs row, with all columns of both inputs. Values of different types are compared after conversion of the rhs value. A repeated label, a missing column or a string column in either input is rejected.", "quantifier": "all frames, lists of conditions", "why_tests_cant": "the position list is rewritten in place for every condition; the number of conditions and rows is unbounded", "anchors": ["src/runtime/local/kernels/ThetaJoin.h:ThetaJoin,CompareColumnPair,WriteColumn,ResultContainer"]}
{"id": "C74", "title": "Joins deliver all columns", "statement": "Cartesian product and inner join return the input values in columns of every value type.", "quantifier": "all frames with columns of other types", "why_tests_cant": "uninitialized memory may look right in a test", "anchors": ["src/runtime/local/kernels/Cartesian.h:cartesianSet", "src/runtime/local/kernels/InnerJoin.h:innerJoinSet,ProbeHashLhs"]}
{"id": "C75", "title": "Theta join corner cases", "statement": "A theta join without conditions is the Cartesian product, and a condition on columns of different numeric types compares the numbers.", "quantifier": "all frames", "why_tests_cant": "the number of value combinations is unbounded", "anchors": ["src/runtime/local/kernels/ThetaJoin.h:ThetaJoin,compareValues"]}
{"id": "C76", "title": "Semi join of frames", "statement": "semiJoin on int64 keys returns exactly the rows of lhs whose key occurs in rhs, in their order: the key and the row number. A missing column or a row-count hint that is too small is rejected.", "quantifier": "all frames, key columns, hints", "why_tests_cant": "the number of rows is unbounded; the kernel runs twice on its own result", "anchors": ["src/runtime/local/kernels/SemiJoin.h:semiJoin,semiJoinCol"]}
{"id": "C77", "title": "Group join of frames", "statement": "groupJoin on int64 keys and an int64 or double column returns one row for each key of lhs that occurs in rhs, in an unspecified order: the key, the sum of the column over the rows of rhs with that key in row order, and the first row of lhs with that key. A missing column, or a key column that is called like the sum, is rejected.", "quantifier": "all frames, columns, iteration orders of the hash table", "why_tests_cant": "the number of rows and the order of a hash table are unbounded", "anchors": ["src/runtime/local/kernels/GroupJoin.h:groupJoin,groupJoinCol"]}
{"id": "C78", "title": "Semi and group join on other types", "statement": "semiJoin and groupJoin on columns of other value types give the corresponding result or are rejected.", "quantifier": "all frames, column types", "why_tests_cant": "a null-pointer access is undefined", "anchors": ["src/runtime/local/kernels/SemiJoin.h:semiJoin", "src/runtime/local/kernels/GroupJoin.h:groupJoin"]}
{"id": "C79", "title": "Full aggregation of a dense matrix", "statement": "sum, prod, min, max, mean, var, stddev of a whole dense matrix (a new one or a view, with or without gaps between the rows) equal the aggregate of the list of its cells, if the arithmetic is associative and commutative (integers); in any arithmetic every cell is used exactly once. Positions of extreme values are rejected.", "quantifier": "all dense matrices, views, value types, op-codes", "why_tests_cant": "the loop is unrolled four times, with separate treatment of contiguous matrices; sizes and contents are unbounded", "anchors": ["src/runtime/local/kernels/AggAll.h:aggAllArray,AggAll", "src/runtime/local/kernels/AggOpCode.h:AggOpCodeUtils"]}
{"id": "C80", "title": "Full aggregation of a sparse matrix", "statement": "The same aggregates of a sparse matrix (also of a view of some of its rows) equal those of the list of all its cells, stored or zero.", "quantifier": "all sparse matrices, views, op-codes", "why_tests_cant": "zeros are not visited but accounted for by formulas", "anchors": ["src/runtime/local/kernels/AggAll.h:AggAll", "src/runtime/local/kernels/AggOpCode.h:AggOpCodeUtils"]}
{"id": "C81", "title": "Row-wise aggregation", "statement": "Row-wise aggregation of a dense or sparse matrix (also of views) with at least one column returns one value per row: the aggregate of all cells of the row. In any arithmetic, dense rows are folded from left to right.", "quantifier": "all matrices, views, op-codes", "why_tests_cant": "sizes, views and distributions of zeros are unbounded", "anchors": ["src/runtime/local/kernels/AggRow.h:AggRow"]}
{"id": "C82", "title": "Column-wise aggregation", "statement": "Column-wise aggregation of a dense or sparse matrix (also of views) with at least one row returns one value per column: the aggregate of all cells of the column. In any arithmetic, dense columns are folded from top to bottom.", "quantifier": "all matrices, views, op-codes", "why_tests_cant": "sizes, views and distributions of zeros are unbounded", "anchors": ["src/runtime/local/kernels/AggCol.h:AggCol"]}
{"id": "C83", "title": "Positions of extreme values", "statement": "Row-wise and column-wise idxMin/idxMax of a dense matrix return, for each row/column, the first position of the smallest/greatest value; they are rejected for sparse matrices.", "quantifier": "all matrices without NaN", "why_tests_cant": "ties and sizes are unbounded", "anchors": ["src/runtime/local/kernels/AggRow.h:AggRow", "src/runtime/local/kernels/AggCol.h:AggCol"]}
{"id": "C84", "title": "Cumulative aggregation", "statement": "cumSum, cumProd, cumMin, cumMax return a matrix of the same shape, whose cell in row r is the aggregate, from top to bottom, of the first r+1 cells of the column; other op-codes are rejected.", "quantifier": "all dense matrices with at least one row", "why_tests_cant": "sizes are unbounded", "anchors": ["src/runtime/local/kernels/AggCum.h:AggCum"]}
{"id": "C85", "title": "Aggregating nothing", "statement": "Aggregation of a matrix without cells returns a result or is rejected.", "quantifier": "all matrices without rows or without columns, all op-codes", "why_tests_cant": "an out-of-bounds read need not be visible", "anchors": ["src/runtime/local/kernels/AggRow.h:AggRow", "src/runtime/local/kernels/AggCol.h:AggCol", "src/runtime/local/kernels/AggCum.h:AggCum", "src/runtime/local/kernels/AggAll.h:AggAll"]}
{"id": "C86", "title": "Minimum and maximum with a different result type", "statement": "The full minimum/maximum as a floating-point number of a non-empty integer matrix is its minimum/maximum.", "quantifier": "all non-empty integer matrices", "why_tests_cant": "the outcome of an undefined conversion depends on the compiler", "anchors": ["src/runtime/local/kernels/AggAll.h:aggAllArray", "src/runtime/local/kernels/AggOpCode.h:getNeutral"]}
{"id": "C87", "title": "Integer mean of negative numbers", "statement": "The full mean as an int64 of a matrix is the sum of the cells divided by their number, rounded toward zero.", "quantifier": "all int64 matrices", "why_tests_cant": "the sign of the sum matters", "anchors": ["src/runtime/local/kernels/AggAll.h:AggAll"]}
{"id": "C88", "title": "Reshape (dense)", "statement": "reshape of a dense matrix or view keeps the row-major sequence of its cells; a shape with another number of cells is rejected.", "quantifier": "all matrices, views and target shapes", "why_tests_cant": "shapes and views are unbounded", "anchors": ["src/runtime/local/kernels/Reshape.h:Reshape"]}
{"id": "C89", "title": "Reshape (sparse)", "statement": "reshape of a sparse matrix keeps the row-major sequence of its cells, also for row views recognised as such; a shape with another number of cells is rejected.", "quantifier": "all sparse matrices and target shapes", "why_tests_cant": "entries move between rows; offsets of skipped rows must be filled", "anchors": ["src/runtime/local/kernels/Reshape.h:Reshape"]}
{"id": "C90", "title": "Reshape of a sparse view of a view", "statement": "reshape of a sparse row view keeps its cells, also if the view was taken from a view.", "quantifier": "all sparse row views", "why_tests_cant": "depends on the history of slicing", "anchors": ["src/runtime/local/kernels/Reshape.h:Reshape", "src/runtime/local/datastructures/CSRMatrix.h:isView"]}
{"id": "C91", "title": "Reverse", "statement": "reverse of a dense matrix or view with at least one column returns the rows in reverse order.", "quantifier": "all dense matrices and views with at least one column", "why_tests_cant": "sizes and views are unbounded", "anchors": ["src/runtime/local/kernels/Reverse.h:Reverse"]}
{"id": "C92", "title": "Reverse without columns", "statement": "reverse of a view without columns returns a matrix without columns.", "quantifier": "all dense views without columns", "why_tests_cant": "an out-of-bounds write need not be visible", "anchors": ["src/runtime/local/kernels/Reverse.h:Reverse"]}
{"id": "C93", "title": "Triangles", "statement": "lowerTri/upperTri of a square dense or sparse matrix keeps (or replaces by one) exactly the non-zero cells of the triangle, with or without the diagonal, and sets all other cells to zero; other shapes are rejected; the sparse result never exceeds the space reserved for it.", "quantifier": "all square matrices and views, all flag combinations", "why_tests_cant": "the reserved space is a formula of size and non-zeros", "anchors": ["src/runtime/local/kernels/Tri.h:Tri"]}
{"id": "C94", "title": "Diagonals", "statement": "diagMatrix of a column returns the square matrix with these values on the diagonal and zeros elsewhere (dense, sparse, and dense to sparse), diagVector of a square matrix returns its diagonal (dense and sparse), other shapes are rejected, and diagVector undoes diagMatrix.", "quantifier": "all matrices and views", "why_tests_cant": "sizes and sparsity patterns are unbounded", "anchors": ["src/runtime/local/kernels/DiagMatrix.h:DiagMatrix", "src/runtime/local/kernels/DiagVector.h:DiagVector"]}
{"id": "C95", "title": "Constant matrices", "statement": "fill(v, R, C) returns an R x C matrix, dense or sparse, whose cells are all v.", "quantifier": "all values and sizes", "why_tests_cant": "sizes are unbounded", "anchors": ["src/runtime/local/kernels/Fill.h:Fill"]}
{"id": "C96", "title": "Sequences", "statement": "seq(start, end, inc) over integers returns exactly the values start, start+inc, ... that are not beyond end, in order; no value if end lies on the other side; inc = 0 is rejected.", "quantifier": "all integers (without overflow)", "why_tests_cant": "the number of values is computed by a division and then corrected", "anchors": ["src/runtime/local/kernels/Seq.h:Seq"]}
{"id": "C97", "title": "Outer operations", "statement": "outerBinary of a column (m x 1) and a row (1 x n) returns the m x n matrix of the operation applied to every pair; other shapes are rejected.", "quantifier": "all matrices, views, operations", "why_tests_cant": "sizes and views are unbounded", "anchors": ["src/runtime/local/kernels/OuterBinary.h:OuterBinary"]}
{"id": "C98", "title": "Conditional per cell", "statement": "cond ? then : else with a matrix condition returns, per cell, the value of the chosen operand, for any combination of matrix (or view) and scalar operands; a matrix operand of another shape is rejected.", "quantifier": "all conditions, operands, views", "why_tests_cant": "sizes and views are unbounded", "anchors": ["src/runtime/local/kernels/CondMatMatMat.h:CondMatMatMat", "src/runtime/local/kernels/CondMatMatSca.h:CondMatMatSca", "src/runtime/local/kernels/CondMatScaMat.h:CondMatScaMat", "src/runtime/local/kernels/CondMatScaSca.h:CondMatScaSca"]}
{"id": "C99", "title": "Replace", "statement": "replace of a matrix with at least one cell (dense, also views) or one non-zero (sparse, not a row view with an offset) returns a matrix in which exactly the cells equal to the pattern (NaN counts as equal to NaN) hold the replacement; the pattern 0 is rejected for sparse matrices.", "quantifier": "all matrices, patterns, replacements", "why_tests_cant": "NaN, equal pattern and replacement and zero take different paths", "anchors": ["src/runtime/local/kernels/Replace.h:Replace"]}
{"id": "C100", "title": "Replace in nothing", "statement": "replace of a matrix without cells, or of a sparse matrix without non-zeros, returns the unchanged matrix.", "quantifier": "all such matrices", "why_tests_cant": "the missing result only shows when it is used", "anchors": ["src/runtime/local/kernels/Replace.h:Replace"]}
{"id": "C101", "title": "Replace in a sparse row view", "statement": "replace of a sparse row view returns a matrix in which exactly the cells equal to the pattern hold the replacement.", "quantifier": "all sparse row views", "why_tests_cant": "the damage depends on the contents of neighbouring memory", "anchors": ["src/runtime/local/kernels/Replace.h:Replace"]}
{"id": "C102", "title": "Casts of dense matrices", "statement": "A cast of a dense matrix or view to another value type has the same shape, and each cell is the converted cell.", "quantifier": "all matrices, views, conversions", "why_tests_cant": "sizes and views are unbounded", "anchors": ["src/runtime/local/kernels/CastObj.h:CastObj"]}
{"id": "C103", "title": "Casts between dense and sparse", "statement": "A cast of a sparse matrix (or row view) to dense and of a dense matrix (or view) to sparse shows the same cells; casting to sparse and back changes nothing.", "quantifier": "all matrices, views, sparsity patterns", "why_tests_cant": "sizes and sparsity patterns are unbounded", "anchors": ["src/runtime/local/kernels/CastObj.h:CastObj"]}
{"id": "C104", "title": "Casts of square sparse matrices", "statement": "A cast of a square sparse matrix to another value type converts every cell, if the conversion maps zero to zero.", "quantifier": "all square sparse matrices, conversions", "why_tests_cant": "sparsity patterns are unbounded", "anchors": ["src/runtime/local/kernels/CastObj.h:CastObj"]}
{"id": "C105", "title": "Casts of sparse matrices that are not square", "statement": "A cast of a sparse matrix to another value type has the same shape and converts every cell.", "quantifier": "all sparse matrices with different numbers of rows and columns", "why_tests_cant": "the existing tests use square matrices", "anchors": ["src/runtime/local/kernels/CastObj.h:CastObj"]}
{"id": "C106", "title": "Contingency tables", "statement": "ctable of two columns (not views with gaps) of n non-negative integers returns, dense or sparse, the matrix whose cell (i, j) is the weight added once per pair (i, j); positions outside a requested size are ignored, a size that is not requested is the greatest coordinate + 1; other shapes are rejected.", "quantifier": "all columns, weights, requested sizes", "why_tests_cant": "the sparse variant updates cells in arbitrary order", "anchors": ["src/runtime/local/kernels/CTable.h:CTable"]}
{"id": "C107", "title": "Position list to bitmap", "statement": "A list of positions below n (also a view) becomes the bitmap of n rows with ones exactly there; a position above n or more than one column is rejected.", "quantifier": "all lists, sizes, views", "why_tests_cant": "sizes are unbounded", "anchors": ["src/runtime/local/kernels/ConvertPosListToBitmap.h:ConvertPosListToBitmap"]}
{"id": "C108", "title": "Bitmap to position list", "statement": "A bitmap (also a view) becomes the ascending list of the positions of its ones; ascending duplicate-free lists survive the conversion to a bitmap and back.", "quantifier": "all bitmaps and views", "why_tests_cant": "sizes are unbounded; the result is allocated for the worst case and then shrunk", "anchors": ["src/runtime/local/kernels/ConvertBitmapToPosList.h:ConvertBitmapToPosList", "src/runtime/local/kernels/ConvertPosListToBitmap.h:ConvertPosListToBitmap"]}
{"id": "C109", "title": "Positions beyond the bitmap", "statement": "A position that is not below the number of rows of the bitmap is rejected.", "quantifier": "all position lists", "why_tests_cant": "only the boundary value is wrong", "anchors": ["src/runtime/local/kernels/ConvertPosListToBitmap.h:ConvertPosListToBitmap"]}
{"id": "C110", "title": "Contingency tables of column views", "statement": "ctable of columns of a wider matrix is the table of the values in these columns.", "quantifier": "all column views", "why_tests_cant": "the wrong cells read may look plausible", "anchors": ["src/runtime/local/kernels/CTable.h:CTable"]}
{"id": "C111", "title": "Coordinates of contingency tables", "statement": "ctable rejects negative coordinates and handles inputs without rows.", "quantifier": "all inputs", "why_tests_cant": "memory errors depend on the surrounding memory", "anchors": ["src/runtime/local/kernels/CTable.h:CTable"]}
{"id": "C112", "title": "One-hot encoding", "statement": "oneHot keeps columns with info -1, drops columns with info 0 and replaces a column with info d by d columns with a one at the position of the value; a bad info row (shape, value below -1, only zeros) or a value not below d is rejected.", "quantifier": "all matrices, views, info rows", "why_tests_cant": "widths and positions depend on all columns before", "anchors": ["src/runtime/local/kernels/OneHot.h:OneHot"]}
{"id": "C113", "title": "Recoding", "statement": "recode without order preservation returns codes and a dictionary such that decoding gives the input back, each value is in the dictionary once, and codes are given in the order of first appearance, independent of the traversal order of the hash map.", "quantifier": "all columns (views), all hash map orders", "why_tests_cant": "hash map order and inputs are unbounded", "anchors": ["src/runtime/local/kernels/Recode.h:Recode"]}
{"id": "C114", "title": "Order-preserving recoding", "statement": "recode with order preservation additionally returns an ascending dictionary, so codes compare as the values do.", "quantifier": "all columns (views) of integers or strings", "why_tests_cant": "inputs are unbounded", "anchors": ["src/runtime/local/kernels/Recode.h:Recode"]}
{"id": "C115", "title": "Order-preserving recoding of floats", "statement": "recode with order preservation on floating-point columns returns codes from which the dictionary gives back the values.", "quantifier": "all columns of floats", "why_tests_cant": "depends on where a NaN is inserted into the set", "anchors": ["src/runtime/local/kernels/Recode.h:Recode"]}
{"id": "C116", "title": "Binning", "statement": "bin puts every value into its bin of n bins of equal width between min and max (values outside into the first or last one), larger values never get a smaller bin; invalid arguments are rejected.", "quantifier": "all values, bounds, numbers of bins (exact arithmetic)", "why_tests_cant": "boundaries between bins", "anchors": ["src/runtime/local/kernels/Bin.h:Bin"]}
{"id": "C117", "title": "Binning of integers", "statement": "bin puts every 64-bit integer into its bin; values above max into the last one.", "quantifier": "all 64-bit integers and bounds", "why_tests_cant": "only extreme values overflow", "anchors": ["src/runtime/local/kernels/Bin.h:Bin"]}
{"id": "C118", "title": "Quantization", "statement": "quantize with a range that contains a value other than 0 returns codes in 0..255; 0 is represented exactly, larger values never get a smaller code, and values in the range are represented with an error of at most 1.5 steps of 1/256 of the range.", "quantifier": "all matrices, views, ranges (exact arithmetic)", "why_tests_cant": "values are unbounded; rounding of the zero point interacts with clipping", "anchors": ["src/runtime/local/kernels/Quantize.h:Quantize"]}
{"id": "C119", "title": "Quantization of constant zero", "statement": "quantize accepts every range, also that of an input of zeros.", "quantifier": "all ranges with min >= 0 >= max", "why_tests_cant": "undefined behaviour may go unnoticed", "anchors": ["src/runtime/local/kernels/Quantize.h:Quantize"]}
{"id": "C120", "title": "Folded casts of integer constants", "statement": "A cast of an integer constant between integer types that the compiler evaluates has the value the cast has at run time (except negative numbers to wider unsigned types).", "quantifier": "all integer types and values", "why_tests_cant": "the domain is 2^64 per pair of types", "anchors": ["src/ir/daphneir/Fold.cpp:performCast", "src/runtime/local/kernels/CastSca.h:CastSca"]}
{"id": "C121", "title": "Folded casts of negative constants", "statement": "A cast of a negative constant to a wider unsigned type that the compiler evaluates has the value it has at run time.", "quantifier": "all signed types, wider unsigned types, negative values", "why_tests_cant": "the result depends on whether the compiler sees the constant", "anchors": ["src/ir/daphneir/Fold.cpp:performCast", "src/runtime/local/kernels/CastSca.h:CastSca"]}
{"id": "C122", "title": "Folded integer arithmetic", "statement": "An arithmetic, comparison, min/max or logical operation on two integer constants of any types that the compiler evaluates has the value it has at run time, whenever that is defined; division or modulo by the constant 0 is rejected (except the cases of C121, C123, C124).", "quantifier": "all operations, pairs of integer types, values", "why_tests_cant": "the domain is 2^128 per operation and pair of types", "anchors": ["src/ir/daphneir/Fold.cpp:constFoldBinaryOp", "src/runtime/local/kernels/EwBinarySca.h:EwBinarySca", "src/compiler/inference/TypeInferenceUtils.cpp:mostGeneralVt"]}
{"id": "C123", "title": "Folded modulo of large integers", "statement": "Modulo of two integer constants has the same value whether or not it is evaluated by the compiler.", "quantifier": "all 64-bit integers", "why_tests_cant": "only numbers beyond 2^53 differ", "anchors": ["src/ir/daphneir/Fold.cpp:EwModOp::fold", "src/runtime/local/kernels/EwBinarySca.h:EwBinarySca"]}
{"id": "C124", "title": "Folded sum of booleans", "statement": "The sum of two boolean constants has the same value whether or not it is evaluated by the compiler.", "quantifier": "all pairs of booleans", "why_tests_cant": "the two evaluations are in different components", "anchors": ["src/ir/daphneir/Fold.cpp:EwAddOp::fold", "src/runtime/local/kernels/EwBinarySca.h:EwBinarySca"]}
{"id": "C125", "title": "Folded min and max of floats", "statement": "min and max of floating-point constants have the same value whether or not they are evaluated by the compiler.", "quantifier": "all floating-point values", "why_tests_cant": "only NaN differs", "anchors": ["src/ir/daphneir/Fold.cpp:EwMinOp::fold", "src/ir/daphneir/Fold.cpp:EwMaxOp::fold", "src/runtime/local/kernels/EwBinarySca.h:EwBinarySca"]}
{"id": "C126", "title": "Folded casts of floats to integers", "statement": "A cast of a floating-point constant to an integer type (not bool) that the compiler evaluates has the value it has at run time, if that is defined and below 2^63.", "quantifier": "all floating-point values, integer types", "why_tests_cant": "values are unbounded", "anchors": ["src/ir/daphneir/Fold.cpp:performCast", "src/runtime/local/kernels/CastSca.h:CastSca"]}
{"id": "C127", "title": "Folded casts of floats to bool and large unsigned integers", "statement": "A cast of a floating-point constant to bool or ui64 that the compiler evaluates has the value it has at run time.", "quantifier": "all floating-point values", "why_tests_cant": "the result depends on whether the compiler sees the constant", "anchors": ["src/ir/daphneir/Fold.cpp:performCast", "src/runtime/local/kernels/CastSca.h:CastSca"]}
{"id": "C128", "title": "Duplicate inputs of fused pipelines", "statement": "Removing duplicate inputs of a vectorized pipeline does not change what its operations are applied to, if inputs that are the same value have the same split; no input value is lost, and a pipeline without duplicates is unchanged.", "quantifier": "all pipelines (any number of inputs, splits and uses)", "why_tests_cant": "any list of inputs", "anchors": ["src/ir/daphneir/Canonicalize.cpp:VectorizedPipelineOp::canonicalize"]}
{"id": "C129", "title": "Duplicate inputs with different splits", "statement": "Removing duplicate inputs of a vectorized pipeline does not change what its operations are applied to, also if a value is used with two different splits.", "quantifier": "all pipelines", "why_tests_cant": "needs two duplicates in one pipeline", "anchors": ["src/ir/daphneir/Canonicalize.cpp:VectorizedPipelineOp::canonicalize"]}
{"id": "C130", "title": "Unused results of fused pipelines", "statement": "After the removal of unused results of a vectorized pipeline, every remaining result is the same value with the same shape and combination; exactly the used results remain.", "quantifier": "all pipelines with any number of results", "why_tests_cant": "any subset of results may be unused", "anchors": ["src/ir/daphneir/Canonicalize.cpp:VectorizedPipelineOp::canonicalize"]}
{"id": "C131", "title": "Scalar minus matrix", "statement": "The simplification of a - X (integer scalar a, integer matrix X) computes a - x for every cell x that is not the smallest number of its type, in the same result type.", "quantifier": "all integer types, scalars and cells", "why_tests_cant": "the domain is 2^128 per pair of types", "anchors": ["src/ir/daphneir/Canonicalize.cpp:EwSubOp::canonicalize", "src/runtime/local/kernels/EwBinarySca.h:EwBinarySca"]}
{"id": "C132", "title": "Scalar minus matrix: smallest numbers and booleans", "statement": "The simplification of a - X computes a - x also for the smallest number of a type and for booleans.", "quantifier": "all integer types, scalars and cells", "why_tests_cant": "one value per type", "anchors": ["src/ir/daphneir/Canonicalize.cpp:EwSubOp::canonicalize"]}
{"id": "C133", "title": "Scalar divided by matrix", "statement": "The simplification of a / X (floating point) computes a / x for every non-zero cell x, up to rounding.", "quantifier": "all finite scalars and cells", "why_tests_cant": "only cells with an overflowing reciprocal differ", "anchors": ["src/ir/daphneir/Canonicalize.cpp:EwDivOp::canonicalize"]}
{"id": "C134", "title": "Addition with an operand of unknown type", "statement": "The reordering of operands of an addition does not change its result, whatever the operands turn out to be.", "quantifier": "all pairs of matrices", "why_tests_cant": "depends on what is known when the rewrite runs", "anchors": ["src/ir/daphneir/Canonicalize.cpp:EwAddOp::canonicalize", "src/runtime/local/kernels/EwBinaryMat.h:EwBinaryMat"]}
{"id": "C135", "title": "Positions to bitmap and back", "statement": "Replacing the conversion of a position list to a bitmap and back by the list is right exactly for ascending lists without duplicates (positions below the size of the bitmap).", "quantifier": "all position lists and bitmap sizes", "why_tests_cant": "lists of any length", "anchors": ["src/ir/daphneir/Canonicalize.cpp:ConvertBitmapToPosListOp::canonicalize", "src/runtime/local/kernels/ConvertPosListToBitmap.h", "src/runtime/local/kernels/ConvertBitmapToPosList.h"]}
{"id": "C136", "title": "Extraction of a column from a new frame", "statement": "If creating a frame from column matrices and extracting a column by its label succeeds, then the simplified program gives the same frame: the matrix as the only column, with the selected label.", "quantifier": "all column matrices, labels, selected labels that do not end in .*", "why_tests_cant": "any number of columns, rows and labels", "anchors": ["src/ir/daphneir/Canonicalize.cpp:ExtractColOp::canonicalize", "src/runtime/local/kernels/ExtractCol.h", "src/runtime/local/kernels/SetColLabels.h", "src/runtime/local/kernels/CastObj.h", "src/runtime/local/datastructures/Frame.h"]}
{"id": "C137", "title": "Extraction of a column from a new frame: errors and wildcards", "statement": "The simplification of C136 also preserves errors of the frame creation, and extraction of several columns by a label ending in .*", "quantifier": "all column matrices and labels", "why_tests_cant": "two paths through different components", "anchors": ["src/ir/daphneir/Canonicalize.cpp:ExtractColOp::canonicalize"]}
{"id": "C138", "title": "Simplification of label operations on frames", "statement": "Extracting a column from two bound frames gives what extracting from the one with the label gives; extracting twice by the same label (also ending in .*) is extracting once; giving a frame the labels it has changes nothing.", "quantifier": "all frames and labels", "why_tests_cant": "frames of any size", "anchors": ["src/ir/daphneir/Canonicalize.cpp:ExtractColOp::canonicalize", "src/ir/daphneir/Canonicalize.cpp:SetColLabelsOp::canonicalize", "src/runtime/local/kernels/ExtractCol.h", "src/runtime/local/kernels/SetColLabels.h"]}
{"id": "C139", "title": "Chains of casts", "statement": "Casting a matrix to a frame and on to a matrix, or a frame with columns of one type to a matrix of that type and on to a matrix, gives what the direct cast gives.", "quantifier": "all matrices, frames and value types", "why_tests_cant": "any size and type", "anchors": ["src/ir/daphneir/Canonicalize.cpp:CastOp::canonicalize", "src/ir/daphneir/DaphneOps.td:CastOp::mightLoseInformation", "src/runtime/local/kernels/CastObj.h"]}
{"id": "C140", "title": "Casting a frame to a matrix and back", "statement": "The simplification of casts of a frame to a matrix and back does not change the resulting frame.", "quantifier": "all frames with columns of one type", "why_tests_cant": "depends on the labels", "anchors": ["src/ir/daphneir/Canonicalize.cpp:CastOp::canonicalize", "src/ir/daphneir/DaphneOps.td:CastOp::mightLoseInformation", "src/ir/daphneir/DaphneOps.td:CastOp::isRemovePropertyCast"]}
{"id": "C141", "title": "Type of a variable after a branch or loop", "statement": "The type the compiler gives to a variable that two paths assign fits the values of both paths (kind, value type, shape, symmetry, labels), in either order; types of two different kinds are rejected.", "quantifier": "all pairs of types (scalars, matrices, frames of any width) and values", "why_tests_cant": "any shapes, column types and labels", "anchors": ["src/compiler/inference/InferencePass.cpp:getTypeWithCommonInfo"]}
{"id": "C142", "title": "Sparsity of a variable after a branch", "statement": "The sparsity the compiler assumes for a variable that two paths assign is the one of a path or unknown.", "quantifier": "all pairs of matrix types", "why_tests_cant": "any fraction", "anchors": ["src/compiler/inference/InferencePass.cpp"]}
{"id": "C143", "title": "Casts that the compiler removes", "statement": "A cast that the compiler removes because the argument type already has the target's properties does not change what is known of the value: it fits the target type.", "quantifier": "all types and values", "why_tests_cant": "any combination of known and unknown properties", "anchors": ["src/ir/daphneir/DaphneOps.td:CastOp", "src/ir/daphneir/DaphneTypes.td:isSpecializationOf"]}
{"id": "C144", "title": "Representation after a removed cast", "statement": "After the removal of casts the representation (dense or sparse) of a value is the one its users were compiled for.", "quantifier": "all matrix types", "why_tests_cant": "depends on two passes", "anchors": ["src/ir/daphneir/DaphneOps.td:CastOp::isRemovePropertyCast", "src/compiler/lowering/SelectMatrixRepresentationsPass.cpp"]}
{"id": "C145", "title": "Soundness of type inference", "statement": "If the inference of a program ends, then in every execution of the program every variable has a value that fits the inferred type, if this is so for each single operation.", "quantifier": "all programs with nested branches and loops, all inputs, any number of iterations", "why_tests_cant": "any nesting and number of iterations", "anchors": ["src/compiler/inference/InferencePass.cpp"]}
{"id": "C146", "title": "Number of rounds of loop inference", "statement": "The inference of a loop ends within one round per known property of its variables, or never; it ends if no yielded type knows more than that of its variable.", "quantifier": "all loops, any number of variables, any body", "why_tests_cant": "any number of rounds", "anchors": ["src/compiler/inference/InferencePass.cpp"]}
{"id": "C147", "title": "Termination of loop inference", "statement": "The inference of every loop ends.", "quantifier": "all loops", "why_tests_cant": "an endless compilation cannot be observed", "anchors": ["src/compiler/inference/InferencePass.cpp"]}
{"id": "C148", "title": "Inferred shapes and constant nrow/ncol/ncell", "statement": "If what the compiler knows of the operands is true and the operation accepts them at run time, then shape inference reports no error and every inferred number of rows or columns is the one of the result at run time; so nrow, ncol and ncell are replaced by the right constants.", "quantifier": "all shapes, partial knowledge, constants, about 40 operations (data generation, elementwise, aggregation, slicing, binding, reshaping, matmul, frames)", "why_tests_cant": "every combination of known and unknown shapes", "anchors": ["src/ir/daphneir/DaphneInferShapeOpInterface.cpp:tryInferShape", "src/ir/daphneir/DaphneOps.td", "src/ir/daphneir/Canonicalize.cpp:NumRowsOp::canonicalize", "src/ir/daphneir/Canonicalize.cpp:NumColsOp::canonicalize", "src/ir/daphneir/Canonicalize.cpp:NumCellsOp::canonicalize"]}
{"id": "C149", "title": "Inferred length of sequences", "statement": "The number of rows the compiler infers for seq(from, to, inc) on integers is that of the result, if inc is not 0 and leads from from towards to.", "quantifier": "all integers", "why_tests_cant": "unbounded", "anchors": ["src/ir/daphneir/DaphneInferShapeOpInterface.cpp:SeqOp::inferNumRows", "src/runtime/local/kernels/Seq.h"]}
{"id": "C150", "title": "Inferred length of sequences: other increments", "statement": "The number of rows the compiler infers for seq(from, to, inc) is that of the result for every increment; increment 0 is an error of the program.", "quantifier": "all integers", "why_tests_cant": "unbounded", "anchors": ["src/ir/daphneir/DaphneInferShapeOpInterface.cpp:SeqOp::inferNumRows"]}
{"id": "C151", "title": "Inferred size of Cartesian products", "statement": "The number of rows the compiler infers for a Cartesian product is right or unknown.", "quantifier": "all frames, partial knowledge", "why_tests_cant": "depends on what is known", "anchors": ["src/ir/daphneir/DaphneInferShapeOpInterface.cpp:CartesianOp::inferNumRows"]}
{"id": "C152", "title": "Inferred shape of an operation on a scalar and a matrix", "statement": "The shape the compiler infers for an elementwise operation on a scalar and a matrix is that of the matrix or unknown.", "quantifier": "all shapes", "why_tests_cant": "depends on the order of passes", "anchors": ["src/ir/daphneir/DaphneInferShapeOpInterface.cpp:tryInferShape", "src/ir/daphneir/Canonicalize.cpp:EwAddOp::canonicalize"]}
{"id": "C153", "title": "Inferred shapes of internal operations", "statement": "The shapes inferred for X @ t(X) computed as syrk and for conversions between position lists and bitmaps are right or unknown.", "quantifier": "all shapes", "why_tests_cant": "depends on the order of passes", "anchors": ["src/ir/daphneir/DaphneOps.td:SyrkOp", "src/ir/daphneir/DaphneOps.td:ConvertPosListToBitmapOp", "src/ir/daphneir/DaphneOps.td:ConvertBitmapToPosListOp"]}
{"id": "C154", "title": "Sparse times dense", "statement": "For a CSR matrix and a dense matrix (also views) with matching inner dimension, each of the three variants of the kernel returns the matrix product, whatever the interleaving of the OpenMP threads; no two threads write the same cell. If the inner dimensions differ it throws.", "quantifier": "all matrices, views, thread schedules, numbers of non-zeros", "why_tests_cant": "every interleaving", "anchors": ["src/runtime/local/kernels/MatMul.h:MatMul<DenseMatrix, CSRMatrix, DenseMatrix>"]}
{"id": "C155", "title": "Dense times sparse", "statement": "For a dense and a CSR matrix (also views) with matching inner dimension, the kernel returns the matrix product; otherwise it throws.", "quantifier": "all matrices and views", "why_tests_cant": "unbounded sizes", "anchors": ["src/runtime/local/kernels/MatMul.h:MatMul<DenseMatrix, DenseMatrix, CSRMatrix>"]}
{"id": "C156", "title": "Product of any two matrices, with transposition flags", "statement": "The kernel for the abstract matrix type returns the product of the (transposed, if the flag says so) operands if the inner dimensions match and throws otherwise.", "quantifier": "all matrices, all flags", "why_tests_cant": "unbounded sizes", "anchors": ["src/runtime/local/kernels/MatMul.h:MatMul<Matrix, Matrix, Matrix>"]}
{"id": "C157", "title": "Sparse times sparse", "statement": "For two CSR matrices with matching inner dimension the kernel returns a well-formed CSR matrix that represents the matrix product; the memory it allocates suffices.", "quantifier": "all CSR matrices and views, any distribution of non-zeros", "why_tests_cant": "every distribution of the non-zeros", "anchors": ["src/runtime/local/kernels/MatMul.h:MatMul<CSRMatrix, CSRMatrix, CSRMatrix>"]}
{"id": "C158", "title": "Dense times dense", "statement": "For dense matrices (also views), the product is returned for each combination of transposition flags (float and double with positive inner dimension, integers without transposed left operand), whichever of the routines for dot product, matrix-vector and matrix-matrix product is called; with mismatching inner dimensions it throws.", "quantifier": "all matrices, views, flags", "why_tests_cant": "unbounded sizes, several code paths", "anchors": ["src/runtime/local/kernels/MatMul.cpp"]}
{"id": "C159", "title": "Dense times dense: empty inner dimension and transposed integer operands", "statement": "The product is also right (zero) if the inner dimension is 0, and for integers with transposed left operand.", "quantifier": "all matrices", "why_tests_cant": "depends on uninitialised memory", "anchors": ["src/runtime/local/kernels/MatMul.cpp"]}
{"id": "C160", "title": "syrk", "statement": "The kernel for t(X) @ X returns this product, including the lower triangle it copies; with the other value of its flag X @ t(X).", "quantifier": "all dense matrices and views with a positive inner dimension", "why_tests_cant": "unbounded sizes", "anchors": ["src/runtime/local/kernels/Syrk.h"]}
{"id": "C161", "title": "gemv", "statement": "The kernel for t(M) @ v returns this product for every column vector v with as many entries as M has rows.", "quantifier": "all dense matrices and views", "why_tests_cant": "unbounded sizes", "anchors": ["src/runtime/local/kernels/Gemv.h"]}
{"id": "C162", "title": "Choice of the physical operator for matrix multiplication", "statement": "Folding transpositions into flags and replacing products by syrk and gemv does not change the result for dense matrices of floating point numbers with positive inner dimension, if no transposed matrix is multiplied by a transposed row vector.", "quantifier": "all matrices, all knowledge of the compiler that is true", "why_tests_cant": "all combinations of rewrites", "anchors": ["src/ir/daphneir/Canonicalize.cpp:MatMulOp::canonicalize", "src/compiler/lowering/PhyOperatorSelectionPass.cpp", "src/runtime/local/kernels/Syrk.h", "src/runtime/local/kernels/Gemv.h", "src/runtime/local/kernels/MatMul.cpp"]}
{"id": "C163", "title": "Choice of the physical operator: sparse matrices and row vectors", "statement": "The same holds for sparse matrices and for products with row vectors, and gemv checks its arguments.", "quantifier": "all matrices", "why_tests_cant": "all combinations of rewrites", "anchors": ["src/ir/daphneir/Canonicalize.cpp:MatMulOp::canonicalize", "src/compiler/lowering/PhyOperatorSelectionPass.cpp", "src/runtime/local/kernels/Gemv.h", "src/runtime/local/kernels/MatMul.h"]}
{"id": "C164", "title": "Declared splits and combines of vectorizable operations", "statement": "For every vectorizable operation (elementwise, aggregations, matrix product, column extraction, transposition, column bind, syrk with t(X) @ X, gemv): splitting its operands and combining its partial results as it declares yields the result of the operation on the whole operands, and the declared size of the output is right.", "quantifier": "all operations, matrices, ways to divide the rows", "why_tests_cant": "every partition of the rows", "anchors": ["src/ir/daphneir/DaphneVectorizableOpInterface.cpp", "src/runtime/local/vectorized/Tasks.cpp"]}
{"id": "C165", "title": "Fused pipelines", "statement": "A pipeline of several vectorizable operations, connected by row-combined results that are row-split operands, delivers for each operation the same matrix as calling the kernels one after the other on whole matrices, without an error, however the rows are divided into tasks and batches and however the threads are interleaved; and it can always be completed.", "quantifier": "all pipelines, inputs, divisions into tasks, batch sizes, thread schedules", "why_tests_cant": "every schedule", "anchors": ["src/runtime/local/vectorized/MTWrapper.h", "src/runtime/local/vectorized/MTWrapper_dense.cpp", "src/runtime/local/vectorized/Tasks.cpp", "src/compiler/lowering/VectorizeComputationsPass.cpp"]}
{"id": "C166", "title": "Vectorized X @ t(X)", "statement": "Also for X @ t(X) (syrk with the other flag) the declared split and combine are right.", "quantifier": "all matrices", "why_tests_cant": "depends on the number of tasks", "anchors": ["src/ir/daphneir/DaphneVectorizableOpInterface.cpp:SyrkOp"]}
{"id": "C167", "title": "Vectorization preserves the results of a program", "statement": "For every straight-line program of vectorizable and other operations whose operands have acceptable shapes (vectorizable ones with at least one row, no fused row vector) and in which fusible intermediate results are used once (or, more generally, are not shared among fusion candidates, and the pipelines can be ordered): after the pass all operations are still executed, every vectorizable one in a pipeline, each after its operands; execution never fails, can always be completed, and delivers for each operation the matrix the program defines, however the pipelines are divided into tasks and batches and however the threads are interleaved.", "quantifier": "all programs, arguments, divisions into tasks, batch sizes, thread schedules", "why_tests_cant": "every program and every schedule", "anchors": ["src/compiler/lowering/VectorizeComputationsPass.cpp", "src/compiler/utils/VectorizationUtils.cpp", "src/runtime/local/vectorized/MTWrapper.h"]}
{"id": "C168", "title": "Vectorization with shared intermediate results", "statement": "The body of a pipeline lists operations after those whose results they use, also if an intermediate result is used by several fusible operations.", "quantifier": "all programs", "why_tests_cant": "every program", "anchors": ["src/compiler/lowering/VectorizeComputationsPass.cpp", "src/compiler/utils/VectorizationUtils.cpp", "src/runtime/local/vectorized/MTWrapper.h"]}
{"id": "C169", "title": "Vectorization: pipelines that use each other's results", "statement": "The pipelines that the pass forms can be executed one after the other (no two use results of each other).", "quantifier": "all programs", "why_tests_cant": "every program", "anchors": ["src/compiler/lowering/VectorizeComputationsPass.cpp", "src/compiler/utils/VectorizationUtils.cpp", "src/runtime/local/vectorized/MTWrapper.h"]}
{"id": "C170", "title": "Vectorization: users between the fused operations", "statement": "An operation that uses a result of a pipeline is placed after the pipeline, wherever it was among the fused operations.", "quantifier": "all programs", "why_tests_cant": "every program", "anchors": ["src/compiler/lowering/VectorizeComputationsPass.cpp", "src/compiler/utils/VectorizationUtils.cpp", "src/runtime/local/vectorized/MTWrapper.h"]}
{"id": "C171", "title": "Vectorization: operands that must not be split", "statement": "If an operation needs an operand as a whole (such as the right operand of a matrix product), this operand is not computed by the same pipeline.", "quantifier": "all programs", "why_tests_cant": "depends on the number of tasks", "anchors": ["src/compiler/lowering/VectorizeComputationsPass.cpp", "src/compiler/utils/VectorizationUtils.cpp", "src/runtime/local/vectorized/MTWrapper.h"]}
{"id": "C172", "title": "Vectorization: computed row vectors", "statement": "A row vector that is computed and then combined with each row of a matrix is not divided among tasks.", "quantifier": "all programs", "why_tests_cant": "depends on the number of tasks", "anchors": ["src/compiler/lowering/VectorizeComputationsPass.cpp", "src/compiler/utils/VectorizationUtils.cpp", "src/runtime/local/vectorized/MTWrapper.h"]}
{"id": "C173", "title": "Vectorization keeps the order of side effects", "statement": "Operations with side effects, such as printing, are executed in the order of the program.", "quantifier": "all programs", "why_tests_cant": "every program", "anchors": ["src/compiler/lowering/VectorizeComputationsPass.cpp", "src/compiler/utils/VectorizationUtils.cpp", "src/runtime/local/vectorized/MTWrapper.h"]}
{"id": "C174", "title": "Row selection on frames moves whole rows", "statement": "Filtering the rows of a frame by a column matrix (one entry per row, nonzero = keep) and extracting rows by positions (negative ones count from the end) give frames with the same labels and value types whose rows are exactly the selected ones, in order, with all their bytes, for any mix of value types up to 8 bytes and strings, whatever fresh memory contains, provided the column arrays have 7 bytes of padding or 8-byte elements; the results have this padding again. Selections of the wrong shape and positions out of range make the call throw.", "quantifier": "all frames, selections, contents of uninitialized memory", "why_tests_cant": "all byte patterns and sizes", "anchors": ["src/runtime/local/kernels/FilterRow.h", "src/runtime/local/kernels/ExtractRow.h", "src/runtime/local/datastructures/Frame.h"]}
{"id": "C175", "title": "Row selection on frames stays within the column arrays", "statement": "Filtering never reads outside the column arrays, also for columns of small value types whose arrays have no padding.", "quantifier": "all frames", "why_tests_cant": "depends on what follows the array in memory", "anchors": ["src/runtime/local/kernels/FilterRow.h", "src/runtime/local/kernels/ExtractRow.h", "src/runtime/local/datastructures/Frame.h"]}
{"id": "C176", "title": "Row selection on frames with fixed-size strings", "statement": "Filtering a frame copies all 16 bytes of each FixedStr16 value.", "quantifier": "all frames, contents of uninitialized memory", "why_tests_cant": "depends on the contents of fresh memory", "anchors": ["src/runtime/local/kernels/FilterRow.h", "src/runtime/local/kernels/ExtractRow.h", "src/runtime/local/datastructures/Frame.h"]}
{"id": "C177", "title": "Row selection on frames by a column of a wider matrix", "statement": "The selection may be a column view of a wider matrix.", "quantifier": "all selections", "why_tests_cant": "every view", "anchors": ["src/runtime/local/kernels/FilterRow.h", "src/runtime/local/kernels/ExtractRow.h", "src/runtime/local/datastructures/Frame.h"]}
{"id": "C178", "title": "Columnar execution: comparisons", "statement": "With columnar execution enabled, comparing a single-column matrix (also a view of a wider matrix) with a scalar gives the same bitmap as without, for every comparison.", "quantifier": "all matrices, views, scalars, comparisons", "why_tests_cant": "all contents and shapes", "anchors": ["src/compiler/lowering/RewriteToColumnarOpsPass.cpp", "src/runtime/local/kernels/CastObj.h", "src/runtime/local/kernels/ColSelectCmp.h", "src/runtime/local/kernels/ColProject.h", "src/runtime/local/kernels/ColJoin.h", "src/runtime/local/kernels/ColGroupFirst.h", "src/runtime/local/kernels/ColAggGrp.h"]}
{"id": "C179", "title": "Columnar execution: conjunctions and disjunctions of bitmaps", "statement": "With columnar execution enabled, && and || of two single-column bitmaps of the same length give the same matrix as without.", "quantifier": "all bitmaps", "why_tests_cant": "all contents and lengths", "anchors": ["src/compiler/lowering/RewriteToColumnarOpsPass.cpp", "src/runtime/local/kernels/CastObj.h", "src/runtime/local/kernels/ColSelectCmp.h", "src/runtime/local/kernels/ColProject.h", "src/runtime/local/kernels/ColJoin.h", "src/runtime/local/kernels/ColGroupFirst.h", "src/runtime/local/kernels/ColAggGrp.h"]}
{"id": "C180", "title": "Columnar execution: conjunctions and disjunctions of comparison results of any shape", "statement": "With columnar execution enabled, && and || of any two comparison results give the same matrix, or fail, as without.", "quantifier": "all shapes", "why_tests_cant": "all shapes, also those unknown at compile time", "anchors": ["src/compiler/lowering/RewriteToColumnarOpsPass.cpp", "src/runtime/local/kernels/CastObj.h", "src/runtime/local/kernels/ColSelectCmp.h", "src/runtime/local/kernels/ColProject.h", "src/runtime/local/kernels/ColJoin.h", "src/runtime/local/kernels/ColGroupFirst.h", "src/runtime/local/kernels/ColAggGrp.h"]}
{"id": "C181", "title": "Columnar execution: subtraction, multiplication and sum", "statement": "With columnar execution enabled, the difference and product of single-column matrices (also if the right one has one row) and the sum of a single-column matrix are the same as without, and different numbers of rows are rejected as without.", "quantifier": "all single-column matrices and views", "why_tests_cant": "all contents and shapes", "anchors": ["src/compiler/lowering/RewriteToColumnarOpsPass.cpp", "src/runtime/local/kernels/CastObj.h", "src/runtime/local/kernels/ColSelectCmp.h", "src/runtime/local/kernels/ColProject.h", "src/runtime/local/kernels/ColJoin.h", "src/runtime/local/kernels/ColGroupFirst.h", "src/runtime/local/kernels/ColAggGrp.h"]}
{"id": "C182", "title": "Columnar execution: selecting rows of frames", "statement": "With columnar execution enabled, filtering a frame by a bitmap of zeros and ones with one entry per row, and extracting rows at positions counted from the beginning, give the same frame (rows, labels, value types) as without; positions beyond the end are rejected as without.", "quantifier": "all frames, bitmaps, positions", "why_tests_cant": "all contents and shapes", "anchors": ["src/compiler/lowering/RewriteToColumnarOpsPass.cpp", "src/runtime/local/kernels/CastObj.h", "src/runtime/local/kernels/ColSelectCmp.h", "src/runtime/local/kernels/ColProject.h", "src/runtime/local/kernels/ColJoin.h", "src/runtime/local/kernels/ColGroupFirst.h", "src/runtime/local/kernels/ColAggGrp.h"]}
{"id": "C183", "title": "Columnar execution: selecting rows of frames by other values", "statement": "With columnar execution enabled, filtering and extracting treat non-zero values other than one, bitmaps of the wrong length and negative positions as without.", "quantifier": "all frames, bitmaps, positions", "why_tests_cant": "all contents and shapes", "anchors": ["src/compiler/lowering/RewriteToColumnarOpsPass.cpp", "src/runtime/local/kernels/CastObj.h", "src/runtime/local/kernels/ColSelectCmp.h", "src/runtime/local/kernels/ColProject.h", "src/runtime/local/kernels/ColJoin.h", "src/runtime/local/kernels/ColGroupFirst.h", "src/runtime/local/kernels/ColAggGrp.h"]}
{"id": "C184", "title": "Columnar execution: inner join", "statement": "With columnar execution enabled, the inner join of two frames, the keys of the right one being unique, has exactly one row for each pair of rows with equal keys, in the same order as without, with all columns of both frames.", "quantifier": "all frames", "why_tests_cant": "all contents and shapes", "anchors": ["src/compiler/lowering/RewriteToColumnarOpsPass.cpp", "src/runtime/local/kernels/CastObj.h", "src/runtime/local/kernels/ColSelectCmp.h", "src/runtime/local/kernels/ColProject.h", "src/runtime/local/kernels/ColJoin.h", "src/runtime/local/kernels/ColGroupFirst.h", "src/runtime/local/kernels/ColAggGrp.h"]}
{"id": "C185", "title": "Columnar execution: semi join", "statement": "With columnar execution enabled, the semi join returns exactly the rows of the left frame whose key occurs in the right frame, in order, and their positions.", "quantifier": "all frames", "why_tests_cant": "all contents and shapes", "anchors": ["src/compiler/lowering/RewriteToColumnarOpsPass.cpp", "src/runtime/local/kernels/CastObj.h", "src/runtime/local/kernels/ColSelectCmp.h", "src/runtime/local/kernels/ColProject.h", "src/runtime/local/kernels/ColJoin.h", "src/runtime/local/kernels/ColGroupFirst.h", "src/runtime/local/kernels/ColAggGrp.h"]}
{"id": "C186", "title": "Columnar execution: group by", "statement": "With columnar execution enabled, grouping a frame by ordinary key columns with SUM aggregates gives the same rows as without: one per distinct combination of keys, with the keys and the sums of the group's values added in row order; labels and value types are the same, only the order of the rows differs (first occurrence instead of ascending keys).", "quantifier": "all frames, key columns, aggregated columns", "why_tests_cant": "all contents and shapes", "anchors": ["src/compiler/lowering/RewriteToColumnarOpsPass.cpp", "src/runtime/local/kernels/CastObj.h", "src/runtime/local/kernels/ColSelectCmp.h", "src/runtime/local/kernels/ColProject.h", "src/runtime/local/kernels/ColJoin.h", "src/runtime/local/kernels/ColGroupFirst.h", "src/runtime/local/kernels/ColAggGrp.h"]}
{"id": "C187", "title": "Columnar execution: inner join on repeated keys", "statement": "With columnar execution enabled, the inner join has all pairs of rows with equal keys also if a key occurs several times in the right frame.", "quantifier": "all frames", "why_tests_cant": "all contents", "anchors": ["src/compiler/lowering/RewriteToColumnarOpsPass.cpp", "src/runtime/local/kernels/CastObj.h", "src/runtime/local/kernels/ColSelectCmp.h", "src/runtime/local/kernels/ColProject.h", "src/runtime/local/kernels/ColJoin.h", "src/runtime/local/kernels/ColGroupFirst.h", "src/runtime/local/kernels/ColAggGrp.h"]}
{"id": "C188", "title": "Columnar execution: columns of a semi join", "statement": "With columnar execution enabled, the semi join has the same columns as without.", "quantifier": "all frames", "why_tests_cant": "all frames", "anchors": ["src/compiler/lowering/RewriteToColumnarOpsPass.cpp", "src/runtime/local/kernels/CastObj.h", "src/runtime/local/kernels/ColSelectCmp.h", "src/runtime/local/kernels/ColProject.h", "src/runtime/local/kernels/ColJoin.h", "src/runtime/local/kernels/ColGroupFirst.h", "src/runtime/local/kernels/ColAggGrp.h"]}
{"id": "C189", "title": "Columnar execution: order of groups, no keys, wildcards", "statement": "With columnar execution enabled, grouping has the same order of rows as without and accepts the same keys (none, *).", "quantifier": "all frames, keys", "why_tests_cant": "all contents", "anchors": ["src/compiler/lowering/RewriteToColumnarOpsPass.cpp", "src/runtime/local/kernels/CastObj.h", "src/runtime/local/kernels/ColSelectCmp.h", "src/runtime/local/kernels/ColProject.h", "src/runtime/local/kernels/ColJoin.h", "src/runtime/local/kernels/ColGroupFirst.h", "src/runtime/local/kernels/ColAggGrp.h"]}
{"id": "C190", "title": "Random samples of integers", "statement": "sample(range, size, false, seed) of an integer range with size <= range returns a size x 1 matrix of pairwise different numbers in [0, range), for every seed; with replacement all numbers are in [0, range). Requests with size <= 0, range <= 0, or range < size without replacement are rejected.", "quantifier": "all ranges, sizes, random draws, shuffles", "why_tests_cant": "all seeds and sizes", "anchors": ["src/runtime/local/kernels/Sample.h: sample"]}
{"id": "C191", "title": "Random samples of floating-point numbers", "statement": "sample(range, size, false, seed) of a floating-point range returns a size x 1 matrix of pairwise different numbers in [0, range) or is rejected.", "quantifier": "all ranges, sizes, random draws", "why_tests_cant": "all seeds; termination", "anchors": ["src/runtime/local/kernels/Sample.h: sample"]}
{"id": "C192", "title": "Random dense matrices", "statement": "rand(rows, cols, min, max, sparsity, seed) with a dense result of at most 2^31 cells returns a matrix of the requested shape in which every cell is zero or a value in [min, max], and the number of non-zero cells is sparsity * rows * cols rounded to a whole number, for every seed, also if [min, max] contains zero. Empty shapes, min > max, min = max = 0 and sparsities outside [0, 1] are rejected (dense and sparse results).", "quantifier": "all shapes, bounds, sparsities, random draws", "why_tests_cant": "all seeds and shapes", "anchors": ["src/runtime/local/kernels/RandMatrix.h: randMatrix, validateArgsRandMatrix"]}
{"id": "C193", "title": "Random sparse matrices", "statement": "rand with a sparse (CSR) result and bounds that exclude zero returns a valid CSR matrix of the requested shape (column indexes ascending in each row) whose number of non-zeros is sparsity * rows * cols rounded to a whole number, with all non-zeros in [min, max].", "quantifier": "all shapes, bounds, sparsities, random draws", "why_tests_cant": "all seeds and shapes", "anchors": ["src/runtime/local/kernels/RandMatrix.h: randMatrix, validateArgsRandMatrix"]}
{"id": "C194", "title": "Random dense matrices with more than 2^31 cells", "statement": "rand with a dense result works for every shape that fits into memory.", "quantifier": "all shapes", "why_tests_cant": "needs more than 2^31 cells", "anchors": ["src/runtime/local/kernels/RandMatrix.h: randMatrix, validateArgsRandMatrix"]}
{"id": "C195", "title": "Random sparse matrices: bounds that include zero", "statement": "rand with a sparse (CSR) result has the requested number of non-zero cells also if the bounds include zero.", "quantifier": "all shapes, bounds, sparsities, random draws", "why_tests_cant": "all seeds", "anchors": ["src/runtime/local/kernels/RandMatrix.h: randMatrix, validateArgsRandMatrix"]}
{"id": "C196", "title": "Distributed execution computes the same as local execution", "statement": "For every program history (matrices created, destroyed and viewed from their first row on, earlier pipelines executed in the distributed runtime, leaving parts of matrices at the workers), every number of workers with different addresses, and every order in which the workers respond, executing a pipeline that can be computed by rows in the distributed runtime returns, and its results are those of computing the pipeline locally on the whole inputs; no other matrix changes. The row-split inputs have at least as many rows as there are workers, or a single row and no result is summed up.", "quantifier": "all histories, pipelines, inputs, numbers of workers, response orders", "why_tests_cant": "all schedules and histories", "anchors": ["src/runtime/distributed/coordinator/kernels/DistributedWrapper.h: execute", "src/runtime/distributed/coordinator/kernels/Distribute.h", "src/runtime/distributed/coordinator/kernels/Broadcast.h", "src/runtime/distributed/coordinator/kernels/DistributedCompute.h", "src/runtime/distributed/coordinator/kernels/DistributedCollect.h", "src/runtime/distributed/coordinator/scheduling/LoadPartitioningDistributed.h", "src/runtime/distributed/worker/WorkerImpl.cpp", "src/runtime/local/datastructures/MetaDataObject.cpp"]}
{"id": "C197", "title": "Data at the workers is not sent again", "statement": "Distributing or broadcasting an object again after it has been distributed or broadcast in the same way sends nothing and changes neither the coordinator nor any worker, whatever happened before and in whatever order the workers responded.", "quantifier": "all histories, objects, numbers of workers, response orders", "why_tests_cant": "all histories", "anchors": ["src/runtime/distributed/coordinator/kernels/DistributedWrapper.h: execute", "src/runtime/distributed/coordinator/kernels/Distribute.h", "src/runtime/distributed/coordinator/kernels/Broadcast.h", "src/runtime/distributed/coordinator/kernels/DistributedCompute.h", "src/runtime/distributed/coordinator/kernels/DistributedCollect.h", "src/runtime/distributed/coordinator/scheduling/LoadPartitioningDistributed.h", "src/runtime/distributed/worker/WorkerImpl.cpp", "src/runtime/local/datastructures/MetaDataObject.cpp"]}
{"id": "C198", "title": "Distributed execution: summing results of one-row inputs", "statement": "A pipeline on a row-split input with one row whose results are summed up computes the same in the distributed runtime as locally.", "quantifier": "all one-row inputs, numbers of workers, response orders", "why_tests_cant": "all numbers of workers", "anchors": ["src/runtime/distributed/coordinator/kernels/DistributedWrapper.h: execute", "src/runtime/distributed/coordinator/kernels/Distribute.h", "src/runtime/distributed/coordinator/kernels/Broadcast.h", "src/runtime/distributed/coordinator/kernels/DistributedCompute.h", "src/runtime/distributed/coordinator/kernels/DistributedCollect.h", "src/runtime/distributed/coordinator/scheduling/LoadPartitioningDistributed.h", "src/runtime/distributed/worker/WorkerImpl.cpp", "src/runtime/local/datastructures/MetaDataObject.cpp"]}
{"id": "C199", "title": "Distributed execution: fewer rows than workers", "statement": "Pipelines whose inputs have fewer rows than there are workers are executed.", "quantifier": "all inputs, numbers of workers", "why_tests_cant": "all shapes and numbers of workers", "anchors": ["src/runtime/distributed/coordinator/kernels/DistributedWrapper.h: execute", "src/runtime/distributed/coordinator/kernels/Distribute.h", "src/runtime/distributed/coordinator/kernels/Broadcast.h", "src/runtime/distributed/coordinator/kernels/DistributedCompute.h", "src/runtime/distributed/coordinator/kernels/DistributedCollect.h", "src/runtime/distributed/coordinator/scheduling/LoadPartitioningDistributed.h", "src/runtime/distributed/worker/WorkerImpl.cpp", "src/runtime/local/datastructures/MetaDataObject.cpp"]}
{"id": "C200", "title": "Distributed execution: equal scalar arguments", "statement": "A pipeline may have two scalar arguments of the same value.", "quantifier": "all pipelines", "why_tests_cant": "all pipelines", "anchors": ["src/runtime/distributed/coordinator/kernels/DistributedWrapper.h: execute", "src/runtime/distributed/coordinator/kernels/Distribute.h", "src/runtime/distributed/coordinator/kernels/Broadcast.h", "src/runtime/distributed/coordinator/kernels/DistributedCompute.h", "src/runtime/distributed/coordinator/kernels/DistributedCollect.h", "src/runtime/distributed/coordinator/scheduling/LoadPartitioningDistributed.h", "src/runtime/distributed/worker/WorkerImpl.cpp", "src/runtime/local/datastructures/MetaDataObject.cpp"]}
{"id": "C201", "title": "Distributed execution: views of distributed matrices", "statement": "A view of a matrix (parts of which are at the workers) can be used like any matrix in the distributed runtime.", "quantifier": "all histories", "why_tests_cant": "depends on the history", "anchors": ["src/runtime/distributed/coordinator/kernels/DistributedWrapper.h: execute", "src/runtime/distributed/coordinator/kernels/Distribute.h", "src/runtime/distributed/coordinator/kernels/Broadcast.h", "src/runtime/distributed/coordinator/kernels/DistributedCompute.h", "src/runtime/distributed/coordinator/kernels/DistributedCollect.h", "src/runtime/distributed/coordinator/scheduling/LoadPartitioningDistributed.h", "src/runtime/distributed/worker/WorkerImpl.cpp", "src/runtime/local/datastructures/MetaDataObject.cpp", "src/runtime/local/datastructures/Structure.cpp: clone_mdo"]}
{"id": "C202", "title": "Distributed execution: the same worker listed twice", "statement": "The results do not depend on whether a worker address is given twice in the list of workers.", "quantifier": "all lists of workers", "why_tests_cant": "all lists", "anchors": ["src/runtime/distributed/coordinator/kernels/DistributedWrapper.h: execute", "src/runtime/distributed/coordinator/kernels/Distribute.h", "src/runtime/distributed/coordinator/kernels/Broadcast.h", "src/runtime/distributed/coordinator/kernels/DistributedCompute.h", "src/runtime/distributed/coordinator/kernels/DistributedCollect.h", "src/runtime/distributed/coordinator/scheduling/LoadPartitioningDistributed.h", "src/runtime/distributed/worker/WorkerImpl.cpp", "src/runtime/local/datastructures/MetaDataObject.cpp"]}
{"id": "C203", "title": "2D convolution", "statement": "conv2d with a bias returns, for every image, output channel and window position, the sum of the products of the filter with the zero-padded image plus the bias of the output channel, and the height and width of the output; it accesses no memory outside its operands.", "quantifier": "all images, filters, biases, shapes, strides, paddings (sizes below 2^32)", "why_tests_cant": "all shapes and contents", "anchors": ["src/runtime/local/kernels/Conv2DForward.h", "src/runtime/local/kernels/Conv2D.h", "src/runtime/local/kernels/Padding.h"]}
{"id": "C204", "title": "2D convolution without a bias", "statement": "conv2d without a bias returns the convolution itself.", "quantifier": "all images, filters, shapes", "why_tests_cant": "all shapes and contents", "anchors": ["src/runtime/local/kernels/Conv2DForward.h", "src/runtime/local/kernels/Conv2D.h", "src/runtime/local/kernels/Padding.h"]}
{"id": "C205", "title": "Average pooling", "statement": "avg_pool2d returns, for every image, channel and window position, the mean of the window of the zero-padded image (exact arithmetic), if interchanging the strides does not change the number of window positions and the image is not a padded one-column image with one window position.", "quantifier": "all images, shapes, strides, paddings", "why_tests_cant": "all shapes and contents", "anchors": ["src/runtime/local/kernels/Pooling.h", "src/runtime/local/kernels/AvgPoolForward.h", "src/runtime/local/kernels/MaxPoolForward.h"]}
{"id": "C206", "title": "Maximum pooling", "statement": "max_pool2d returns, for every window with a non-negative value (padding counts as zero), the maximum of the window, if interchanging the strides does not change the number of window positions and not (one column and one window).", "quantifier": "all images, shapes, strides, paddings", "why_tests_cant": "all shapes and contents", "anchors": ["src/runtime/local/kernels/Pooling.h", "src/runtime/local/kernels/AvgPoolForward.h", "src/runtime/local/kernels/MaxPoolForward.h"]}
{"id": "C207", "title": "Maximum pooling of negative values", "statement": "max_pool2d returns the maximum of the window also for windows with negative values only and for one-column images.", "quantifier": "all images, shapes", "why_tests_cant": "all contents", "anchors": ["src/runtime/local/kernels/Pooling.h", "src/runtime/local/kernels/AvgPoolForward.h", "src/runtime/local/kernels/MaxPoolForward.h"]}
{"id": "C208", "title": "Pooling with different strides", "statement": "The result of avg_pool2d and max_pool2d has (height + 2 * padding - window height) / vertical stride + 1 rows of window positions and accordingly for the columns; no memory outside the image is read.", "quantifier": "all shapes, strides, paddings", "why_tests_cant": "all shapes", "anchors": ["src/runtime/local/kernels/Pooling.h", "src/runtime/local/kernels/AvgPoolForward.h", "src/runtime/local/kernels/MaxPoolForward.h"]}
{"id": "C209", "title": "Average pooling of padded one-column images", "statement": "avg_pool2d returns the mean of the zero-padded window also for one-column images with a single window position.", "quantifier": "all images, paddings", "why_tests_cant": "all shapes", "anchors": ["src/runtime/local/kernels/Pooling.h", "src/runtime/local/kernels/AvgPoolForward.h", "src/runtime/local/kernels/MaxPoolForward.h"]}
{"id": "C210", "title": "biasAdd", "statement": "biasAdd(X, b) with a column matrix b of C biases adds b[c] to every cell of channel c of every row of X, if the number of columns is a multiple of C.", "quantifier": "all matrices, biases", "why_tests_cant": "all shapes and contents", "anchors": ["src/runtime/local/kernels/BiasAdd.h: biasAdd"]}
{"id": "C211", "title": "biasAdd: row-matrix biases, uneven channels, views", "statement": "biasAdd also takes a row matrix of biases (as documented), rejects uneven channels, and works on views.", "quantifier": "all matrices, biases, views", "why_tests_cant": "all shapes", "anchors": ["src/runtime/local/kernels/BiasAdd.h: biasAdd"]}
{"id": "C212", "title": "Inferred shapes of convolution and pooling", "statement": "If all dimension arguments are constants and the strides are equal, the shape the compiler infers for the result of conv2d, avg_pool2d and max_pool2d is the shape of the run-time result.", "quantifier": "all dimension arguments and operands", "why_tests_cant": "all shapes", "anchors": ["src/ir/daphneir/DaphneInferShapeOpInterface.cpp: Conv2DForwardOp, AvgPoolForwardOp, MaxPoolForwardOp", "src/runtime/local/kernels/Conv2DForward.h", "src/runtime/local/kernels/Conv2D.h", "src/runtime/local/kernels/Padding.h", "src/runtime/local/kernels/Pooling.h", "src/runtime/local/kernels/AvgPoolForward.h", "src/runtime/local/kernels/MaxPoolForward.h"]}
{"id": "C213", "title": "Inferred shapes with unknown dimension arguments", "statement": "The shape the compiler infers for the result of conv2d, avg_pool2d and max_pool2d is right or unknown, whatever is known about the arguments, and inference never crashes.", "quantifier": "all knowledge about the arguments", "why_tests_cant": "all shapes", "anchors": ["src/ir/daphneir/DaphneInferShapeOpInterface.cpp: Conv2DForwardOp, AvgPoolForwardOp, MaxPoolForwardOp"]}
{"id": "C214", "title": "Gradient of average pooling", "statement": "avg_pool2d_backward returns, for every pixel, the sum over the window positions covering it of the gradient there divided by the window size (exact arithmetic), if interchanging the strides does not change the number of window positions.", "quantifier": "all gradients, shapes, strides, paddings", "why_tests_cant": "all shapes and contents", "anchors": ["src/runtime/local/kernels/AvgPoolBackward.h", "src/runtime/local/kernels/MaxPoolBackward.h"]}
{"id": "C215", "title": "Gradient of maximum pooling", "statement": "max_pool2d_backward returns, for every pixel, the sum of the gradients of all windows whose first maximum (row-major order, padding counts as zero) it is, if interchanging the strides does not change the number of window positions.", "quantifier": "all images, gradients, shapes, strides, paddings", "why_tests_cant": "all shapes and contents", "anchors": ["src/runtime/local/kernels/AvgPoolBackward.h", "src/runtime/local/kernels/MaxPoolBackward.h"]}
{"id": "C216", "title": "Gradients of pooling with different strides", "statement": "avg_pool2d_backward and max_pool2d_backward return the gradients also if the strides differ.", "quantifier": "all shapes, strides", "why_tests_cant": "all shapes", "anchors": ["src/runtime/local/kernels/AvgPoolBackward.h", "src/runtime/local/kernels/MaxPoolBackward.h"]}
{"id": "C217", "title": "Gradient of a convolution with respect to the filter", "statement": "conv2d_backward_filter returns, for every weight of every filter (square filters or filters of height 1), the sum over all images and output positions of the pixel multiplied with the weight times the output gradient; it accesses no memory outside its operands.", "quantifier": "all images, gradients, shapes, strides, paddings", "why_tests_cant": "all shapes and contents", "anchors": ["src/runtime/local/kernels/Conv2DBackwardFilter.h"]}
{"id": "C218", "title": "Gradient with respect to rectangular filters", "statement": "conv2d_backward_filter returns the gradients also for filters of different height and width.", "quantifier": "all images, gradients, shapes", "why_tests_cant": "all shapes", "anchors": ["src/runtime/local/kernels/Conv2DBackwardFilter.h"]}
{"id": "C219", "title": "Gradient of a convolution with respect to the data", "statement": "conv2d_backward_data returns, for every pixel, the sum over the output channels and window positions covering the pixel of the output gradient times the weight multiplied with the pixel, if the output has the size of a filter and the paddings are equal.", "quantifier": "all filters, gradients, shapes, strides", "why_tests_cant": "all shapes and contents", "anchors": ["src/runtime/local/kernels/Conv2DBackwardData.h"]}
{"id": "C220", "title": "Gradient with respect to the data, all output sizes", "statement": "conv2d_backward_data returns the gradients for outputs of any size and any padding.", "quantifier": "all filters, gradients, shapes", "why_tests_cant": "all shapes", "anchors": ["src/runtime/local/kernels/Conv2DBackwardData.h"]}
{"id": "C221", "title": "Softmax", "statement": "softmax of a dense or sparse matrix returns, as a dense matrix, exp(x) / (sum of the exp of the row) for every cell (cells that are not stored in a sparse matrix are zeros); all values are positive and every row sums to one. Exact arithmetic, any function exp with exp(a + b) = exp(a) exp(b) > 0.", "quantifier": "all matrices", "why_tests_cant": "all shapes and contents", "anchors": ["src/runtime/local/kernels/Softmax.h: softmax"]}
{"id": "C222", "title": "Softmax of a matrix without columns", "statement": "softmax of a dense matrix without columns returns a matrix without columns.", "quantifier": "all numbers of rows", "why_tests_cant": "boundary shapes", "anchors": ["src/runtime/local/kernels/Softmax.h: softmax"]}
{"id": "C223", "title": "Batch normalisation in training", "statement": "batch_norm2d_train returns gamma * (x - mean) / sqrt(var + eps) + beta with the mean and variance of each channel over all images and pixels, the updated moving averages of both, and the mean and inverse standard deviation (exact arithmetic, any square root function).", "quantifier": "all images, parameters", "why_tests_cant": "all shapes and contents", "anchors": ["src/runtime/local/kernels/BatchNorm2DTrainForward.h"]}
{"id": "C224", "title": "Batch normalisation in inference", "statement": "batch_norm2d_inference normalises each channel with the parameters of that channel.", "quantifier": "all images, parameters", "why_tests_cant": "all shapes", "anchors": ["src/runtime/local/kernels/BatchNorm2DTestForward.h"]}
{"id": "C225", "title": "Gradient of batch normalisation", "statement": "batch_norm2d_backward returns the gradients with respect to gamma, beta and the data: sums over all images and pixels of a channel, and for every cell the formula of the derivative of C223 (exact arithmetic).", "quantifier": "all images, gradients, parameters", "why_tests_cant": "all shapes and contents", "anchors": ["src/runtime/local/kernels/BatchNorm2DBackward.h"]}
{"id": "C226", "title": "Column labels inferred by the compiler are those of the run-time frame", "statement": "If the compiler infers the column labels of a frame computed by a DaphneDSL program of frame operations (createFrame, cbind, rbind, column and row selection, filter, join, cartesian product, grouping, ordering, labelling and others), then the frame has exactly these labels when the program is run.", "quantifier": "all programs of frame operations, all input frames, all hash table orders", "why_tests_cant": "arbitrary nesting of operations, arbitrary contents", "anchors": ["src/ir/daphneir/DaphneInferFrameLabelsOpInterface.cpp", "src/runtime/local/kernels/CreateFrame.h", "src/runtime/local/kernels/InnerJoin.h", "src/runtime/local/kernels/Group.h"]}
{"id": "C227", "title": "Labels of joins with one input of unknown labels", "statement": "C226 also if the labels of one input of a cartesian product or inner join are unknown.", "quantifier": "all frames", "why_tests_cant": "all frames and keys", "anchors": ["src/ir/daphneir/DaphneInferFrameLabelsOpInterface.cpp"]}
{"id": "C228", "title": "Labels of groupings with wildcard keys", "statement": "C226 also for groupings whose keys contain the wildcard.", "quantifier": "all frames and keys", "why_tests_cant": "all frames, keys and aggregated columns", "anchors": ["src/ir/daphneir/DaphneInferFrameLabelsOpInterface.cpp", "src/runtime/local/kernels/Group.h"]}
{"id": "C229", "title": "Label inference succeeds or leaves labels unknown", "statement": "For every program that runs, the compiler infers the column labels of each frame or leaves them unknown; it never crashes or rejects the program.", "quantifier": "all programs", "why_tests_cant": "all argument lists and unknown labels", "anchors": ["src/ir/daphneir/DaphneInferFrameLabelsOpInterface.cpp"]}
{"id": "C230", "title": "isSymmetric of dense matrices", "statement": "isSymmetric rejects a matrix that is not square; for a square dense matrix (also a view) it returns whether each cell equals the mirrored one.", "quantifier": "all dense matrices", "why_tests_cant": "all sizes and contents", "anchors": ["src/runtime/local/kernels/IsSymmetric.h"]}
{"id": "C231", "title": "isSymmetric of sparse matrices: what the answers mean", "statement": "isSymmetric rejects a sparse matrix that is not square and otherwise returns. If it returns true, each stored entry above the diagonal equals the mirrored cell; a symmetric matrix without stored zeros in which each row with a diagonal entry has another entry is found symmetric.", "quantifier": "all sparse matrices", "why_tests_cant": "all sizes, contents and views", "anchors": ["src/runtime/local/kernels/IsSymmetric.h"]}
{"id": "C232", "title": "isSymmetric of sparse matrices is exact", "statement": "isSymmetric of a sparse square matrix returns true exactly if the matrix is symmetric.", "quantifier": "all sparse matrices", "why_tests_cant": "all sizes and contents", "anchors": ["src/runtime/local/kernels/IsSymmetric.h"]}
{"id": "C233", "title": "Searching a matrix for a value", "statement": "hasSpecialValue returns true exactly if some cell of the matrix has the value (is NaN, if the value is NaN), for dense and sparse matrices, including views and stored zeros.", "quantifier": "all matrices and values", "why_tests_cant": "all sizes, contents and representations", "anchors": ["src/runtime/local/kernels/HasSpecialValue.h"]}
{"id": "C234", "title": "SQL queries without grouping", "statement": "sql(\"SELECT ... FROM ... JOIN ... WHERE ... ORDER BY ...\") with cross products, joins, nested arithmetic, comparisons, AND, OR, BETWEEN, `*`, `f.*` and AS returns exactly the labels and the rows, in the order, that the query means, if table names and aliases are unambiguous and the labels of the result are distinct.", "quantifier": "all queries, tables and arithmetic", "why_tests_cant": "all nestings of expressions, lists of tables and contents", "anchors": ["src/parser/sql/SQLVisitor.cpp", "src/ir/daphneir/DaphneInferFrameLabelsOpInterface.cpp", "src/runtime/local/kernels/InnerJoin.h", "src/runtime/local/kernels/Group.h"]}
{"id": "C235", "title": "SQL queries with GROUP BY", "statement": "A query with GROUP BY returns one row per group that satisfies HAVING, in the order of ORDER BY (or of the keys), and every item and HAVING may combine keys, aggregations of expressions (each as often as one likes, in any spelling) and literals.", "quantifier": "all queries, tables and arithmetic", "why_tests_cant": "all nestings, groups and contents", "anchors": ["src/parser/sql/SQLVisitor.cpp", "src/ir/daphneir/DaphneInferFrameLabelsOpInterface.cpp", "src/runtime/local/kernels/InnerJoin.h", "src/runtime/local/kernels/Group.h"]}
{"id": "C236", "title": "SQL aggregation of all rows", "statement": "A query without GROUP BY whose items are built from aggregations of columns returns one row with the values of the items.", "quantifier": "all queries, tables and arithmetic", "why_tests_cant": "all nestings and contents", "anchors": ["src/parser/sql/SQLVisitor.cpp", "src/ir/daphneir/DaphneInferFrameLabelsOpInterface.cpp", "src/runtime/local/kernels/InnerJoin.h", "src/runtime/local/kernels/Group.h"]}
{"id": "C237", "title": "SQL DISTINCT", "statement": "A query with DISTINCT (without GROUP BY) returns each row of the query without DISTINCT exactly once.", "quantifier": "all queries, tables", "why_tests_cant": "all nestings and contents", "anchors": ["src/parser/sql/SQLVisitor.cpp", "src/ir/daphneir/DaphneInferFrameLabelsOpInterface.cpp", "src/runtime/local/kernels/InnerJoin.h", "src/runtime/local/kernels/Group.h"]}
{"id": "C238", "title": "SQL DISTINCT with GROUP BY", "statement": "A query with DISTINCT and GROUP BY returns each row of the query without DISTINCT exactly once.", "quantifier": "all queries, tables", "why_tests_cant": "all queries", "anchors": ["src/parser/sql/SQLVisitor.cpp", "src/ir/daphneir/DaphneInferFrameLabelsOpInterface.cpp", "src/runtime/local/kernels/InnerJoin.h", "src/runtime/local/kernels/Group.h"]}
{"id": "C239", "title": "SQL DISTINCT with ORDER BY", "statement": "The rows of a query with DISTINCT and ORDER BY are in the order of ORDER BY.", "quantifier": "all queries, tables", "why_tests_cant": "all queries", "anchors": ["src/parser/sql/SQLVisitor.cpp", "src/ir/daphneir/DaphneInferFrameLabelsOpInterface.cpp", "src/runtime/local/kernels/InnerJoin.h", "src/runtime/local/kernels/Group.h"]}
{"id": "C240", "title": "SQL aliases name tables only for the rest of the query", "statement": "FROM t AS a reads the table t and calls it a, whatever other tables and aliases are called.", "quantifier": "all FROM clauses", "why_tests_cant": "all combinations of names", "anchors": ["src/parser/sql/SQLVisitor.cpp", "src/ir/daphneir/DaphneInferFrameLabelsOpInterface.cpp", "src/runtime/local/kernels/InnerJoin.h", "src/runtime/local/kernels/Group.h"]}
{"id": "C241", "title": "Every query accepted by the grammar is translated or rejected with an error", "statement": "Queries with count(1), != and literals beside aggregations get their value; a query that means nothing is rejected by an exception.", "quantifier": "all queries", "why_tests_cant": "all queries", "anchors": ["src/parser/sql/SQLVisitor.cpp", "src/ir/daphneir/DaphneInferFrameLabelsOpInterface.cpp", "src/runtime/local/kernels/InnerJoin.h", "src/runtime/local/kernels/Group.h"]}
{"id": "C242", "title": "SQL * with GROUP BY", "statement": "SELECT * with GROUP BY and aggregations stands for all columns.", "quantifier": "all queries", "why_tests_cant": "all queries", "anchors": ["src/parser/sql/SQLVisitor.cpp", "src/ir/daphneir/DaphneInferFrameLabelsOpInterface.cpp", "src/runtime/local/kernels/InnerJoin.h", "src/runtime/local/kernels/Group.h"]}
{"id": "C243", "title": "Escape sequences of string literals", "statement": "The value of a string literal in DaphneDSL and SQL is the sequence of characters that its text stands for (escape sequences for backspace, form feed, line feed, carriage return, tabulator, quotes and backslash), if no escaped backslash is followed by one of the letters or quotes that may follow a backslash.", "quantifier": "all string literals", "why_tests_cant": "strings of any length and content", "anchors": ["src/parser/daphnedsl/DaphneDSLVisitor.cpp: visitLiteral", "src/parser/sql/SQLVisitor.cpp: createStringConstant"]}
{"id": "C244", "title": "Escaped backslash before a letter", "statement": "C243 also for literals with an escaped backslash before a letter, such as \"C:\\\\new\".", "quantifier": "all string literals", "why_tests_cant": "strings of any length and content", "anchors": ["src/parser/daphnedsl/DaphneDSLVisitor.cpp: visitLiteral"]}
{"id": "C245", "title": "Keyword arguments of functions", "statement": "A call f(a, b, z=c, y=d) passes the positional arguments to the first parameters and each keyword argument to the parameter of its name; it is accepted exactly if the keyword arguments fill the parameters that follow the positional ones without gaps and repetitions, and rejected by an exception otherwise (also if a positional argument follows a keyword argument).", "quantifier": "all parameter lists and argument lists", "why_tests_cant": "any number of parameters, any order of the arguments", "anchors": ["src/parser/daphnedsl/DaphneDSLVisitor.cpp: orderCallArguments"]}
{"id": "C246", "title": "Overloaded functions", "statement": "A call of a user-defined function goes to the first definition whose parameter types accept the types of the arguments in parameter order; if there is none, the call is rejected.", "quantifier": "all sets of definitions with the same parameter names, all calls", "why_tests_cant": "any number of definitions and types", "anchors": ["src/parser/daphnedsl/DaphneDSLVisitor.cpp: findMatchingUDF, argAndUDFParamCompatible, getUdfParamNames"]}
{"id": "C247", "title": "The most specific definition is called", "statement": "If one definition has a parameter without a type and another the exact type of the argument, the second is called.", "quantifier": "all sets of definitions, all calls", "why_tests_cant": "any number of definitions and types", "anchors": ["src/parser/daphnedsl/DaphneDSLVisitor.cpp: findMatchingUDF"]}
{"id": "C248", "title": "Valid calls are accepted", "statement": "Positional calls of functions whose definitions name their parameters differently, keyword arguments in recursive calls and keyword arguments of map are accepted.", "quantifier": "all definitions and calls", "why_tests_cant": "any number of definitions", "anchors": ["src/parser/daphnedsl/DaphneDSLVisitor.cpp: getUdfParamNames, handleMapOpCall"]}
{"id": "C249", "title": "Specialisation of functions keeps the meaning of programs", "statement": "Copying functions for the types, shapes and constants of the arguments of each call, reusing copies and removing functions that are not needed does not change the results and effects of a program, and each call goes to a copy with the types of its arguments, if the functions have a parameter without complete type (or, generally, if no call that is left goes to a function that was replaced).", "quantifier": "all programs with (mutually) recursive functions and branches, all inputs, all orders of the functions, with and without constant propagation", "why_tests_cant": "any call graph, any number of nested calls", "anchors": ["src/compiler/lowering/SpecializeGenericFunctionsPass.cpp"]}
{"id": "C250", "title": "Specialisation of functions with typed parameters", "statement": "C249 also for functions whose parameters have complete types.", "quantifier": "all programs and inputs", "why_tests_cant": "any call graph", "anchors": ["src/compiler/lowering/SpecializeGenericFunctionsPass.cpp"]}
{"id": "C251", "title": "Specialisation of functions ends", "statement": "Compilation of a program with recursive functions ends.", "quantifier": "all programs", "why_tests_cant": "any call graph", "anchors": ["src/compiler/lowering/SpecializeGenericFunctionsPass.cpp"]}
{"id": "C252", "title": "Functions with several returns", "statement": "A function where each path ends with one return is compiled to one with a single return at its end that returns the same values and has the same effects, if the results of the if-statements with returns are not used and nothing but a return follows an if-statement where a return is nested in a further if-statement; the compiler does not loop forever, and values are defined before they are used. Without the condition on results, what the compiler accepts has the same meaning.", "quantifier": "all functions with nested if-statements, all inputs and all operations with effects", "why_tests_cant": "any number of statements, any nesting", "anchors": ["src/parser/daphnedsl/DaphneDSLVisitor.cpp: rectifyEarlyReturns, rectifyEarlyReturn, rectifyIfCaseWithoutReturnOp, removeTrailingOperationsAfterReturnOp, visitFunctionStatement"]}
{"id": "C253", "title": "Returns in if-statements that assign variables", "statement": "C252 also if a variable that is assigned in an if-statement with a return is used after it.", "quantifier": "all functions", "why_tests_cant": "any nesting", "anchors": ["src/parser/daphnedsl/DaphneDSLVisitor.cpp: rectifyEarlyReturn, rectifyIfCaseWithoutReturnOp"]}
{"id": "C254", "title": "Returns in nested if-statements with statements after the outer one", "statement": "C252 also if statements follow an if-statement where a return is nested in a further if-statement (the example in the comment of the code).", "quantifier": "all functions", "why_tests_cant": "any nesting", "anchors": ["src/parser/daphnedsl/DaphneDSLVisitor.cpp: rectifyIfCaseWithoutReturnOp"]}
{"id": "C255", "title": "Functions where each path ends with a return are accepted", "statement": "A function where each path ends with one return is accepted.", "quantifier": "all functions", "why_tests_cant": "any nesting", "anchors": ["src/parser/daphnedsl/DaphneDSLVisitor.cpp: rectifyEarlyReturn"]}
{"id": "C256", "title": "Fusion of pipelines that read the same matrix", "statement": "Fusing vectorized pipelines that read the same matrix does not change what a program computes: the compiler does not fail, values are defined before they are used, each print, write or other operation is executed once with the same operand values, if no pipeline depends on another one, the operation after each pipeline uses its result and no other pipeline, conditional code uses no results of pipelines, sharing of matrices is transitive and the matrices split by one pipeline have the same number of rows.", "quantifier": "all blocks with any number of pipelines and other operations, all inputs, all partitionings into tasks, all operations and combinations of partial results", "why_tests_cant": "any number of pipelines, of rows and of tasks", "anchors": ["src/compiler/lowering/HorizontalFusionPass.cpp", "src/compiler/utils/VectorizationUtils.cpp: movePipelineInterleavedOperations, valueDependsOnResultOf, operationDependsOnResultOf"]}
{"id": "C257", "title": "Matrices are read by one pipeline only", "statement": "Under the conditions of C256, no two pipelines of a block split the same matrix after the fusion.", "quantifier": "all blocks with any number of pipelines", "why_tests_cant": "any number of pipelines and inputs", "anchors": ["src/compiler/lowering/HorizontalFusionPass.cpp"]}
{"id": "C258", "title": "Fusion of pipelines one of which depends on another one", "statement": "C256 also if a pipeline depends on another one.", "quantifier": "all programs", "why_tests_cant": "any number of pipelines", "anchors": ["src/compiler/lowering/HorizontalFusionPass.cpp"]}
{"id": "C259", "title": "Fusion if sharing is not transitive", "statement": "C256 also if a pipeline shares different matrices with different pipelines.", "quantifier": "all programs", "why_tests_cant": "any number of pipelines", "anchors": ["src/compiler/lowering/HorizontalFusionPass.cpp"]}
{"id": "C260", "title": "Fusion with other operations after a pipeline", "statement": "C256 also if the operation after a pipeline does not use its result.", "quantifier": "all programs", "why_tests_cant": "any number of pipelines", "anchors": ["src/compiler/lowering/HorizontalFusionPass.cpp", "src/compiler/utils/VectorizationUtils.cpp: movePipelineInterleavedOperations"]}
{"id": "C261", "title": "Fusion with conditional code between the pipelines", "statement": "C256 also if an if-statement or a loop between two pipelines uses the result of the first one.", "quantifier": "all programs", "why_tests_cant": "any number of pipelines", "anchors": ["src/compiler/lowering/HorizontalFusionPass.cpp", "src/compiler/utils/VectorizationUtils.cpp: operationDependsOnResultOf"]}
{"id": "C262", "title": "Fusion keeps the order of effects", "statement": "The fusion of pipelines keeps the order of outputs.", "quantifier": "all programs", "why_tests_cant": "any number of pipelines", "anchors": ["src/compiler/lowering/HorizontalFusionPass.cpp", "src/compiler/utils/VectorizationUtils.cpp: movePipelineInterleavedOperations"]}
{"id": "C263", "title": "Dense matrices from Matrix Market files in coordinate format", "statement": "Reading a well-formed Matrix Market file in coordinate format (real, integer or pattern; general, symmetric or skew-symmetric; any case of the words in the first line; any comments and blank lines before the sizes) into a dense matrix gives a matrix of the announced size which has each given value at its position (and, for symmetric and skew-symmetric files, the same resp. the negated value at the mirrored position) and zeros elsewhere.", "quantifier": "all sizes below 2^31, all lists of entries in any order, all comments, all value types", "why_tests_cant": "any number of entries and lines", "anchors": ["src/runtime/local/io/MMFile.h", "src/runtime/local/io/ReadMM.h: ReadMM<DenseMatrix<VT>>"]}
{"id": "C264", "title": "Dense matrices from Matrix Market files in array format", "statement": "C263 for files in array format: values column by column, for symmetric files from the diagonal on, for skew-symmetric ones below the diagonal (which is zero).", "quantifier": "all sizes, all values, all value types", "why_tests_cant": "any number of values", "anchors": ["src/runtime/local/io/MMFile.h", "src/runtime/local/io/ReadMM.h: ReadMM<DenseMatrix<VT>>"]}
{"id": "C265", "title": "Sparse matrices from Matrix Market files", "statement": "Reading a well-formed Matrix Market file of either format into a CSR matrix gives a matrix of the announced size with well-formed row offsets, rows sorted by column without duplicates, and exactly the entries of the file (including mirrored ones).", "quantifier": "all sizes, all lists of entries in any order, all value types", "why_tests_cant": "any number of entries", "anchors": ["src/runtime/local/io/MMFile.h", "src/runtime/local/io/ReadMM.h: ReadMM<CSRMatrix<VT>>"]}
{"id": "C266", "title": "Frames from Matrix Market files", "statement": "Reading a well-formed Matrix Market file of either format into a frame gives a frame of the announced size with the given values, converted to 64-bit integers if the file says integer, and zeros elsewhere.", "quantifier": "all sizes, all lists of entries", "why_tests_cant": "any number of entries", "anchors": ["src/runtime/local/io/MMFile.h", "src/runtime/local/io/ReadMM.h: ReadMM<Frame>"]}
{"id": "C267", "title": "Blank lines in Matrix Market files", "statement": "A blank line at the end of a Matrix Market file makes no difference.", "quantifier": "all files", "why_tests_cant": "any number of lines", "anchors": ["src/runtime/local/io/MMFile.h: MMIterator::readEntry"]}
{"id": "C268", "title": "White space in Matrix Market files", "statement": "White space before and between the numbers of an entry makes no difference.", "quantifier": "all files", "why_tests_cant": "any number of lines", "anchors": ["src/runtime/local/io/MMFile.h: MMIterator::readEntry"]}
{"id": "C269", "title": "Files that are not supported Matrix Market files are rejected", "statement": "A missing file, a file without a banner and one with complex or Hermitian entries is rejected with an error.", "quantifier": "all files", "why_tests_cant": "any content", "anchors": ["src/runtime/local/io/MMFile.h: mm_read_banner, MMFile::MMFile"]}
{"id": "C270", "title": "Matrix Market files without a final newline", "statement": "The last line of a Matrix Market file need not end with a newline.", "quantifier": "all files", "why_tests_cant": "any number of lines", "anchors": ["src/runtime/local/io/MMFile.h: MMIterator::readEntry"]}
{"id": "C271", "title": "64-bit integers in Matrix Market files", "statement": "C263 and C264 for all values of 64-bit integers.", "quantifier": "all 64-bit integers", "why_tests_cant": "the range of values", "anchors": ["src/runtime/local/io/MMFile.h: MMIterator::readEntry", "src/runtime/local/io/utils.h: convertCstr"]}
{"id": "C272", "title": "Matrix Market files with wrong indices or counts are rejected", "statement": "A Matrix Market file with indices outside of the announced size or fewer entries than announced is rejected with an error.", "quantifier": "all files", "why_tests_cant": "any number of entries", "anchors": ["src/runtime/local/io/MMFile.h", "src/runtime/local/io/ReadMM.h"]}
{"id": "C273", "title": "Meta data files round-trip", "statement": "Meta data of a matrix (dimensions, value type, number of non-zeros) or a frame (dimensions, value types and labels of the columns) that are written to a meta data file are read back unchanged; of an HDFS file name the last component comes back, with a slash in front.", "quantifier": "all dimensions, schemas of any length, all labels, all numbers of non-zeros", "why_tests_cant": "any number of columns, arbitrary labels", "anchors": ["src/parser/metadata/MetaDataParser.cpp: writeMetaDataToString, readMetaDataFromString"]}
{"id": "C274", "title": "Accepted meta data files are complete", "statement": "If a meta data file is accepted, it contains numbers for numRows and numCols, which are the dimensions, and either a value type, or a schema each element of which has a label and either a known value type or (else) the known value type given for the whole file; the value types and labels of the result are exactly these, in the order of the schema.", "quantifier": "all JSON documents", "why_tests_cant": "arbitrary documents", "anchors": ["src/parser/metadata/MetaDataParser.cpp: readMetaDataFromString"]}
{"id": "C275", "title": "read returns what write has stored in CSV files", "statement": "After write(X, f) with a file name with extension .csv succeeds, read(f) returns a matrix or frame with the same dimensions, values, value types and labels, whatever files existed before.", "quantifier": "all file systems, all file names with extension .csv, all non-empty integer matrices (64-bit values in the range of int) and frames with integer and string columns", "why_tests_cant": "any size, any content", "anchors": ["src/runtime/local/kernels/Write.h", "src/runtime/local/kernels/Read.h", "src/parser/metadata/MetaDataParser.cpp"]}
{"id": "C276", "title": "write touches only the file and its meta data", "statement": "write changes at most the named file and the file with .meta appended, also if it fails; with an unsupported extension it changes nothing and throws; after success the meta data file describes the matrix.", "quantifier": "all file systems, names, matrices and frames", "why_tests_cant": "any content", "anchors": ["src/runtime/local/kernels/Write.h"]}
{"id": "C277", "title": "Meta data with fixed-size strings", "statement": "C273 for columns of fixed-size strings.", "quantifier": "all frames with such columns", "why_tests_cant": "any number of columns", "anchors": ["src/parser/metadata/MetaDataParser.h: NLOHMANN_JSON_SERIALIZE_ENUM"]}
{"id": "C278", "title": "Frames with empty labels", "statement": "As documented (doc/FileMetaDataFormat.md, Data Frame Meta Data with Empty Labels), a frame can be read if all labels in the meta data are empty.", "quantifier": "all frames", "why_tests_cant": "any number of columns", "anchors": ["src/runtime/local/kernels/Read.h: Read<Frame>", "doc/FileMetaDataFormat.md"]}
{"id": "C279", "title": "Meta data with a wrong number of columns are rejected", "statement": "Meta data whose schema has fewer elements than numCols are rejected with an error.", "quantifier": "all meta data", "why_tests_cant": "any number of columns", "anchors": ["src/runtime/local/kernels/Read.h: Read<Frame>", "src/parser/metadata/MetaDataParser.cpp"]}
{"id": "C280", "title": "Malformed meta data are rejected", "statement": "Meta data with an unknown value type of a matrix or dimensions that are not natural numbers are rejected with an error when they are read.", "quantifier": "all JSON documents", "why_tests_cant": "arbitrary documents", "anchors": ["src/parser/metadata/MetaDataParser.cpp: readMetaDataFromString"]}
{"id": "C281", "title": "The compiler knows shape, types and labels of data to be read", "statement": "As long as the meta data file is not changed between compilation and execution, the shape inferred for readMatrix/readFrame is the one of the object read, and so are the value types and labels if the schema has numCols elements.", "quantifier": "all file systems and names", "why_tests_cant": "any content", "anchors": ["src/ir/daphneir/DaphneInferShapeOpInterface.cpp: ReadOp::inferShape", "src/ir/daphneir/DaphneInferTypesOpInterface.cpp: ReadOp::inferTypes", "src/ir/daphneir/DaphneInferFrameLabelsOpInterface.cpp: ReadOp::inferFrameLabels"]}
{"id": "C282", "title": "Reading a file that the same script has written", "statement": "C281 for scripts that write a file and read it afterwards.", "quantifier": "all scripts, all file systems", "why_tests_cant": "any content", "anchors": ["src/ir/daphneir/DaphneInferShapeOpInterface.cpp: ReadOp::inferShape", "src/runtime/local/kernels/Write.h"]}
{"id": "C283", "title": "Binary files of frames", "statement": "A frame of numbers whose labels have at most 32 bytes that is written to a DAPHNE binary file is read back with the same dimensions, value types and values; frames with columns of strings are rejected with an error.", "quantifier": "all dimensions, schemas and values", "why_tests_cant": "any number of rows and columns", "anchors": ["src/runtime/local/io/WriteDaphne.h: WriteDaphne<Frame>", "src/runtime/local/io/ReadDaphne.h: ReadDaphne<Frame>"]}
{"id": "C284", "title": "Labels of frames in binary files", "statement": "The labels of a frame survive being written to and read from a DAPHNE binary file.", "quantifier": "all frames", "why_tests_cant": "any labels", "anchors": ["src/runtime/local/io/WriteDaphne.h: WriteDaphne<Frame>", "src/runtime/local/io/ReadDaphne.h: ReadDaphne<Frame>"]}
{"id": "C285", "title": "Long labels in binary files", "statement": "Frames with labels of any length can be written to DAPHNE binary files.", "quantifier": "all frames", "why_tests_cant": "any labels", "anchors": ["src/runtime/local/io/WriteDaphne.h: WriteDaphne<Frame>"]}
{"id": "C286", "title": "Files that are not binary files of frames are rejected", "statement": "Reading a frame from a DAPHNE binary file of a matrix or a truncated, empty or missing file is an error.", "quantifier": "all files", "why_tests_cant": "any content", "anchors": ["src/runtime/local/io/ReadDaphne.h: ReadDaphne<Frame>"]}
{"id": "C287", "title": "Few distinct values are counted exactly", "statement": "If a matrix has fewer distinct (hashed) values than the parameter K, the approximate number of distinct values is their exact number, for dense matrices, views and sparse matrices, where the cells without entry count as the value zero.", "quantifier": "all matrices, hash functions and K", "why_tests_cant": "any number, order and repetition of values", "anchors": ["src/runtime/local/kernels/NumDistinctApprox.h: NumDistinctApprox", "src/util/UniqueBoundedSet.h: UniqueBoundedSet"]}
{"id": "C288", "title": "The estimate of the number of distinct values", "statement": "With at least K distinct hash values, the approximate number of distinct values is K - 1 or an estimate from a hash value with at least K - 1 smaller ones, and without repeated values it is the estimate from the K-th smallest hash value.", "quantifier": "all matrices, hash functions and K > 0", "why_tests_cant": "any number and order of values", "anchors": ["src/runtime/local/kernels/NumDistinctApprox.h: NumDistinctApprox", "src/util/UniqueBoundedSet.h: push, pop, top"]}
{"id": "C289", "title": "The approximate number of distinct values does not depend on the order", "statement": "Two matrices with the same values in a different order have the same approximate number of distinct values.", "quantifier": "all matrices and K", "why_tests_cant": "any order", "anchors": ["src/util/UniqueBoundedSet.h: push"]}
{"id": "C290", "title": "Every parameter of the approximate number of distinct values is safe", "statement": "The approximate number of distinct values is defined (or an error) for every K.", "quantifier": "all matrices and K", "why_tests_cant": "any K", "anchors": ["src/runtime/local/kernels/NumDistinctApprox.h: NumDistinctApprox", "src/util/UniqueBoundedSet.h: top"]}
{"id": "C291", "title": "Element access of tensors", "statement": "Reading and writing a cell of a tensor by its indexes checks the number and the range of the indexes; a written value is read back from its cell and no other cell changes, whatever the rank and extents.", "quantifier": "all tensors, indexes and values", "why_tests_cant": "unbounded rank and extents", "anchors": ["src/runtime/local/datastructures/ContiguousTensor.h: tryGet, get, trySet, set"]}
{"id": "C292", "title": "New tensors are initialised", "statement": "A new tensor has the given extents and the wanted initial values (zero, maximum, minimum, or the position); an extent zero is refused.", "quantifier": "all shapes and kinds of initialisation", "why_tests_cant": "unbounded rank and extents", "anchors": ["src/runtime/local/datastructures/ContiguousTensor.h: ContiguousTensor(shape, init_code)", "src/runtime/local/datastructures/Tensor.h: Tensor"]}
{"id": "C293", "title": "Dicing tensors", "statement": "Dicing a tensor returns the cells within the given index ranges (upper bounds exclusive), and nothing if a range is empty, reversed or beyond the extent, or if their number is not the rank.", "quantifier": "all tensors and ranges", "why_tests_cant": "unbounded rank and extents", "anchors": ["src/runtime/local/datastructures/ContiguousTensor.h: tryDice"]}
{"id": "C294", "title": "Tensors made from matrices", "statement": "The tensor made from a dense matrix or a view of one has the cells of the matrix.", "quantifier": "all dense matrices and views", "why_tests_cant": "any size", "anchors": ["src/runtime/local/datastructures/ContiguousTensor.h: ContiguousTensor(const DenseMatrix *)"]}
{"id": "C295", "title": "Matrices made from tensors", "statement": "A tensor of rank two that owns contiguous memory converts to the dense matrix with the same cells; tensors of other ranks are refused.", "quantifier": "all tensors", "why_tests_cant": "any extents", "anchors": ["src/runtime/local/datastructures/ContiguousTensor.h: tryToGetDenseMatrix"]}
{"id": "C296", "title": "Comparing tensors", "statement": "Two tensors that own contiguous memory are equal exactly if they have the same extents and the same cells.", "quantifier": "all pairs of tensors", "why_tests_cant": "any extents and values", "anchors": ["src/runtime/local/datastructures/ContiguousTensor.h: operator=="]}
{"id": "C297", "title": "Removing a last dimension of extent one", "statement": "reduceRank does not change a tensor without extent one; if only the last extent is one it is removed, and the cells stay the same.", "quantifier": "all tensors", "why_tests_cant": "unbounded rank", "anchors": ["src/runtime/local/datastructures/ContiguousTensor.h: reduceRank"]}
{"id": "C298", "title": "Removing any dimension of extent one", "statement": "reduceRank removes all extents one from a tensor.", "quantifier": "all tensors", "why_tests_cant": "any position of the extents one", "anchors": ["src/runtime/local/datastructures/ContiguousTensor.h: reduceRank"]}
{"id": "C299", "title": "Tensors made from views convert back and compare", "statement": "The tensor made from a view of a matrix converts back to a matrix with the same cells and equals the tensors with the same cells.", "quantifier": "all views", "why_tests_cant": "any view", "anchors": ["src/runtime/local/datastructures/ContiguousTensor.h: tryToGetDenseMatrix, operator=="]}
{"id": "C300", "title": "Writing the cell of a tensor of rank zero", "statement": "The cell of a tensor of rank zero can be written.", "quantifier": "all tensors of rank zero", "why_tests_cant": "any value", "anchors": ["src/runtime/local/datastructures/ContiguousTensor.h: trySet, set"]}
{"id": "C301", "title": "Fixed-size strings behave like strings", "statement": "A text of at most 15 bytes stored as a fixed-size string keeps its length and content, and equality, order, concatenation, hash and case conversion agree with those of the texts; longer texts are refused.", "quantifier": "all pairs of texts", "why_tests_cant": "any content and length", "anchors": ["src/runtime/local/datastructures/FixedSizeStringValueType.h: FixedStr16"]}
{"id": "C302", "title": "Printing fixed-size strings", "statement": "Printing a fixed-size string writes its text.", "quantifier": "all texts", "why_tests_cant": "any text", "anchors": ["src/runtime/local/datastructures/FixedSizeStringValueType.h: operator<<"]}
{"id": "C303", "title": "Fixed-size strings with NUL bytes", "statement": "Fixed-size strings made of strings with NUL bytes are totally ordered, consistently with equality, and keep their content.", "quantifier": "all strings", "why_tests_cant": "any content", "anchors": ["src/runtime/local/datastructures/FixedSizeStringValueType.h: operator<, operator==, to_string"]}
{"id": "C304", "title": "Inferred sparsities are valid", "statement": "For arguments with valid types, the sparsity the compiler infers for a result is unknown or between zero and one, so that the result type is valid: element-wise operations, matrix multiplication, triangles, transpose, reshape, diagonal matrices of vectors of known length, random matrices with a valid sparsity, and files with a valid number of non-zeros.", "quantifier": "all operations with sparsity inference, all sparsities and extents", "why_tests_cant": "continuum of values", "anchors": ["src/ir/daphneir/DaphneInferSparsityOpInterface.cpp: tryInferSparsity", "src/ir/daphneir/DaphneOps.td"]}
{"id": "C305", "title": "Inferred sparsities are exact where they can be", "statement": "For matrix literals, transpose, reshape and diagonal matrices, the sparsity in the result type is the fraction of non-zeros of the result, if that of the argument type is the one of the argument; an unknown one stays unknown (transpose, reshape) or becomes an upper bound (diagonal matrix).", "quantifier": "all matrices of any size and value type", "why_tests_cant": "any content and size", "anchors": ["src/ir/daphneir/DaphneInferSparsityOpInterface.cpp: MatrixConstantOp::inferSparsity, DiagMatrixOp::inferSparsity, tryInferSparsity"]}
{"id": "C306", "title": "Inferred sparsities are always valid", "statement": "The inferred sparsity is valid without conditions on constants in the script, on meta data and on unknown or zero extents.", "quantifier": "all operations with sparsity inference", "why_tests_cant": "continuum of values", "anchors": ["src/ir/daphneir/DaphneInferSparsityOpInterface.cpp: DiagMatrixOp::inferSparsity, ReadOp::inferSparsity, tryInferSparsity"]}
{"id": "C307", "title": "Inferred symmetry is right", "statement": "If the compiler infers that a constant matrix or a transposed matrix is symmetric (not symmetric), then it is (is not).", "quantifier": "all shapes, known or not, and all matrices", "why_tests_cant": "any shape", "anchors": ["src/ir/daphneir/DaphneInferSymmetricOpInterface.cpp"]}
{"id": "C308", "title": "Types survive the textual form of the IR", "statement": "Reading the text of a matrix, column, handle or string type gives the type again, and leaves what follows it (the IR is sent to distributed workers as text).", "quantifier": "all value types, extents, sparsities, representations and symmetries, except for unknown value types and those extents of zero that make the text ambiguous", "why_tests_cant": "unbounded extents and all combinations", "anchors": ["src/ir/daphneir/DaphneDialect.cpp: printType, parseType"]}
{"id": "C309", "title": "Types with zero rows or columns survive the textual form of the IR", "statement": "The same holds for types of matrices and columns without rows or columns.", "quantifier": "all such types", "why_tests_cant": "all combinations", "anchors": ["src/ir/daphneir/DaphneDialect.cpp: printType, parseType"]}
{"id": "C310", "title": "All types survive the textual form of the IR", "statement": "The same holds for frames, lists, and the other types of the dialect.", "quantifier": "all such types", "why_tests_cant": "all combinations", "anchors": ["src/ir/daphneir/DaphneDialect.cpp: printType, parseType"]}
{"id": "C311", "title": "Requested types", "statement": "After any history of requests for matrix types in a context, requesting a type gives one with the requested value type, extents, representation and symmetry, and with a sparsity that is unknown if and only if the requested one is and differs from it by less than one millionth.", "quantifier": "all histories of requests", "why_tests_cant": "unbounded histories", "anchors": ["src/ir/daphneir/DaphneDialect.cpp: MatrixTypeStorage::operator==, MatrixTypeStorage::hashKey", "src/ir/daphneir/DaphneTypeStorage.h"]}
{"id": "C312", "title": "Types are values", "statement": "Requesting a matrix type gives the requested type, whatever was requested before; equality of types is an equivalence and equal types have equal hash values.", "quantifier": "all histories of requests", "why_tests_cant": "unbounded histories", "anchors": ["src/ir/daphneir/DaphneDialect.cpp: MatrixTypeStorage::operator==, MatrixTypeStorage::hashKey"]}
{"id": "C313", "title": "The chosen kernel", "statement": "Looking up a kernel for an operation, parameter types, result types and backend finds the kernel with the highest priority among those registered for exactly these, the first registered one of several; none is found exactly if there is none.", "quantifier": "all histories of kernel registrations (built-in catalog and extensions), operations, types and backends", "why_tests_cant": "unbounded catalogs and histories", "anchors": ["src/compiler/catalog/KernelCatalog.h: registerKernel, findKernel"]}
{"id": "C314", "title": "What kernel look-up depends on", "statement": "Two types are looked up as the same exactly if their run-time objects have the same C++ class: value type, representation and rank matter, shape, sparsity, symmetry, labels and frame schema do not.", "quantifier": "all types, lists nested to any depth", "why_tests_cant": "unbounded nesting", "anchors": ["src/compiler/catalog/KernelCatalog.h: normalizeTypeForKernelLookup"]}
{"id": "C315", "title": "Operations become calls of applicable kernels", "statement": "An operation without a kernel hint becomes a call of the applicable kernel with the highest priority for the backend it is marked for. The operands are passed in order (the occurrences of a variadic operand as an array with its size), followed by the call id and the context. The kernel's library is the only one newly marked as used. If a kernel is applicable, there is no error.", "quantifier": "all catalogs, operations, numbers of occurrences of variadic operands", "why_tests_cant": "unbounded operand lists and catalogs", "anchors": ["src/compiler/lowering/RewriteToCallKernelOpPass.cpp: KernelReplacement::matchAndRewrite", "src/compiler/catalog/KernelCatalog.h"]}
{"id": "C316", "title": "Missing variadic operands are refused", "statement": "An operation with a variadic operand that has no occurrence is refused by the lowering, except for a grouping without aggregates.", "quantifier": "all operations, catalogs and states", "why_tests_cant": "unbounded operand lists", "anchors": ["src/compiler/lowering/RewriteToCallKernelOpPass.cpp: KernelReplacement::matchAndRewrite"]}
{"id": "C317", "title": "Kernel hints are checked", "statement": "An operation with a kernel hint is only lowered to a kernel that is applicable to its operand and result types.", "quantifier": "all operations with hints and catalogs", "why_tests_cant": "unbounded catalogs", "anchors": ["src/compiler/lowering/RewriteToCallKernelOpPass.cpp: KernelReplacement::matchAndRewrite"]}
{"id": "C318", "title": "All occurrences of a variadic operand fit the kernel", "statement": "Every object in the array passed for a variadic operand is of the class the kernel expects.", "quantifier": "all operations with variadic operands", "why_tests_cant": "unbounded operand lists", "anchors": ["src/compiler/lowering/RewriteToCallKernelOpPass.cpp: KernelReplacement::matchAndRewrite", "src/ir/daphneir/DaphneInferTypesOpInterface.cpp: CreateListOp::inferTypes"]}
{"id": "C319", "title": "Type names in kernel catalogs are unambiguous", "statement": "Two types have the same name in kernel catalog files exactly if their run-time objects have the same C++ class, and every type of known value type has a name.", "quantifier": "all types, lists nested to any depth", "why_tests_cant": "unbounded nesting", "anchors": ["src/compiler/utils/CompilerUtils.h: mlirTypeToCppTypeName"]}
{"id": "C320", "title": "Loading kernel catalog files", "statement": "Loading a catalog file registers its kernels in order, after the existing ones, with the types their type names stand for and the priority of the file (entries of two operations are skipped); the first entry with an unknown type name ends it with an error and the kernels before stay registered.", "quantifier": "all catalog files, priorities and catalogs loaded before", "why_tests_cant": "unbounded files", "anchors": ["src/parser/catalog/KernelCatalogParser.cpp: KernelCatalogParser, mapTypes, parseKernelCatalog"]}
{"id": "C321", "title": "Call ids identify kernel calls", "statement": "Kernel calls get distinct ids, none of them zero; the id of a call leads to its kernel's name and source location (for an operation without one, that of the last one before).", "quantifier": "all sequences of kernel calls whose first has a location", "why_tests_cant": "unbounded sequences", "anchors": ["src/util/KernelDispatchMapping.cpp"]}
{"id": "C322", "title": "Call ids never lead to another operation", "statement": "The location reported for a kernel call is that of its operation, and asking for an operation without location is safe.", "quantifier": "all sequences of kernel calls", "why_tests_cant": "unbounded sequences", "anchors": ["src/util/KernelDispatchMapping.cpp"]}
{"id": "C323", "title": "Casts for kernels of uniform value type", "statement": "For operations on scalars, matrices and columns, casts are inserted exactly for the operands the operation's trait concerns that do not have the target value type (the most general one of the operands, or that of the result); casts keep all other properties of the type, other operands stay, and a second run changes nothing.", "quantifier": "all traits, operand lists and types", "why_tests_cant": "unbounded operand lists", "anchors": ["src/compiler/inference/AdaptTypesToKernelsPass.cpp", "src/compiler/inference/TypeInferenceUtils.cpp: generality, mostGeneralVt"]}
{"id": "C324", "title": "Casts of list operands keep lists", "statement": "A cast inserted for a list operand only changes the value type.", "quantifier": "all lists of matrices", "why_tests_cant": "all types", "anchors": ["src/compiler/inference/AdaptTypesToKernelsPass.cpp", "src/compiler/utils/CompilerUtils.h: setValueType"]}
{"id": "C325", "title": "Recorded sparsities are exact", "statement": "With property recording, the sparsity recorded for an intermediate result with at least one cell is exactly the fraction of its cells that are not zero, for dense matrices including views, and for CSR matrices that start at the beginning of their arrays; explicitly stored zeros are not counted.", "quantifier": "all matrices, representations and views", "why_tests_cant": "all matrices", "anchors": ["src/runtime/local/kernels/RecordProperties.h"]}
{"id": "C326", "title": "Recorded sparsities of row views and empty matrices", "statement": "The recorded sparsity is that of the matrix also for row views of CSR matrices and for matrices without cells.", "quantifier": "all CSR row views, all empty matrices", "why_tests_cant": "all views", "anchors": ["src/runtime/local/kernels/RecordProperties.h", "src/runtime/local/datastructures/CSRMatrix.h: getValues"]}
{"id": "C327", "title": "Recorded properties find their values again", "statement": "The matrix-typed results of main outside of loops and branches are numbered 1, 2, 3, ... in program order; when the recorded properties are inserted into the same program, each result is matched with the entry recorded for it, whatever the order of the file, and exactly one cast with that sparsity is put behind each loop or branch per matrix-typed result.", "quantifier": "all programs, recordings and file orders", "why_tests_cant": "unbounded programs", "anchors": ["src/compiler/explanation/RecordPropertiesPass.cpp", "src/compiler/explanation/InsertPropertiesPass.cpp"]}
{"id": "C328", "title": "Inserted properties are seen by later operations", "statement": "After inserting recorded data properties, the operations that use a result see its recorded sparsity.", "quantifier": "all programs and recordings", "why_tests_cant": "unbounded programs", "anchors": ["src/compiler/explanation/InsertPropertiesPass.cpp"]}
{"id": "C329", "title": "An entry without a number affects only its own result", "statement": "If the recorded sparsity of one result is missing or null, the properties of all other results are still inserted.", "quantifier": "all programs and recordings", "why_tests_cant": "unbounded programs", "anchors": ["src/compiler/explanation/InsertPropertiesPass.cpp"]}
{"id": "C330", "title": "Configuration files are applied exactly", "statement": "A configuration file with an undocumented key or a value of the wrong type is rejected, naming such a key; any other is accepted, the settings named in it have exactly the values given there, and all other settings keep their values.", "quantifier": "all configuration files and initial settings", "why_tests_cant": "53 keys, arbitrary files", "anchors": ["src/parser/config/ConfigParser.cpp: readUserConfig, checkAnyUnexpectedKeys", "src/parser/config/JsonParams.h", "src/api/cli/DaphneUserConfig.h"]}
{"id": "C331", "title": "Options on the command line win", "statement": "Options given on the command line override the configuration file, whatever it says (options for the number of threads, the library directory, HDFS and tile sizes: with any value but their default).", "quantifier": "all files and command lines", "why_tests_cant": "all combinations of settings", "anchors": ["src/api/internal/daphne_internal.cpp: startDAPHNE", "src/parser/config/ConfigParser.cpp"]}
{"id": "C332", "title": "Settings of the configuration file take effect", "statement": "Settings of the configuration file for which there is no option, and those for the number of threads, HDFS, fixed tile sizes, CUDA, explanations and the library directory, take effect if the option for them is not given.", "quantifier": "all files and command lines", "why_tests_cant": "all combinations of settings", "anchors": ["src/api/internal/daphne_internal.cpp: startDAPHNE", "src/parser/config/ConfigParser.cpp"]}
{"id": "C333", "title": "All settings of the configuration file take effect", "statement": "Every setting of the configuration file takes effect if the option for it is not given.", "quantifier": "all files and command lines", "why_tests_cant": "all combinations of settings", "anchors": ["src/api/internal/daphne_internal.cpp: startDAPHNE", "src/parser/config/ConfigParser.cpp"]}
{"id": "C334", "title": "Options with their default value win", "statement": "An option that is given explicitly with its default value overrides the configuration file.", "quantifier": "all files and command lines", "why_tests_cant": "all combinations of settings", "anchors": ["src/api/internal/daphne_internal.cpp: startDAPHNE", "src/parser/config/ConfigParser.cpp"]}
{"id": "C335", "title": "A missing configuration file is reported", "statement": "A configuration file that is named on the command line and cannot be opened is an error.", "quantifier": "all file names and command lines", "why_tests_cant": "all command lines", "anchors": ["src/api/internal/daphne_internal.cpp: startDAPHNE", "src/parser/config/ConfigParser.cpp"]}
{"id": "C336", "title": "Script arguments", "statement": "Script arguments are accepted exactly if each is of the form name=value and no name occurs twice among those behind the script and those of --args; the script gets exactly these names and values, a value being everything behind the first equals sign.", "quantifier": "all lists of texts", "why_tests_cant": "unbounded texts", "anchors": ["src/api/internal/daphne_internal.cpp: parseScriptArgs, startDAPHNE"]}
{"id": "C337", "title": "Priorities of kernel extensions", "statement": "A kernel extension with a colon is accepted exactly if the last colon is followed by an integer of 64 bits, which is its priority; everything in front of it is the catalog file; without colon the priority is 0.", "quantifier": "all texts", "why_tests_cant": "unbounded texts", "anchors": ["src/api/internal/daphne_internal.cpp: parseScriptArgs, startDAPHNE"]}
{"id": "C338", "title": "Catalog files whose path contains a colon", "statement": "A catalog file of a kernel extension can be given without a priority, whatever its path.", "quantifier": "all paths", "why_tests_cant": "unbounded texts", "anchors": ["src/api/internal/daphne_internal.cpp: parseScriptArgs, startDAPHNE"]}
{"id": "C339", "title": "The library directory is resolved", "statement": "A leading {exedir}/ of the library directory is replaced by the directory of the executable if a relative path follows; other paths are not changed.", "quantifier": "all paths and directories", "why_tests_cant": "unbounded texts", "anchors": ["src/api/cli/DaphneUserConfig.h: resolveLibDir"]}
{"id": "C340", "title": "The placeholder is replaced in front of any path", "statement": "A leading {exedir}/ is replaced by the directory of the executable whatever follows.", "quantifier": "all paths", "why_tests_cant": "unbounded texts", "anchors": ["src/api/cli/DaphneUserConfig.h: resolveLibDir"]}
{"id": "C341", "title": "Options that cannot be honoured are refused", "statement": "Once the configuration file is accepted, a run is refused exactly if the options contradict each other or ask for something this build does not have (columnar execution for optimistic splitting, recording and inserting properties at a time, HDFS, MPI, PAPI).", "quantifier": "all builds, files and command lines", "why_tests_cant": "all combinations of settings", "anchors": ["src/api/internal/daphne_internal.cpp: startDAPHNE", "src/parser/config/ConfigParser.cpp"]}
{"id": "C342", "title": "Lowered kernel calls do what the program says", "statement": "In every run of a compiled function, with any nesting of loops and branches, each kernel is called with its operands in their order, the elements of variadic operands in theirs, and null for each result that is an object, also when the call is repeated; the results of the operation are those the kernel produced.", "quantifier": "all functions, kernels, states and runs", "why_tests_cant": "unbounded programs and runs", "anchors": ["src/compiler/lowering/LowerToLLVMPass.cpp: CallKernelOpLowering, CreateVariadicPackOpLowering, StoreVariadicPackOpLowering"]}
{"id": "C343", "title": "String constants reach the kernels", "statement": "String constants without null characters reach the kernels unchanged, and no other memory is written for them.", "quantifier": "all strings and memories", "why_tests_cant": "unbounded strings", "anchors": ["src/compiler/lowering/LowerToLLVMPass.cpp: ConstantOpLowering"]}
{"id": "C344", "title": "Pipelines compute with their inputs", "statement": "In every task of a vectorized pipeline on CPUs, the body computes with exactly the inputs of the pipeline, each in its place: scalars with their values, objects themselves or views of the rows of the task, with the right reference counts; the kernel gets the extents of results, splits and combines in their order.", "quantifier": "all pipelines, scalar types, values and tasks", "why_tests_cant": "all values", "anchors": ["src/compiler/lowering/LowerToLLVMPass.cpp: VectorizedPipelineOpLowering, StoreVariadicPackOpLowering", "src/runtime/local/vectorized/Tasks.h: createFuncInputs", "src/runtime/local/kernels/VectorizedPipeline.h"]}
{"id": "C345", "title": "Single-precision scalars in CUDA pipelines", "statement": "Scalars in single precision have the same value in CUDA pipelines.", "quantifier": "all single-precision numbers", "why_tests_cant": "all values", "anchors": ["src/compiler/lowering/LowerToLLVMPass.cpp: VectorizedPipelineOpLowering"]}
{"id": "C346", "title": "Strings in pipelines", "statement": "String scalars can be passed to vectorized pipelines.", "quantifier": "all strings", "why_tests_cant": "all strings", "anchors": ["src/compiler/lowering/LowerToLLVMPass.cpp: VectorizedPipelineOpLowering, StoreVariadicPackOpLowering", "src/runtime/local/vectorized/Tasks.h: createFuncInputs", "src/runtime/local/kernels/VectorizedPipeline.h"]}
{"id": "C347", "title": "Vectorization accepts all result types", "statement": "Every program that can be compiled without vectorization can be compiled with it, whatever the types of results of its pipelines.", "quantifier": "all lists of result types", "why_tests_cant": "unbounded lists", "anchors": ["src/compiler/lowering/LowerToLLVMPass.cpp: VectorizedPipelineOpLowering"]}
{"id": "C348", "title": "Queries read the views registered last", "statement": "If views are registered outside of branches and loops, every executed query, wherever it is, reads the frames that were registered last under the names it mentions; programs without control flow are rejected only if a query of theirs comes before the registration.", "quantifier": "all programs with branches and loops, all frames", "why_tests_cant": "unbounded programs, numbers of iterations and histories of registrations", "anchors": ["src/compiler/lowering/RewriteSqlOpPass.cpp: SqlReplacement, tables"]}
{"id": "C349", "title": "Registrations in branches and loops", "statement": "Every executed query reads the frames that were registered last by the time of its execution, also if views are registered in branches and loops.", "quantifier": "all programs with branches and loops", "why_tests_cant": "depends on the path taken", "anchors": ["src/compiler/lowering/RewriteSqlOpPass.cpp: SqlReplacement, tables"]}
{"id": "C350", "title": "Registrations end with the program", "statement": "A program can only query the views that it registers itself, also if the process has compiled other programs before.", "quantifier": "all sequences of programs compiled by one process", "why_tests_cant": "histories of a process", "anchors": ["src/compiler/lowering/RewriteSqlOpPass.cpp: SqlReplacement, tables"]}
{"id": "C351", "title": "Strings are freed exactly once", "statement": "A string is freed exactly when its last reference is given up, and only then, whatever the order in which threads duplicate and give up references, and also if a new string gets the address of one freed before.", "quantifier": "all histories of calls, by any number of threads", "why_tests_cant": "unbounded interleavings and address reuse", "anchors": ["src/util/StringRefCount.cpp: StringRefCounter::inc, dec", "src/runtime/local/kernels/IncRef.h", "src/runtime/local/kernels/DecRef.h"]}
{"id": "C352", "title": "Pipelines sent to workers compute the same", "statement": "A pipeline rewritten for distributed execution has the non-constant inputs of the original in their order, each with its own split, and the function sent to the workers computes from their parts what the original body computes from the parts of all inputs.", "quantifier": "all bodies, inputs, constants and parts", "why_tests_cant": "unbounded bodies and inputs", "anchors": ["src/compiler/lowering/DistributePipelinesPass.cpp: DistributePipelines"]}
{"id": "C353", "title": "Exchange with numpy", "statement": "A C-contiguous numpy array is received as the matrix it shows, sharing its memory; a matrix whose rows lie next to each other is returned to Python as an array that shows it.", "quantifier": "all shapes, offsets and contents", "why_tests_cant": "all shapes and layouts", "anchors": ["src/runtime/local/kernels/ReceiveFromNumpy.h", "src/runtime/local/kernels/SaveDaphneLibResult.h", "src/api/python/daphne/context/daphne_context.py: from_numpy", "src/api/python/daphne/operator/operation_node.py: compute"]}
{"id": "C354", "title": "Any numpy array can be received", "statement": "A two-dimensional numpy array of any strides (such as a transposed one) is received as the matrix it shows.", "quantifier": "all strides", "why_tests_cant": "all layouts", "anchors": ["src/runtime/local/kernels/ReceiveFromNumpy.h", "src/runtime/local/kernels/SaveDaphneLibResult.h", "src/api/python/daphne/context/daphne_context.py: from_numpy", "src/api/python/daphne/operator/operation_node.py: compute"]}
{"id": "C355", "title": "Any matrix can be returned to numpy", "statement": "A matrix that is a range of columns of another one is returned to Python as an array that shows it.", "quantifier": "all ranges of columns", "why_tests_cant": "all layouts", "anchors": ["src/runtime/local/kernels/ReceiveFromNumpy.h", "src/runtime/local/kernels/SaveDaphneLibResult.h", "src/api/python/daphne/context/daphne_context.py: from_numpy", "src/api/python/daphne/operator/operation_node.py: compute"]}
{"id": "C356", "title": "Arrays of 16-bit integers can be received", "statement": "A numpy array of 16-bit integers is received as the matrix of 32-bit integers with the same values.", "quantifier": "all arrays", "why_tests_cant": "all contents", "anchors": ["src/runtime/local/kernels/ReceiveFromNumpy.h", "src/runtime/local/kernels/SaveDaphneLibResult.h", "src/api/python/daphne/context/daphne_context.py: from_numpy", "src/api/python/daphne/operator/operation_node.py: compute"]}
{"id": "C357", "title": "Matrices reach generated code", "statement": "A matrix whose rows lie next to each other is seen by generated code as it is, and converting to generated code and back changes nothing.", "quantifier": "all shapes and contents", "why_tests_cant": "all layouts", "anchors": ["src/runtime/local/kernels/ConvertDenseMatrixToMemRef.h", "src/runtime/local/kernels/ConvertMemRefToDenseMatrix.h"]}
{"id": "C358", "title": "Ranges of columns reach generated code", "statement": "A matrix that is a range of columns of another one is seen by generated code as it is.", "quantifier": "all ranges of columns", "why_tests_cant": "all layouts", "anchors": ["src/runtime/local/kernels/ConvertDenseMatrixToMemRef.h", "src/runtime/local/kernels/ConvertMemRefToDenseMatrix.h"]}
{"id": "C359", "title": "Sparse matrices reach generated code", "statement": "The buffers of a sparse matrix, also of a range of rows of another one, passed to generated code and back make a matrix with the same contents.", "quantifier": "all sparse matrices and row views", "why_tests_cant": "all layouts", "anchors": ["src/runtime/local/kernels/ConvertCSRMatrixToValuesMemRef.h", "src/runtime/local/kernels/ConvertCSRMatrixToColIdxsMemRef.h", "src/runtime/local/kernels/ConvertCSRMatrixToRowOffsetsMemRef.h", "src/runtime/local/kernels/ConvertSparseBuffersToMatrix.h"]}
{"id": "C360", "title": "map calls the function once per cell", "statement": "map calls the user-defined function exactly once per cell, row by row from left to right, each call in the state the previous one has left; the result consists of the returned values, and a failing call ends it.", "quantifier": "all dense matrices and views, all functions with effects", "why_tests_cant": "all functions and states", "anchors": ["src/runtime/local/kernels/Map.h: Map"]}
{"id": "C361", "title": "Elements of chunked tensors", "statement": "Writing an element of a chunked tensor makes it visible to checked and unchecked reads and changes no other element, also if the chunks do not divide the tensor evenly; a new tensor shows its initial value everywhere, or nothing if it has none; checked writes outside of the tensor change nothing.", "quantifier": "all ranks, extents, chunk shapes, indexes and values", "why_tests_cant": "unbounded ranks and extents", "anchors": ["src/runtime/local/datastructures/ChunkedTensor.h: ChunkedTensor::ChunkedTensor, get, tryGet, set, trySet"]}
{"id": "C362", "title": "Checked reads outside of chunked tensors", "statement": "A checked read outside of a chunked tensor answers nothing.", "quantifier": "all indexes outside of the tensor", "why_tests_cant": "all extents and indexes", "anchors": ["src/runtime/local/datastructures/ChunkedTensor.h: ChunkedTensor::tryGet"]}
{"id": "C363", "title": "Equality of chunked tensors", "statement": "Chunked tensors of the same shape whose elements are all loaded and the same are equal.", "quantifier": "all tensors and all contents of memory behind the last elements", "why_tests_cant": "depends on memory that no element shows", "anchors": ["src/runtime/local/datastructures/ChunkedTensor.h: ChunkedTensor::operator=="]}
{"id": "C364", "title": "Writing chunks a tensor does not have", "statement": "A checked write of a chunk that the tensor does not have is refused.", "quantifier": "all chunk indexes outside of the tensor", "why_tests_cant": "all extents and indexes", "anchors": ["src/runtime/local/datastructures/ChunkedTensor.h: ChunkedTensor::trySetChunk"]}
{"id": "C365", "title": "Chunked tensors from matrices", "statement": "A chunked tensor made from a matrix shows its cells.", "quantifier": "all matrices and chunk shapes", "why_tests_cant": "all matrices", "anchors": ["src/runtime/local/datastructures/ChunkedTensor.h: ChunkedTensor::ChunkedTensor(const DenseMatrix*, size_t, size_t)"]}
{"id": "C366", "title": "Writing tensors of rank zero", "statement": "An unchecked write of the only element of a chunked tensor of rank zero makes it visible.", "quantifier": "all tensors of rank zero and values", "why_tests_cant": "undefined behaviour that tests do not show", "anchors": ["src/runtime/local/datastructures/ChunkedTensor.h: ChunkedTensor::set"]}
{"id": "C367", "title": "Reversal of bytes", "statement": "Reversing the bytes of elements read from a file of the other byte order exchanges byte j with byte size-1-j of each element and changes no other memory.", "quantifier": "all memories, elements and sizes of elements", "why_tests_cant": "all memories", "anchors": ["src/runtime/local/datastructures/ChunkedTensor.h: ReverseArray"]}
{"id": "C368", "title": "Writing whole chunks", "statement": "Writing an existing chunk of a chunked tensor makes its values visible, each element the value at its place inside the chunk, and changes nothing that is seen of other chunks, also if the chunk overhangs the tensor.", "quantifier": "all ranks, extents, chunk shapes, chunks and values", "why_tests_cant": "unbounded ranks and extents", "anchors": ["src/runtime/local/datastructures/ChunkedTensor.h: ChunkedTensor::trySetChunk"]}
{"id": "C369", "title": "Equal chunked tensors have equal elements", "statement": "The comparison of chunked tensors of rank at least one always returns; if it says yes, shapes agree, all elements are loaded and corresponding elements are the same, and if the chunks divide the tensor evenly, it says yes whenever this is so.", "quantifier": "all pairs of chunked tensors of rank at least one, all contents", "why_tests_cant": "unbounded ranks and extents", "anchors": ["src/runtime/local/datastructures/ChunkedTensor.h: ChunkedTensor::operator=="]}
{"id": "C370", "title": "Rechunking keeps the elements", "statement": "Changing the chunks of a chunked tensor whose elements are all loaded changes no element, whatever the old and new chunk shapes; it is refused, without any change, if the number of extents is wrong or some element has not been loaded.", "quantifier": "all ranks of at least one, extents, old and new chunk shapes without zeros, contents", "why_tests_cant": "unbounded ranks and extents", "anchors": ["src/runtime/local/datastructures/ChunkedTensor.h: ChunkedTensor::tryRechunk"]}
{"id": "C371", "title": "Reading after rechunking", "statement": "After a successful change of the chunks, a checked read of any element returns it.", "quantifier": "all tensors and new chunk shapes", "why_tests_cant": "memory outside of an allocation, only for some shapes", "anchors": ["src/runtime/local/datastructures/ChunkedTensor.h: ChunkedTensor::tryRechunk, tryGet"]}
{"id": "C372", "title": "Parts of chunked tensors", "statement": "A part of a chunked tensor shows the elements of the ranges it was made from, in any number of dimensions.", "quantifier": "all ranks, ranges and new chunk shapes", "why_tests_cant": "all shapes; uninitialised memory that often looks right", "anchors": ["src/runtime/local/datastructures/ChunkedTensor.h: ChunkedTensor::tryDice"]}
{"id": "C373", "title": "Parts of one-dimensional chunked tensors", "statement": "The part of a one-dimensional chunked tensor shows exactly the elements of the range if all of them are loaded, whatever the new chunks; otherwise there is no part.", "quantifier": "all tensors, ranges and new chunk extents", "why_tests_cant": "unbounded extents", "anchors": ["src/runtime/local/datastructures/ChunkedTensor.h: ChunkedTensor::tryDice"]}
{"id": "C374", "title": "Ranges of chunks show their elements", "statement": "A tensor made from a range of chunks shows the elements of these chunks to checked reads.", "quantifier": "all ranks, ranges and contents", "why_tests_cant": "all shapes", "anchors": ["src/runtime/local/datastructures/ChunkedTensor.h: ChunkedTensor::tryDiceAtChunkLvl"]}
{"id": "C375", "title": "Asking for a range of chunks changes nothing", "statement": "Making a tensor from a range of chunks does not change what the original shows.", "quantifier": "all tensors and ranges", "why_tests_cant": "depends on which chunks are loaded", "anchors": ["src/runtime/local/datastructures/ChunkedTensor.h: ChunkedTensor::tryDiceAtChunkLvl"]}
{"id": "C376", "title": "Comparing contiguous and chunked tensors", "statement": "A contiguous and a chunked tensor of rank at least one compare as equal exactly if they have the same shape, all elements of the chunked one are loaded, and corresponding elements are the same.", "quantifier": "all pairs of tensors of rank at least one, any chunk shape, views included", "why_tests_cant": "unbounded ranks and extents", "anchors": ["src/runtime/local/datastructures/ChunkedTensor.h: areLogicalElementsEqual"]}
