
p("C36","Dense row binding",
  "rowBind of two dense matrices or views with the same number of columns stacks the operands' cells; mismatched numbers of columns are rejected.",
  "all shapes incl. views of some of the columns","shapes and strides are unbounded",
  [K+"RowBind.h:RowBind<DenseMatrix,DenseMatrix,DenseMatrix>"])
p("C37","In-order append into views of some columns",
  "prepareAppend, any row-major increasing sequence of appends and finishAppend on a view of some of the columns of a larger matrix leave the appended values at their positions, the default value in all other cells of the view, and cells outside the view untouched.",
  "all shapes, append sequences, column views","gap positions and view geometries are unbounded",
  [D+"DenseMatrix.h:prepareAppend,append,finishAppend,fillZeroUntil"])

p("C38","Elementwise binary and unary operations with broadcasting",
  "For operands of the same shape, or of which one is a row/column vector of matching width/height, the elementwise operation returns the matrix whose cells are the operation applied to the corresponding (broadcast) cells, also for views and when the result is written into the left operand; other shapes are rejected; the same holds for matrix-scalar and unary operations.",
  "all shapes, strides and scalar functions","shapes, strides and value types are unbounded",
  [K+"EwBinaryMat.h:EwBinaryMat<DenseMatrix,DenseMatrix,DenseMatrix>",K+"EwBinaryObjSca.h",K+"EwUnaryMat.h"])
p("C39","The FISS chunk formula is defined for all inputs",
  "For every number of rows and workers the FISS partitioning scheme computes its chunk size without a division by zero.",
  "all row and worker counts","the failing combinations depend on both counts",
  ["src/runtime/local/vectorized/LoadPartitioning.h:getNextChunk,getStages"])
p("C40","Positional extraction with a strided selection",
  "extractRow/extractCol return the addressed rows/columns also if the selection is a column of a wider matrix.",
  "all selections that are views","stride and shape of the selection are unbounded",
  [K+"ExtractRow.h",K+"ExtractCol.h"])
p("C41","Every worker starts at an existing queue",
  "For every machine topology and every queue layout the initial queue index of each worker is smaller than the number of queues.",
  "all topologies (physical id assignments), worker counts and queue modes","topologies of the test machines are few",
  ["src/runtime/local/vectorized/WorkerCPU.h:run","src/runtime/local/vectorized/MTWrapper.h:initCPPWorkers"])
p("C42","Clearing an entry of a sparse matrix that is filled to capacity",
  "Setting a stored cell of a CSR matrix to zero is defined (reads and writes only allocated memory) also if the matrix already holds as many entries as were allocated.",
  "all matrices filled to capacity","the access past the end is silent in tests",
  [D+"CSRMatrix.h:set"])
p("C43","Appending to a sparse matrix without rows",
  "prepareAppend and finishAppend on a CSR matrix with zero rows touch only allocated memory.",
  "all numbers of columns and capacities","the write past the end is silent in tests",
  [D+"CSRMatrix.h:prepareAppend,finishAppend"])
p("C44","Appending through a view of a view of a sparse matrix",
  "In-order append through a row view of a row view writes the appended cells of the window and nothing else.",
  "all nestings of row views","nestings are unbounded",
  [D+"CSRMatrix.h:prepareAppend,CSRMatrix(src,rl,ru)"])
p("C45","Row binding below a full view of a row view",
  "rowBind of CSR matrices stacks the operands also if the upper operand is a view of all rows of a view that does not start at the first row.",
  "all nestings of row views","nestings are unbounded",
  [K+"RowBind.h:RowBind<CSRMatrix>",D+"CSRMatrix.h:isView"])
p("C46","Sparse row-wise result collection when partial results are row views",
  "Row-wise combination of sparse partial results gives their concatenation also if a partial result is a row view of a larger matrix.",
  "all row views","view offsets are unbounded",
  ["src/runtime/local/vectorized/VectorizedDataSink.h:consume"])
p("C47","Elementwise addition and multiplication of sparse matrices",
  "For sparse operands (originals or row views) with equal shapes the elementwise sum and product are the cellwise sum and product, and likewise sparse times a dense matrix, row vector, column vector or 1x1 matrix (broadcast); the result is a well-formed sparse matrix within its estimated capacity, only allocated memory is touched, and other shapes are rejected.",
  "all operands, shapes, sparsity patterns","sparsity patterns and sizes are unbounded; the capacity estimate is a bound over all of them",
  [K+"EwBinaryMat.h:EwBinaryMat<CSRMatrix,CSRMatrix,CSRMatrix>,EwBinaryMat<CSRMatrix,CSRMatrix,DenseMatrix>"])
p("C48","Elementwise operations on a sparse and a dense matrix with a dense result",
  "For every binary elementwise operation offered on a sparse and a dense matrix with a dense result, every result cell is the operation applied to the operands' cells.",
  "all operation codes, operands, shapes","values and patterns are unbounded",
  [K+"EwBinaryMat.h:EwBinaryMat<DenseMatrix,CSRMatrix,DenseMatrix>"])
p("C49","Columnar grouped aggregation rejects the group id equal to the number of groups",
  "A group id equal to the number of groups (the smallest invalid id) is rejected with an exception instead of reading and writing past the end of the result column.",
  "all numbers of groups, aggregations","the access past the end is silent in tests",
  [K+"ColAggGrp.h:ColAggGrp::apply"])
p("C50","Columnar inner join with duplicate right keys",
  "The inner join returns every matching pair of positions also if keys occur repeatedly in the right column.",
  "all columns","value distributions are unbounded",
  [K+"ColJoin.h:ColJoin::apply"])

SER="src/runtime/local/io/DaphneSerializer.h"
p("C51","Serializing column views of dense matrices",
  "A view of a part of the columns of a dense matrix round-trips through (de)serialization.",
  "all views","the defect depends on the row skip",
  [SER+":DaphneSerializer<DenseMatrix<VT>>::serialize"])
p("C52","Serializing matrices with 2^32 rows or columns and more",
  "The dimensions of a matrix survive (de)serialization for all sizes.",
  "all dimensions","matrices of this size do not fit into a test",
  [SER+":serializeHeader","src/runtime/local/io/DaphneFile.h:DF_body_block"])
p("C53","Out-of-order serialization of sparse matrices with spare capacity ends",
  "The loop that serializes a sparse matrix into self-describing chunks ends also if the matrix has room for more non-zeros than it has.",
  "all sparse matrices, all chunk sizes","non-termination cannot be observed by a test",
  [SER+":DaphneSerializerOutOfOrderChunks::HasNextChunk",SER+":DaphneSerializer<CSRMatrix<VT>>::length"])
p("C54","Serializing a sparse matrix into a buffer allocated by the serializer",
  "The overload of serialize that is given a null pointer allocates a buffer of sufficient size.",
  "all sparse matrices","the heap overflow is silent in tests",
  [SER+":DaphneSerializer<CSRMatrix<VT>>::serialize(arg,char**)"])

IO="src/runtime/local/io/"
p("C55","CSV round-trip of 64-bit integers",
  "Reading back a CSV file written from a matrix of 64-bit integers yields the same values, for all values.",
  "all 64-bit values","values are unbounded for a test",
  [IO+"utils.h:convertCstr",IO+"WriteCsv.h:WriteCsv<DenseMatrix<VT>>"])
p("C56","CSV round-trip of strings with carriage returns or backslashes",
  "Reading back a CSV file yields the same strings also if they contain carriage returns, or backslashes before quotes or at the end.",
  "all strings","string contents are unbounded",
  [IO+"utils.h:setCString",IO+"WriteCsv.h:quoteStrCsvIf"])
p("C57","Sparse matrices from files of coordinates",
  "Reading a file of coordinates gives a sparse matrix with well-formed row offsets and exactly the listed entries, row by row (sorted if the file is not declared sorted); a coordinate outside the matrix is rejected if the file is not declared sorted.",
  "all lists of coordinates below 2^31, all orders","lists are unbounded",
  [IO+"ReadCsvFile.h:ReadCsvFile<CSRMatrix<VT>>::readCOOSorted,readCOOUnsorted"])
p("C58","Coordinates outside the matrix in sorted files",
  "A coordinate with a row outside the matrix in a file declared sorted is rejected.",
  "all files","the access out of bounds is silent in tests",
  [IO+"ReadCsvFile.h:ReadCsvFile<CSRMatrix<VT>>::readCOOSorted"])

VIS="src/parser/daphnedsl/DaphneDSLVisitor.cpp"
p("C59","Which scripts the parser accepts as far as variables are concerned",
  "The parser accepts a script exactly if it reads variables only where they exist (assigned before, in the same or a surrounding block) and never assigns the variable of a for-loop inside that loop; every other script is rejected with an exception, none makes the parser run into undefined behaviour.",
  "all scripts made of assignments, blocks, if, while, do-while and for, nested arbitrarily","scripts are unbounded",
  [VIS+":visitIdentifierExpr,handleAssignmentPart,visitAssignStatement,visitBlockStatement,visitIfStatement,visitWhileStatement,visitForStatement"])
p("C60","The generated IR computes what the script says",
  "For every accepted script, every meaning of the builtin operations and every state of the outside world: if the script ends, the IR generated by the parser ends with the same effects on the outside world and the same values of all variables; if the script runs forever, so does the IR; no accepted script reads a variable that does not exist.",
  "all scripts made of assignments (also of several variables), blocks, if, while, do-while and for with loop-carried variables, all operations, all inputs","scripts, iteration counts and values are unbounded",
  [VIS+":renameIf,handleAssignmentPart,visitAssignStatement,visitBlockStatement,visitIfStatement,visitWhileStatement,visitForStatement"])
p("C61","For-loops up to the largest integer",
  "A for-loop whose last value is the largest 64-bit integer runs its body for all values.",
  "all lower bounds","the loops are too long for a test, except for those that reveal the error",
  [VIS+":visitForStatement"])
p("C62","The generated IR is valid SSA code",
  "In the IR generated for an accepted script every value is defined exactly once, and every operand is defined before its use, in the same block or in a block around it.",
  "all accepted scripts","scripts are unbounded",
  [VIS+":visitIfStatement,visitWhileStatement,visitForStatement"])

p("C63","Copying a data object to another variable inside loops and branches",
  "Programs in which a loop assigns an object from outside to one of its variables, a branch assigns the same new object to two variables, or a branch chooses between two existing objects do not use freed objects.",
  "all such programs","programs are unbounded",
  ["src/compiler/lowering/ManageObjRefsPass.cpp:processBlock,processValue"])
p("C64","Returning the same object several times does not leak",
  "When a function returns (or a loop hands out) the same object several times, the object is left with one reference per returned value.",
  "all numbers of copies","programs are unbounded",
  ["src/compiler/lowering/ManageObjRefsPass.cpp:processBlock"])

p("C65","Ordering rows by several columns",
  "order by a non-empty list of columns with directions returns the rows (or their positions) sorted lexicographically, each column ascending or descending as requested, with equal rows in their original order; this result is unique. The list of groups computed for GROUP BY contains exactly the maximal runs of two or more equal rows. Ordering by no column is rejected. Columns must be totally ordered (no NaN).",
  "all row counts, key lists, directions, contents; views","the number of ties and key columns is unbounded",
  [K+"Order.h:columnIDSort,columnGroupScan,multiColumnIDSort,OrderFrame,Order<DenseMatrix,DenseMatrix>"])
p("C66","GROUP BY with aggregates",
  "group returns one row per distinct combination of key values, in ascending key order; key columns show the keys, aggregate columns the COUNT/SUM/MIN/MAX/AVG of the group's values taken in row order; labels and value types are as documented; without keys there is one group of all rows. Keys may be * or f.*; the result's labels must be distinct; keys must be totally ordered; the allocator must round up the array of sort directions (see C67).",
  "all frames, key lists, aggregate lists","the number of groups, keys and aggregates is unbounded",
  [K+"Group.h:Group<Frame>,ColumnGroupAgg,aggregate",K+"Order.h:OrderFrame"])
p("C67","GROUP BY is defined for every query",
  "group by existing columns with any aggregate has a defined result or is rejected: it stays within its arrays, sums of strings are rejected, MIN/MAX of no rows is rejected, and a column can be key and aggregate at once.",
  "all frames and queries","memory errors are silent in tests",
  [K+"Group.h:Group<Frame>,aggregate",D+"Frame.h:initDeduplicatedLabels2Idxs"])
p("C68","Ordering terminates in the presence of NaN",
  "order and group by a floating-point column that contains NaN return.",
  "all row counts and positions of NaN","a hanging test is no result",
  [K+"Order.h:columnGroupScan,nextWithRowskip"])
p("C69","Frame labels",
  "Creating a frame (with given or default labels, or from column matrices), binding frames column-wise and renaming columns succeed exactly if all labels are distinct (and shapes match); then looking up a label gives the position of exactly that column. Selecting rows and columns by position keeps types, data and distinct labels; a column selected twice gets a label of its own if no selected label has the default form col_k; invalid positions and row ranges are rejected.",
  "all frames, label lists, selections","label sets are unbounded",
  [D+"Frame.h:Frame,initLabels2Idxs,initDeduplicatedLabels2Idxs,setLabels,getColumnIdx,slice"])
p("C70","Selecting a column with a default label twice",
  "After selecting a column twice all columns of the result have distinct labels.",
  "all frames and selections","label sets are unbounded",
  [D+"Frame.h:initDeduplicatedLabels2Idxs"])

p("C71","Cartesian product of frames",
  "cartesian returns one row for each pair of a row of lhs and a row of rhs, ordered by the lhs row, then the rhs row; it has the columns of lhs followed by those of rhs with the values of the two rows (int64 and double columns). If a label occurs twice, it is rejected.",
  "all frames without a common label","the number of rows and columns is unbounded",
  [K+"Cartesian.h:cartesian,cartesianSet"])
p("C72","Inner join of frames",
  "innerJoin returns one row for each pair of rows with equal keys (and no others), ordered by the lhs row, then the rhs row, with the columns of both inputs (string, int64 and double columns). The key columns must both be strings or both be int64; anything else, a missing column, a repeated label or a row-count hint that is too small is rejected.",
  "all frames, key columns, hints","duplicates of keys on both sides are unbounded",
  [K+"InnerJoin.h:innerJoin,BuildHashRhs,ProbeHashLhs"])
p("C73","Theta join of frames",
  "thetaJoin with one or more conditions returns one row for each pair of rows for which all conditions hold (and no others), ordered by the lhs row, then the rhs row, with all columns of both inputs. Values of different types are compared after conversion of the rhs value. A repeated label, a missing column or a string column in either input is rejected.",
  "all frames, lists of conditions","the position list is rewritten in place for every condition; the number of conditions and rows is unbounded",
  [K+"ThetaJoin.h:ThetaJoin,CompareColumnPair,WriteColumn,ResultContainer"])
p("C74","Joins deliver all columns",
  "Cartesian product and inner join return the input values in columns of every value type.",
  "all frames with columns of other types","uninitialized memory may look right in a test",
  [K+"Cartesian.h:cartesianSet",K+"InnerJoin.h:innerJoinSet,ProbeHashLhs"])
p("C75","Theta join corner cases",
  "A theta join without conditions is the Cartesian product, and a condition on columns of different numeric types compares the numbers.",
  "all frames","the number of value combinations is unbounded",
  [K+"ThetaJoin.h:ThetaJoin,compareValues"])
p("C76","Semi join of frames",
  "semiJoin on int64 keys returns exactly the rows of lhs whose key occurs in rhs, in their order: the key and the row number. A missing column or a row-count hint that is too small is rejected.",
  "all frames, key columns, hints","the number of rows is unbounded; the kernel runs twice on its own result",
  [K+"SemiJoin.h:semiJoin,semiJoinCol"])
p("C77","Group join of frames",
  "groupJoin on int64 keys and an int64 or double column returns one row for each key of lhs that occurs in rhs, in an unspecified order: the key, the sum of the column over the rows of rhs with that key in row order, and the first row of lhs with that key. A missing column, or a key column that is called like the sum, is rejected.",
  "all frames, columns, iteration orders of the hash table","the number of rows and the order of a hash table are unbounded",
  [K+"GroupJoin.h:groupJoin,groupJoinCol"])
p("C78","Semi and group join on other types",
  "semiJoin and groupJoin on columns of other value types give the corresponding result or are rejected.",
  "all frames, column types","a null-pointer access is undefined",
  [K+"SemiJoin.h:semiJoin",K+"GroupJoin.h:groupJoin"])

p("C79","Full aggregation of a dense matrix",
  "sum, prod, min, max, mean, var, stddev of a whole dense matrix (a new one or a view, with or without gaps between the rows) equal the aggregate of the list of its cells, if the arithmetic is associative and commutative (integers); in any arithmetic every cell is used exactly once. Positions of extreme values are rejected.",
  "all dense matrices, views, value types, op-codes","the loop is unrolled four times, with separate treatment of contiguous matrices; sizes and contents are unbounded",
  [K+"AggAll.h:aggAllArray,AggAll",K+"AggOpCode.h:AggOpCodeUtils"])
p("C80","Full aggregation of a sparse matrix",
  "The same aggregates of a sparse matrix (also of a view of some of its rows) equal those of the list of all its cells, stored or zero.",
  "all sparse matrices, views, op-codes","zeros are not visited but accounted for by formulas",
  [K+"AggAll.h:AggAll",K+"AggOpCode.h:AggOpCodeUtils"])
p("C81","Row-wise aggregation",
  "Row-wise aggregation of a dense or sparse matrix (also of views) with at least one column returns one value per row: the aggregate of all cells of the row. In any arithmetic, dense rows are folded from left to right.",
  "all matrices, views, op-codes","sizes, views and distributions of zeros are unbounded",
  [K+"AggRow.h:AggRow"])
p("C82","Column-wise aggregation",
  "Column-wise aggregation of a dense or sparse matrix (also of views) with at least one row returns one value per column: the aggregate of all cells of the column. In any arithmetic, dense columns are folded from top to bottom.",
  "all matrices, views, op-codes","sizes, views and distributions of zeros are unbounded",
  [K+"AggCol.h:AggCol"])
p("C83","Positions of extreme values",
  "Row-wise and column-wise idxMin/idxMax of a dense matrix return, for each row/column, the first position of the smallest/greatest value; they are rejected for sparse matrices.",
  "all matrices without NaN","ties and sizes are unbounded",
  [K+"AggRow.h:AggRow",K+"AggCol.h:AggCol"])
p("C84","Cumulative aggregation",
  "cumSum, cumProd, cumMin, cumMax return a matrix of the same shape, whose cell in row r is the aggregate, from top to bottom, of the first r+1 cells of the column; other op-codes are rejected.",
  "all dense matrices with at least one row","sizes are unbounded",
  [K+"AggCum.h:AggCum"])
p("C85","Aggregating nothing",
  "Aggregation of a matrix without cells returns a result or is rejected.",
  "all matrices without rows or without columns, all op-codes","an out-of-bounds read need not be visible",
  [K+"AggRow.h:AggRow",K+"AggCol.h:AggCol",K+"AggCum.h:AggCum",K+"AggAll.h:AggAll"])
p("C86","Minimum and maximum with a different result type",
  "The full minimum/maximum as a floating-point number of a non-empty integer matrix is its minimum/maximum.",
  "all non-empty integer matrices","the outcome of an undefined conversion depends on the compiler",
  [K+"AggAll.h:aggAllArray",K+"AggOpCode.h:getNeutral"])
p("C87","Integer mean of negative numbers",
  "The full mean as an int64 of a matrix is the sum of the cells divided by their number, rounded toward zero.",
  "all int64 matrices","the sign of the sum matters",
  [K+"AggAll.h:AggAll"])
p("C88","Reshape (dense)",
  "reshape of a dense matrix or view keeps the row-major sequence of its cells; a shape with another number of cells is rejected.",
  "all matrices, views and target shapes","shapes and views are unbounded",
  [K+"Reshape.h:Reshape"])
p("C89","Reshape (sparse)",
  "reshape of a sparse matrix keeps the row-major sequence of its cells, also for row views recognised as such; a shape with another number of cells is rejected.",
  "all sparse matrices and target shapes","entries move between rows; offsets of skipped rows must be filled",
  [K+"Reshape.h:Reshape"])
p("C90","Reshape of a sparse view of a view",
  "reshape of a sparse row view keeps its cells, also if the view was taken from a view.",
  "all sparse row views","depends on the history of slicing",
  [K+"Reshape.h:Reshape",D+"CSRMatrix.h:isView"])
p("C91","Reverse",
  "reverse of a dense matrix or view with at least one column returns the rows in reverse order.",
  "all dense matrices and views with at least one column","sizes and views are unbounded",
  [K+"Reverse.h:Reverse"])
p("C92","Reverse without columns",
  "reverse of a view without columns returns a matrix without columns.",
  "all dense views without columns","an out-of-bounds write need not be visible",
  [K+"Reverse.h:Reverse"])
p("C93","Triangles",
  "lowerTri/upperTri of a square dense or sparse matrix keeps (or replaces by one) exactly the non-zero cells of the triangle, with or without the diagonal, and sets all other cells to zero; other shapes are rejected; the sparse result never exceeds the space reserved for it.",
  "all square matrices and views, all flag combinations","the reserved space is a formula of size and non-zeros",
  [K+"Tri.h:Tri"])
p("C94","Diagonals",
  "diagMatrix of a column returns the square matrix with these values on the diagonal and zeros elsewhere (dense, sparse, and dense to sparse), diagVector of a square matrix returns its diagonal (dense and sparse), other shapes are rejected, and diagVector undoes diagMatrix.",
  "all matrices and views","sizes and sparsity patterns are unbounded",
  [K+"DiagMatrix.h:DiagMatrix",K+"DiagVector.h:DiagVector"])
p("C95","Constant matrices",
  "fill(v, R, C) returns an R x C matrix, dense or sparse, whose cells are all v.",
  "all values and sizes","sizes are unbounded",
  [K+"Fill.h:Fill"])
p("C96","Sequences",
  "seq(start, end, inc) over integers returns exactly the values start, start+inc, ... that are not beyond end, in order; no value if end lies on the other side; inc = 0 is rejected.",
  "all integers (without overflow)","the number of values is computed by a division and then corrected",
  [K+"Seq.h:Seq"])
p("C97","Outer operations",
  "outerBinary of a column (m x 1) and a row (1 x n) returns the m x n matrix of the operation applied to every pair; other shapes are rejected.",
  "all matrices, views, operations","sizes and views are unbounded",
  [K+"OuterBinary.h:OuterBinary"])
p("C98","Conditional per cell",
  "cond ? then : else with a matrix condition returns, per cell, the value of the chosen operand, for any combination of matrix (or view) and scalar operands; a matrix operand of another shape is rejected.",
  "all conditions, operands, views","sizes and views are unbounded",
  [K+"CondMatMatMat.h:CondMatMatMat",K+"CondMatMatSca.h:CondMatMatSca",K+"CondMatScaMat.h:CondMatScaMat",K+"CondMatScaSca.h:CondMatScaSca"])
p("C99","Replace",
  "replace of a matrix with at least one cell (dense, also views) or one non-zero (sparse, not a row view with an offset) returns a matrix in which exactly the cells equal to the pattern (NaN counts as equal to NaN) hold the replacement; the pattern 0 is rejected for sparse matrices.",
  "all matrices, patterns, replacements","NaN, equal pattern and replacement and zero take different paths",
  [K+"Replace.h:Replace"])
p("C100","Replace in nothing",
  "replace of a matrix without cells, or of a sparse matrix without non-zeros, returns the unchanged matrix.",
  "all such matrices","the missing result only shows when it is used",
  [K+"Replace.h:Replace"])
p("C101","Replace in a sparse row view",
  "replace of a sparse row view returns a matrix in which exactly the cells equal to the pattern hold the replacement.",
  "all sparse row views","the damage depends on the contents of neighbouring memory",
  [K+"Replace.h:Replace"])
p("C102","Casts of dense matrices",
  "A cast of a dense matrix or view to another value type has the same shape, and each cell is the converted cell.",
  "all matrices, views, conversions","sizes and views are unbounded",
  [K+"CastObj.h:CastObj"])
p("C103","Casts between dense and sparse",
  "A cast of a sparse matrix (or row view) to dense and of a dense matrix (or view) to sparse shows the same cells; casting to sparse and back changes nothing.",
  "all matrices, views, sparsity patterns","sizes and sparsity patterns are unbounded",
  [K+"CastObj.h:CastObj"])
p("C104","Casts of square sparse matrices",
  "A cast of a square sparse matrix to another value type converts every cell, if the conversion maps zero to zero.",
  "all square sparse matrices, conversions","sparsity patterns are unbounded",
  [K+"CastObj.h:CastObj"])
p("C105","Casts of sparse matrices that are not square",
  "A cast of a sparse matrix to another value type has the same shape and converts every cell.",
  "all sparse matrices with different numbers of rows and columns","the existing tests use square matrices",
  [K+"CastObj.h:CastObj"])
p("C106","Contingency tables",
  "ctable of two columns (not views with gaps) of n non-negative integers returns, dense or sparse, the matrix whose cell (i, j) is the weight added once per pair (i, j); positions outside a requested size are ignored, a size that is not requested is the greatest coordinate + 1; other shapes are rejected.",
  "all columns, weights, requested sizes","the sparse variant updates cells in arbitrary order",
  [K+"CTable.h:CTable"])
p("C107","Position list to bitmap",
  "A list of positions below n (also a view) becomes the bitmap of n rows with ones exactly there; a position above n or more than one column is rejected.",
  "all lists, sizes, views","sizes are unbounded",
  [K+"ConvertPosListToBitmap.h:ConvertPosListToBitmap"])
p("C108","Bitmap to position list",
  "A bitmap (also a view) becomes the ascending list of the positions of its ones; ascending duplicate-free lists survive the conversion to a bitmap and back.",
  "all bitmaps and views","sizes are unbounded; the result is allocated for the worst case and then shrunk",
  [K+"ConvertBitmapToPosList.h:ConvertBitmapToPosList",K+"ConvertPosListToBitmap.h:ConvertPosListToBitmap"])
p("C109","Positions beyond the bitmap",
  "A position that is not below the number of rows of the bitmap is rejected.",
  "all position lists","only the boundary value is wrong",
  [K+"ConvertPosListToBitmap.h:ConvertPosListToBitmap"])
p("C110","Contingency tables of column views",
  "ctable of columns of a wider matrix is the table of the values in these columns.",
  "all column views","the wrong cells read may look plausible",
  [K+"CTable.h:CTable"])
p("C111","Coordinates of contingency tables",
  "ctable rejects negative coordinates and handles inputs without rows.",
  "all inputs","memory errors depend on the surrounding memory",
  [K+"CTable.h:CTable"])
p("C112","One-hot encoding",
  "oneHot keeps columns with info -1, drops columns with info 0 and replaces a column with info d by d columns with a one at the position of the value; a bad info row (shape, value below -1, only zeros) or a value not below d is rejected.",
  "all matrices, views, info rows","widths and positions depend on all columns before",
  [K+"OneHot.h:OneHot"])
p("C113","Recoding",
  "recode without order preservation returns codes and a dictionary such that decoding gives the input back, each value is in the dictionary once, and codes are given in the order of first appearance, independent of the traversal order of the hash map.",
  "all columns (views), all hash map orders","hash map order and inputs are unbounded",
  [K+"Recode.h:Recode"])
p("C114","Order-preserving recoding",
  "recode with order preservation additionally returns an ascending dictionary, so codes compare as the values do.",
  "all columns (views) of integers or strings","inputs are unbounded",
  [K+"Recode.h:Recode"])
p("C115","Order-preserving recoding of floats",
  "recode with order preservation on floating-point columns returns codes from which the dictionary gives back the values.",
  "all columns of floats","depends on where a NaN is inserted into the set",
  [K+"Recode.h:Recode"])
p("C116","Binning",
  "bin puts every value into its bin of n bins of equal width between min and max (values outside into the first or last one), larger values never get a smaller bin; invalid arguments are rejected.",
  "all values, bounds, numbers of bins (exact arithmetic)","boundaries between bins",
  [K+"Bin.h:Bin"])
p("C117","Binning of integers",
  "bin puts every 64-bit integer into its bin; values above max into the last one.",
  "all 64-bit integers and bounds","only extreme values overflow",
  [K+"Bin.h:Bin"])
p("C118","Quantization",
  "quantize with a range that contains a value other than 0 returns codes in 0..255; 0 is represented exactly, larger values never get a smaller code, and values in the range are represented with an error of at most 1.5 steps of 1/256 of the range.",
  "all matrices, views, ranges (exact arithmetic)","values are unbounded; rounding of the zero point interacts with clipping",
  [K+"Quantize.h:Quantize"])
p("C119","Quantization of constant zero",
  "quantize accepts every range, also that of an input of zeros.",
  "all ranges with min >= 0 >= max","undefined behaviour may go unnoticed",
  [K+"Quantize.h:Quantize"])
IR="src/ir/daphneir/"
p("C120","Folded casts of integer constants",
  "A cast of an integer constant between integer types that the compiler evaluates has the value the cast has at run time (except negative numbers to wider unsigned types).",
  "all integer types and values","the domain is 2^64 per pair of types",
  [IR+"Fold.cpp:performCast",K+"CastSca.h:CastSca"])
p("C121","Folded casts of negative constants",
  "A cast of a negative constant to a wider unsigned type that the compiler evaluates has the value it has at run time.",
  "all signed types, wider unsigned types, negative values","the result depends on whether the compiler sees the constant",
  [IR+"Fold.cpp:performCast",K+"CastSca.h:CastSca"])
p("C122","Folded integer arithmetic",
  "An arithmetic, comparison, min/max or logical operation on two integer constants of any types that the compiler evaluates has the value it has at run time, whenever that is defined; division or modulo by the constant 0 is rejected (except the cases of C121, C123, C124).",
  "all operations, pairs of integer types, values","the domain is 2^128 per operation and pair of types",
  [IR+"Fold.cpp:constFoldBinaryOp",K+"EwBinarySca.h:EwBinarySca","src/compiler/inference/TypeInferenceUtils.cpp:mostGeneralVt"])
p("C123","Folded modulo of large integers",
  "Modulo of two integer constants has the same value whether or not it is evaluated by the compiler.",
  "all 64-bit integers","only numbers beyond 2^53 differ",
  [IR+"Fold.cpp:EwModOp::fold",K+"EwBinarySca.h:EwBinarySca"])
p("C124","Folded sum of booleans",
  "The sum of two boolean constants has the same value whether or not it is evaluated by the compiler.",
  "all pairs of booleans","the two evaluations are in different components",
  [IR+"Fold.cpp:EwAddOp::fold",K+"EwBinarySca.h:EwBinarySca"])
p("C125","Folded min and max of floats",
  "min and max of floating-point constants have the same value whether or not they are evaluated by the compiler.",
  "all floating-point values","only NaN differs",
  [IR+"Fold.cpp:EwMinOp::fold",IR+"Fold.cpp:EwMaxOp::fold",K+"EwBinarySca.h:EwBinarySca"])
p("C126","Folded casts of floats to integers",
  "A cast of a floating-point constant to an integer type (not bool) that the compiler evaluates has the value it has at run time, if that is defined and below 2^63.",
  "all floating-point values, integer types","values are unbounded",
  [IR+"Fold.cpp:performCast",K+"CastSca.h:CastSca"])
p("C127","Folded casts of floats to bool and large unsigned integers",
  "A cast of a floating-point constant to bool or ui64 that the compiler evaluates has the value it has at run time.",
  "all floating-point values","the result depends on whether the compiler sees the constant",
  [IR+"Fold.cpp:performCast",K+"CastSca.h:CastSca"])
CAN=IR+"Canonicalize.cpp:"
p("C128","Duplicate inputs of fused pipelines",
  "Removing duplicate inputs of a vectorized pipeline does not change what its operations are applied to, if inputs that are the same value have the same split; no input value is lost, and a pipeline without duplicates is unchanged.",
  "all pipelines (any number of inputs, splits and uses)","any list of inputs",[CAN+"VectorizedPipelineOp::canonicalize"])
p("C129","Duplicate inputs with different splits",
  "Removing duplicate inputs of a vectorized pipeline does not change what its operations are applied to, also if a value is used with two different splits.",
  "all pipelines","needs two duplicates in one pipeline",[CAN+"VectorizedPipelineOp::canonicalize"])
p("C130","Unused results of fused pipelines",
  "After the removal of unused results of a vectorized pipeline, every remaining result is the same value with the same shape and combination; exactly the used results remain.",
  "all pipelines with any number of results","any subset of results may be unused",[CAN+"VectorizedPipelineOp::canonicalize"])
p("C131","Scalar minus matrix",
  "The simplification of a - X (integer scalar a, integer matrix X) computes a - x for every cell x that is not the smallest number of its type, in the same result type.",
  "all integer types, scalars and cells","the domain is 2^128 per pair of types",[CAN+"EwSubOp::canonicalize",K+"EwBinarySca.h:EwBinarySca"])
p("C132","Scalar minus matrix: smallest numbers and booleans",
  "The simplification of a - X computes a - x also for the smallest number of a type and for booleans.",
  "all integer types, scalars and cells","one value per type",[CAN+"EwSubOp::canonicalize"])
p("C133","Scalar divided by matrix",
  "The simplification of a / X (floating point) computes a / x for every non-zero cell x, up to rounding.",
  "all finite scalars and cells","only cells with an overflowing reciprocal differ",[CAN+"EwDivOp::canonicalize"])
p("C134","Addition with an operand of unknown type",
  "The reordering of operands of an addition does not change its result, whatever the operands turn out to be.",
  "all pairs of matrices","depends on what is known when the rewrite runs",[CAN+"EwAddOp::canonicalize",K+"EwBinaryMat.h:EwBinaryMat"])
p("C135","Positions to bitmap and back",
  "Replacing the conversion of a position list to a bitmap and back by the list is right exactly for ascending lists without duplicates (positions below the size of the bitmap).",
  "all position lists and bitmap sizes","lists of any length",[CAN+"ConvertBitmapToPosListOp::canonicalize",K+"ConvertPosListToBitmap.h",K+"ConvertBitmapToPosList.h"])
p("C136","Extraction of a column from a new frame",
  "If creating a frame from column matrices and extracting a column by its label succeeds, then the simplified program gives the same frame: the matrix as the only column, with the selected label.",
  "all column matrices, labels, selected labels that do not end in .*","any number of columns, rows and labels",[CAN+"ExtractColOp::canonicalize",K+"ExtractCol.h",K+"SetColLabels.h",K+"CastObj.h",D+"Frame.h"])
p("C137","Extraction of a column from a new frame: errors and wildcards",
  "The simplification of C136 also preserves errors of the frame creation, and extraction of several columns by a label ending in .*",
  "all column matrices and labels","two paths through different components",[CAN+"ExtractColOp::canonicalize"])
p("C138","Simplification of label operations on frames",
  "Extracting a column from two bound frames gives what extracting from the one with the label gives; extracting twice by the same label (also ending in .*) is extracting once; giving a frame the labels it has changes nothing.",
  "all frames and labels","frames of any size",[CAN+"ExtractColOp::canonicalize",CAN+"SetColLabelsOp::canonicalize",K+"ExtractCol.h",K+"SetColLabels.h"])
p("C139","Chains of casts",
  "Casting a matrix to a frame and on to a matrix, or a frame with columns of one type to a matrix of that type and on to a matrix, gives what the direct cast gives.",
  "all matrices, frames and value types","any size and type",[CAN+"CastOp::canonicalize",IR+"DaphneOps.td:CastOp::mightLoseInformation",K+"CastObj.h"])
p("C140","Casting a frame to a matrix and back",
  "The simplification of casts of a frame to a matrix and back does not change the resulting frame.",
  "all frames with columns of one type","depends on the labels",[CAN+"CastOp::canonicalize",IR+"DaphneOps.td:CastOp::mightLoseInformation",IR+"DaphneOps.td:CastOp::isRemovePropertyCast"])
INF="src/compiler/inference/"
p("C141","Type of a variable after a branch or loop",
  "The type the compiler gives to a variable that two paths assign fits the values of both paths (kind, value type, shape, symmetry, labels), in either order; types of two different kinds are rejected.",
  "all pairs of types (scalars, matrices, frames of any width) and values","any shapes, column types and labels",["src/compiler/inference/InferencePass.cpp:getTypeWithCommonInfo"])
p("C142","Sparsity of a variable after a branch",
  "The sparsity the compiler assumes for a variable that two paths assign is the one of a path or unknown.",
  "all pairs of matrix types","any fraction",["src/compiler/inference/InferencePass.cpp"])
p("C143","Casts that the compiler removes",
  "A cast that the compiler removes because the argument type already has the target's properties does not change what is known of the value: it fits the target type.",
  "all types and values","any combination of known and unknown properties",[IR+"DaphneOps.td:CastOp",IR+"DaphneTypes.td:isSpecializationOf"])
p("C144","Representation after a removed cast",
  "After the removal of casts the representation (dense or sparse) of a value is the one its users were compiled for.",
  "all matrix types","depends on two passes",[IR+"DaphneOps.td:CastOp::isRemovePropertyCast","src/compiler/lowering/SelectMatrixRepresentationsPass.cpp"])
p("C145","Soundness of type inference",
  "If the inference of a program ends, then in every execution of the program every variable has a value that fits the inferred type, if this is so for each single operation.",
  "all programs with nested branches and loops, all inputs, any number of iterations","any nesting and number of iterations",["src/compiler/inference/InferencePass.cpp"])
p("C146","Number of rounds of loop inference",
  "The inference of a loop ends within one round per known property of its variables, or never; it ends if no yielded type knows more than that of its variable.",
  "all loops, any number of variables, any body","any number of rounds",["src/compiler/inference/InferencePass.cpp"])
p("C147","Termination of loop inference",
  "The inference of every loop ends.",
  "all loops","an endless compilation cannot be observed",["src/compiler/inference/InferencePass.cpp"])
SHP=IR+"DaphneInferShapeOpInterface.cpp:"
p("C148","Inferred shapes and constant nrow/ncol/ncell",
  "If what the compiler knows of the operands is true and the operation accepts them at run time, then shape inference reports no error and every inferred number of rows or columns is the one of the result at run time; so nrow, ncol and ncell are replaced by the right constants.",
  "all shapes, partial knowledge, constants, about 40 operations (data generation, elementwise, aggregation, slicing, binding, reshaping, matmul, frames)","every combination of known and unknown shapes",[SHP+"tryInferShape",IR+"DaphneOps.td",CAN+"NumRowsOp::canonicalize",CAN+"NumColsOp::canonicalize",CAN+"NumCellsOp::canonicalize"])
p("C149","Inferred length of sequences",
  "The number of rows the compiler infers for seq(from, to, inc) on integers is that of the result, if inc is not 0 and leads from from towards to.",
  "all integers","unbounded",[SHP+"SeqOp::inferNumRows",K+"Seq.h"])
p("C150","Inferred length of sequences: other increments",
  "The number of rows the compiler infers for seq(from, to, inc) is that of the result for every increment; increment 0 is an error of the program.",
  "all integers","unbounded",[SHP+"SeqOp::inferNumRows"])
p("C151","Inferred size of Cartesian products",
  "The number of rows the compiler infers for a Cartesian product is right or unknown.",
  "all frames, partial knowledge","depends on what is known",[SHP+"CartesianOp::inferNumRows"])
p("C152","Inferred shape of an operation on a scalar and a matrix",
  "The shape the compiler infers for an elementwise operation on a scalar and a matrix is that of the matrix or unknown.",
  "all shapes","depends on the order of passes",[SHP+"tryInferShape",CAN+"EwAddOp::canonicalize"])
p("C153","Inferred shapes of internal operations",
  "The shapes inferred for X @ t(X) computed as syrk and for conversions between position lists and bitmaps are right or unknown.",
  "all shapes","depends on the order of passes",[IR+"DaphneOps.td:SyrkOp",IR+"DaphneOps.td:ConvertPosListToBitmapOp",IR+"DaphneOps.td:ConvertBitmapToPosListOp"])
p("C154","Sparse times dense",
  "For a CSR matrix and a dense matrix (also views) with matching inner dimension, each of the three variants of the kernel returns the matrix product, whatever the interleaving of the OpenMP threads; no two threads write the same cell. If the inner dimensions differ it throws.",
  "all matrices, views, thread schedules, numbers of non-zeros","every interleaving",[K+"MatMul.h:MatMul<DenseMatrix, CSRMatrix, DenseMatrix>"])
p("C155","Dense times sparse",
  "For a dense and a CSR matrix (also views) with matching inner dimension, the kernel returns the matrix product; otherwise it throws.",
  "all matrices and views","unbounded sizes",[K+"MatMul.h:MatMul<DenseMatrix, DenseMatrix, CSRMatrix>"])
p("C156","Product of any two matrices, with transposition flags",
  "The kernel for the abstract matrix type returns the product of the (transposed, if the flag says so) operands if the inner dimensions match and throws otherwise.",
  "all matrices, all flags","unbounded sizes",[K+"MatMul.h:MatMul<Matrix, Matrix, Matrix>"])
p("C157","Sparse times sparse",
  "For two CSR matrices with matching inner dimension the kernel returns a well-formed CSR matrix that represents the matrix product; the memory it allocates suffices.",
  "all CSR matrices and views, any distribution of non-zeros","every distribution of the non-zeros",[K+"MatMul.h:MatMul<CSRMatrix, CSRMatrix, CSRMatrix>"])
p("C158","Dense times dense",
  "For dense matrices (also views), the product is returned for each combination of transposition flags (float and double with positive inner dimension, integers without transposed left operand), whichever of the routines for dot product, matrix-vector and matrix-matrix product is called; with mismatching inner dimensions it throws.",
  "all matrices, views, flags","unbounded sizes, several code paths",[K+"MatMul.cpp"])
p("C159","Dense times dense: empty inner dimension and transposed integer operands",
  "The product is also right (zero) if the inner dimension is 0, and for integers with transposed left operand.",
  "all matrices","depends on uninitialised memory",[K+"MatMul.cpp"])
p("C160","syrk",
  "The kernel for t(X) @ X returns this product, including the lower triangle it copies; with the other value of its flag X @ t(X).",
  "all dense matrices and views with a positive inner dimension","unbounded sizes",[K+"Syrk.h"])
p("C161","gemv",
  "The kernel for t(M) @ v returns this product for every column vector v with as many entries as M has rows.",
  "all dense matrices and views","unbounded sizes",[K+"Gemv.h"])
p("C162","Choice of the physical operator for matrix multiplication",
  "Folding transpositions into flags and replacing products by syrk and gemv does not change the result for dense matrices of floating point numbers with positive inner dimension, if no transposed matrix is multiplied by a transposed row vector.",
  "all matrices, all knowledge of the compiler that is true","all combinations of rewrites",[CAN+"MatMulOp::canonicalize","src/compiler/lowering/PhyOperatorSelectionPass.cpp",K+"Syrk.h",K+"Gemv.h",K+"MatMul.cpp"])
p("C163","Choice of the physical operator: sparse matrices and row vectors",
  "The same holds for sparse matrices and for products with row vectors, and gemv checks its arguments.",
  "all matrices","all combinations of rewrites",[CAN+"MatMulOp::canonicalize","src/compiler/lowering/PhyOperatorSelectionPass.cpp",K+"Gemv.h",K+"MatMul.h"])
VEC="src/runtime/local/vectorized/"
p("C164","Declared splits and combines of vectorizable operations",
  "For every vectorizable operation (elementwise, aggregations, matrix product, column extraction, transposition, column bind, syrk with t(X) @ X, gemv): splitting its operands and combining its partial results as it declares yields the result of the operation on the whole operands, and the declared size of the output is right.",
  "all operations, matrices, ways to divide the rows","every partition of the rows",[IR.rstrip('/')+"/DaphneVectorizableOpInterface.cpp",VEC+"Tasks.cpp"])
p("C165","Fused pipelines",
  "A pipeline of several vectorizable operations, connected by row-combined results that are row-split operands, delivers for each operation the same matrix as calling the kernels one after the other on whole matrices, without an error, however the rows are divided into tasks and batches and however the threads are interleaved; and it can always be completed.",
  "all pipelines, inputs, divisions into tasks, batch sizes, thread schedules","every schedule",[VEC+"MTWrapper.h",VEC+"MTWrapper_dense.cpp",VEC+"Tasks.cpp","src/compiler/lowering/VectorizeComputationsPass.cpp"])
p("C166","Vectorized X @ t(X)",
  "Also for X @ t(X) (syrk with the other flag) the declared split and combine are right.",
  "all matrices","depends on the number of tasks",[IR.rstrip('/')+"/DaphneVectorizableOpInterface.cpp:SyrkOp"])
VP=["src/compiler/lowering/VectorizeComputationsPass.cpp","src/compiler/utils/VectorizationUtils.cpp",VEC+"MTWrapper.h"]
p("C167","Vectorization preserves the results of a program",
  "For every straight-line program of vectorizable and other operations whose operands have acceptable shapes (vectorizable ones with at least one row, no fused row vector) and in which fusible intermediate results are used once (or, more generally, are not shared among fusion candidates, and the pipelines can be ordered): after the pass all operations are still executed, every vectorizable one in a pipeline, each after its operands; execution never fails, can always be completed, and delivers for each operation the matrix the program defines, however the pipelines are divided into tasks and batches and however the threads are interleaved.",
  "all programs, arguments, divisions into tasks, batch sizes, thread schedules","every program and every schedule",VP)
p("C168","Vectorization with shared intermediate results",
  "The body of a pipeline lists operations after those whose results they use, also if an intermediate result is used by several fusible operations.",
  "all programs","every program",VP)
p("C169","Vectorization: pipelines that use each other's results",
  "The pipelines that the pass forms can be executed one after the other (no two use results of each other).",
  "all programs","every program",VP)
p("C170","Vectorization: users between the fused operations",
  "An operation that uses a result of a pipeline is placed after the pipeline, wherever it was among the fused operations.",
  "all programs","every program",VP)
p("C171","Vectorization: operands that must not be split",
  "If an operation needs an operand as a whole (such as the right operand of a matrix product), this operand is not computed by the same pipeline.",
  "all programs","depends on the number of tasks",VP)
p("C172","Vectorization: computed row vectors",
  "A row vector that is computed and then combined with each row of a matrix is not divided among tasks.",
  "all programs","depends on the number of tasks",VP)
p("C173","Vectorization keeps the order of side effects",
  "Operations with side effects, such as printing, are executed in the order of the program.",
  "all programs","every program",VP)
FB=["src/runtime/local/kernels/FilterRow.h","src/runtime/local/kernels/ExtractRow.h","src/runtime/local/datastructures/Frame.h"]
p("C174","Row selection on frames moves whole rows",
  "Filtering the rows of a frame by a column matrix (one entry per row, nonzero = keep) and extracting rows by positions (negative ones count from the end) give frames with the same labels and value types whose rows are exactly the selected ones, in order, with all their bytes, for any mix of value types up to 8 bytes and strings, whatever fresh memory contains, provided the column arrays have 7 bytes of padding or 8-byte elements; the results have this padding again. Selections of the wrong shape and positions out of range make the call throw.",
  "all frames, selections, contents of uninitialized memory","all byte patterns and sizes",FB)
p("C175","Row selection on frames stays within the column arrays",
  "Filtering never reads outside the column arrays, also for columns of small value types whose arrays have no padding.",
  "all frames","depends on what follows the array in memory",FB)
p("C176","Row selection on frames with fixed-size strings",
  "Filtering a frame copies all 16 bytes of each FixedStr16 value.",
  "all frames, contents of uninitialized memory","depends on the contents of fresh memory",FB)
p("C177","Row selection on frames by a column of a wider matrix",
  "The selection may be a column view of a wider matrix.",
  "all selections","every view",FB)
CO=["src/compiler/lowering/RewriteToColumnarOpsPass.cpp","src/runtime/local/kernels/CastObj.h","src/runtime/local/kernels/ColSelectCmp.h","src/runtime/local/kernels/ColProject.h","src/runtime/local/kernels/ColJoin.h","src/runtime/local/kernels/ColGroupFirst.h","src/runtime/local/kernels/ColAggGrp.h"]
p("C178","Columnar execution: comparisons",
  "With columnar execution enabled, comparing a single-column matrix (also a view of a wider matrix) with a scalar gives the same bitmap as without, for every comparison.",
  "all matrices, views, scalars, comparisons","all contents and shapes",CO)
p("C179","Columnar execution: conjunctions and disjunctions of bitmaps",
  "With columnar execution enabled, && and || of two single-column bitmaps of the same length give the same matrix as without.",
  "all bitmaps","all contents and lengths",CO)
p("C180","Columnar execution: conjunctions and disjunctions of comparison results of any shape",
  "With columnar execution enabled, && and || of any two comparison results give the same matrix, or fail, as without.",
  "all shapes","all shapes, also those unknown at compile time",CO)
p("C181","Columnar execution: subtraction, multiplication and sum",
  "With columnar execution enabled, the difference and product of single-column matrices (also if the right one has one row) and the sum of a single-column matrix are the same as without, and different numbers of rows are rejected as without.",
  "all single-column matrices and views","all contents and shapes",CO)
p("C182","Columnar execution: selecting rows of frames",
  "With columnar execution enabled, filtering a frame by a bitmap of zeros and ones with one entry per row, and extracting rows at positions counted from the beginning, give the same frame (rows, labels, value types) as without; positions beyond the end are rejected as without.",
  "all frames, bitmaps, positions","all contents and shapes",CO)
p("C183","Columnar execution: selecting rows of frames by other values",
  "With columnar execution enabled, filtering and extracting treat non-zero values other than one, bitmaps of the wrong length and negative positions as without.",
  "all frames, bitmaps, positions","all contents and shapes",CO)
p("C184","Columnar execution: inner join",
  "With columnar execution enabled, the inner join of two frames, the keys of the right one being unique, has exactly one row for each pair of rows with equal keys, in the same order as without, with all columns of both frames.",
  "all frames","all contents and shapes",CO)
p("C185","Columnar execution: semi join",
  "With columnar execution enabled, the semi join returns exactly the rows of the left frame whose key occurs in the right frame, in order, and their positions.",
  "all frames","all contents and shapes",CO)
p("C186","Columnar execution: group by",
  "With columnar execution enabled, grouping a frame by ordinary key columns with SUM aggregates gives the same rows as without: one per distinct combination of keys, with the keys and the sums of the group's values added in row order; labels and value types are the same, only the order of the rows differs (first occurrence instead of ascending keys).",
  "all frames, key columns, aggregated columns","all contents and shapes",CO)
p("C187","Columnar execution: inner join on repeated keys",
  "With columnar execution enabled, the inner join has all pairs of rows with equal keys also if a key occurs several times in the right frame.",
  "all frames","all contents",CO)
p("C188","Columnar execution: columns of a semi join",
  "With columnar execution enabled, the semi join has the same columns as without.",
  "all frames","all frames",CO)
p("C189","Columnar execution: order of groups, no keys, wildcards",
  "With columnar execution enabled, grouping has the same order of rows as without and accepts the same keys (none, *).",
  "all frames, keys","all contents",CO)
SA=["src/runtime/local/kernels/Sample.h: sample"]
RA=["src/runtime/local/kernels/RandMatrix.h: randMatrix, validateArgsRandMatrix"]
p("C190","Random samples of integers",
  "sample(range, size, false, seed) of an integer range with size <= range returns a size x 1 matrix of pairwise different numbers in [0, range), for every seed; with replacement all numbers are in [0, range). Requests with size <= 0, range <= 0, or range < size without replacement are rejected.",
  "all ranges, sizes, random draws, shuffles","all seeds and sizes",SA)
p("C191","Random samples of floating-point numbers",
  "sample(range, size, false, seed) of a floating-point range returns a size x 1 matrix of pairwise different numbers in [0, range) or is rejected.",
  "all ranges, sizes, random draws","all seeds; termination",SA)
p("C192","Random dense matrices",
  "rand(rows, cols, min, max, sparsity, seed) with a dense result of at most 2^31 cells returns a matrix of the requested shape in which every cell is zero or a value in [min, max], and the number of non-zero cells is sparsity * rows * cols rounded to a whole number, for every seed, also if [min, max] contains zero. Empty shapes, min > max, min = max = 0 and sparsities outside [0, 1] are rejected (dense and sparse results).",
  "all shapes, bounds, sparsities, random draws","all seeds and shapes",RA)
p("C193","Random sparse matrices",
  "rand with a sparse (CSR) result and bounds that exclude zero returns a valid CSR matrix of the requested shape (column indexes ascending in each row) whose number of non-zeros is sparsity * rows * cols rounded to a whole number, with all non-zeros in [min, max].",
  "all shapes, bounds, sparsities, random draws","all seeds and shapes",RA)
p("C194","Random dense matrices with more than 2^31 cells",
  "rand with a dense result works for every shape that fits into memory.",
  "all shapes","needs more than 2^31 cells",RA)
p("C195","Random sparse matrices: bounds that include zero",
  "rand with a sparse (CSR) result has the requested number of non-zero cells also if the bounds include zero.",
  "all shapes, bounds, sparsities, random draws","all seeds",RA)
DI=["src/runtime/distributed/coordinator/kernels/DistributedWrapper.h: execute","src/runtime/distributed/coordinator/kernels/Distribute.h","src/runtime/distributed/coordinator/kernels/Broadcast.h","src/runtime/distributed/coordinator/kernels/DistributedCompute.h","src/runtime/distributed/coordinator/kernels/DistributedCollect.h","src/runtime/distributed/coordinator/scheduling/LoadPartitioningDistributed.h","src/runtime/distributed/worker/WorkerImpl.cpp","src/runtime/local/datastructures/MetaDataObject.cpp"]
p("C196","Distributed execution computes the same as local execution",
  "For every program history (matrices created, destroyed and viewed from their first row on, earlier pipelines executed in the distributed runtime, leaving parts of matrices at the workers), every number of workers with different addresses, and every order in which the workers respond, executing a pipeline that can be computed by rows in the distributed runtime returns, and its results are those of computing the pipeline locally on the whole inputs; no other matrix changes. The row-split inputs have at least as many rows as there are workers, or a single row and no result is summed up.",
  "all histories, pipelines, inputs, numbers of workers, response orders","all schedules and histories",DI)
p("C197","Data at the workers is not sent again",
  "Distributing or broadcasting an object again after it has been distributed or broadcast in the same way sends nothing and changes neither the coordinator nor any worker, whatever happened before and in whatever order the workers responded.",
  "all histories, objects, numbers of workers, response orders","all histories",DI)
p("C198","Distributed execution: summing results of one-row inputs",
  "A pipeline on a row-split input with one row whose results are summed up computes the same in the distributed runtime as locally.",
  "all one-row inputs, numbers of workers, response orders","all numbers of workers",DI)
p("C199","Distributed execution: fewer rows than workers",
  "Pipelines whose inputs have fewer rows than there are workers are executed.",
  "all inputs, numbers of workers","all shapes and numbers of workers",DI)
p("C200","Distributed execution: equal scalar arguments",
  "A pipeline may have two scalar arguments of the same value.",
  "all pipelines","all pipelines",DI)
p("C201","Distributed execution: views of distributed matrices",
  "A view of a matrix (parts of which are at the workers) can be used like any matrix in the distributed runtime.",
  "all histories","depends on the history",DI+["src/runtime/local/datastructures/Structure.cpp: clone_mdo"])
p("C202","Distributed execution: the same worker listed twice",
  "The results do not depend on whether a worker address is given twice in the list of workers.",
  "all lists of workers","all lists",DI)
CV=["src/runtime/local/kernels/Conv2DForward.h","src/runtime/local/kernels/Conv2D.h","src/runtime/local/kernels/Padding.h"]
PL=["src/runtime/local/kernels/Pooling.h","src/runtime/local/kernels/AvgPoolForward.h","src/runtime/local/kernels/MaxPoolForward.h"]
PB=["src/runtime/local/kernels/AvgPoolBackward.h","src/runtime/local/kernels/MaxPoolBackward.h"]
BA=["src/runtime/local/kernels/BiasAdd.h: biasAdd"]
IS=["src/ir/daphneir/DaphneInferShapeOpInterface.cpp: Conv2DForwardOp, AvgPoolForwardOp, MaxPoolForwardOp"]
CF=["src/runtime/local/kernels/Conv2DBackwardFilter.h"]
CD=["src/runtime/local/kernels/Conv2DBackwardData.h"]
p("C203","2D convolution",
  "conv2d with a bias returns, for every image, output channel and window position, the sum of the products of the filter with the zero-padded image plus the bias of the output channel, and the height and width of the output; it accesses no memory outside its operands.",
  "all images, filters, biases, shapes, strides, paddings (sizes below 2^32)","all shapes and contents",CV)
p("C204","2D convolution without a bias",
  "conv2d without a bias returns the convolution itself.",
  "all images, filters, shapes","all shapes and contents",CV)
p("C205","Average pooling",
  "avg_pool2d returns, for every image, channel and window position, the mean of the window of the zero-padded image (exact arithmetic), if interchanging the strides does not change the number of window positions and the image is not a padded one-column image with one window position.",
  "all images, shapes, strides, paddings","all shapes and contents",PL)
p("C206","Maximum pooling",
  "max_pool2d returns, for every window with a non-negative value (padding counts as zero), the maximum of the window, if interchanging the strides does not change the number of window positions and not (one column and one window).",
  "all images, shapes, strides, paddings","all shapes and contents",PL)
p("C207","Maximum pooling of negative values",
  "max_pool2d returns the maximum of the window also for windows with negative values only and for one-column images.",
  "all images, shapes","all contents",PL)
p("C208","Pooling with different strides",
  "The result of avg_pool2d and max_pool2d has (height + 2 * padding - window height) / vertical stride + 1 rows of window positions and accordingly for the columns; no memory outside the image is read.",
  "all shapes, strides, paddings","all shapes",PL)
p("C209","Average pooling of padded one-column images",
  "avg_pool2d returns the mean of the zero-padded window also for one-column images with a single window position.",
  "all images, paddings","all shapes",PL)
p("C210","biasAdd",
  "biasAdd(X, b) with a column matrix b of C biases adds b[c] to every cell of channel c of every row of X, if the number of columns is a multiple of C.",
  "all matrices, biases","all shapes and contents",BA)
p("C211","biasAdd: row-matrix biases, uneven channels, views",
  "biasAdd also takes a row matrix of biases (as documented), rejects uneven channels, and works on views.",
  "all matrices, biases, views","all shapes",BA)
p("C212","Inferred shapes of convolution and pooling",
  "If all dimension arguments are constants and the strides are equal, the shape the compiler infers for the result of conv2d, avg_pool2d and max_pool2d is the shape of the run-time result.",
  "all dimension arguments and operands","all shapes",IS+CV+PL)
p("C213","Inferred shapes with unknown dimension arguments",
  "The shape the compiler infers for the result of conv2d, avg_pool2d and max_pool2d is right or unknown, whatever is known about the arguments, and inference never crashes.",
  "all knowledge about the arguments","all shapes",IS)
p("C214","Gradient of average pooling",
  "avg_pool2d_backward returns, for every pixel, the sum over the window positions covering it of the gradient there divided by the window size (exact arithmetic), if interchanging the strides does not change the number of window positions.",
  "all gradients, shapes, strides, paddings","all shapes and contents",PB)
p("C215","Gradient of maximum pooling",
  "max_pool2d_backward returns, for every pixel, the sum of the gradients of all windows whose first maximum (row-major order, padding counts as zero) it is, if interchanging the strides does not change the number of window positions.",
  "all images, gradients, shapes, strides, paddings","all shapes and contents",PB)
p("C216","Gradients of pooling with different strides",
  "avg_pool2d_backward and max_pool2d_backward return the gradients also if the strides differ.",
  "all shapes, strides","all shapes",PB)
p("C217","Gradient of a convolution with respect to the filter",
  "conv2d_backward_filter returns, for every weight of every filter (square filters or filters of height 1), the sum over all images and output positions of the pixel multiplied with the weight times the output gradient; it accesses no memory outside its operands.",
  "all images, gradients, shapes, strides, paddings","all shapes and contents",CF)
p("C218","Gradient with respect to rectangular filters",
  "conv2d_backward_filter returns the gradients also for filters of different height and width.",
  "all images, gradients, shapes","all shapes",CF)
p("C219","Gradient of a convolution with respect to the data",
  "conv2d_backward_data returns, for every pixel, the sum over the output channels and window positions covering the pixel of the output gradient times the weight multiplied with the pixel, if the output has the size of a filter and the paddings are equal.",
  "all filters, gradients, shapes, strides","all shapes and contents",CD)
p("C220","Gradient with respect to the data, all output sizes",
  "conv2d_backward_data returns the gradients for outputs of any size and any padding.",
  "all filters, gradients, shapes","all shapes",CD)
p("C221","Softmax",
  "softmax of a dense or sparse matrix returns, as a dense matrix, exp(x) / (sum of the exp of the row) for every cell (cells that are not stored in a sparse matrix are zeros); all values are positive and every row sums to one. Exact arithmetic, any function exp with exp(a + b) = exp(a) exp(b) > 0.",
  "all matrices","all shapes and contents",["src/runtime/local/kernels/Softmax.h: softmax"])
p("C222","Softmax of a matrix without columns",
  "softmax of a dense matrix without columns returns a matrix without columns.",
  "all numbers of rows","boundary shapes",["src/runtime/local/kernels/Softmax.h: softmax"])
p("C223","Batch normalisation in training",
  "batch_norm2d_train returns gamma * (x - mean) / sqrt(var + eps) + beta with the mean and variance of each channel over all images and pixels, the updated moving averages of both, and the mean and inverse standard deviation (exact arithmetic, any square root function).",
  "all images, parameters","all shapes and contents",["src/runtime/local/kernels/BatchNorm2DTrainForward.h"])
p("C224","Batch normalisation in inference",
  "batch_norm2d_inference normalises each channel with the parameters of that channel.",
  "all images, parameters","all shapes",["src/runtime/local/kernels/BatchNorm2DTestForward.h"])
p("C225","Gradient of batch normalisation",
  "batch_norm2d_backward returns the gradients with respect to gamma, beta and the data: sums over all images and pixels of a channel, and for every cell the formula of the derivative of C223 (exact arithmetic).",
  "all images, gradients, parameters","all shapes and contents",["src/runtime/local/kernels/BatchNorm2DBackward.h"])
p("C226","Column labels inferred by the compiler are those of the run-time frame",
  "If the compiler infers the column labels of a frame computed by a DaphneDSL program of frame operations (createFrame, cbind, rbind, column and row selection, filter, join, cartesian product, grouping, ordering, labelling and others), then the frame has exactly these labels when the program is run.",
  "all programs of frame operations, all input frames, all hash table orders","arbitrary nesting of operations, arbitrary contents",["src/ir/daphneir/DaphneInferFrameLabelsOpInterface.cpp","src/runtime/local/kernels/CreateFrame.h","src/runtime/local/kernels/InnerJoin.h","src/runtime/local/kernels/Group.h"])
p("C227","Labels of joins with one input of unknown labels",
  "C226 also if the labels of one input of a cartesian product or inner join are unknown.",
  "all frames","all frames and keys",["src/ir/daphneir/DaphneInferFrameLabelsOpInterface.cpp"])
p("C228","Labels of groupings with wildcard keys",
  "C226 also for groupings whose keys contain the wildcard.",
  "all frames and keys","all frames, keys and aggregated columns",["src/ir/daphneir/DaphneInferFrameLabelsOpInterface.cpp","src/runtime/local/kernels/Group.h"])
p("C229","Label inference succeeds or leaves labels unknown",
  "For every program that runs, the compiler infers the column labels of each frame or leaves them unknown; it never crashes or rejects the program.",
  "all programs","all argument lists and unknown labels",["src/ir/daphneir/DaphneInferFrameLabelsOpInterface.cpp"])
p("C230","isSymmetric of dense matrices",
  "isSymmetric rejects a matrix that is not square; for a square dense matrix (also a view) it returns whether each cell equals the mirrored one.",
  "all dense matrices","all sizes and contents",["src/runtime/local/kernels/IsSymmetric.h"])
p("C231","isSymmetric of sparse matrices: what the answers mean",
  "isSymmetric rejects a sparse matrix that is not square and otherwise returns. If it returns true, each stored entry above the diagonal equals the mirrored cell; a symmetric matrix without stored zeros in which each row with a diagonal entry has another entry is found symmetric.",
  "all sparse matrices","all sizes, contents and views",["src/runtime/local/kernels/IsSymmetric.h"])
p("C232","isSymmetric of sparse matrices is exact",
  "isSymmetric of a sparse square matrix returns true exactly if the matrix is symmetric.",
  "all sparse matrices","all sizes and contents",["src/runtime/local/kernels/IsSymmetric.h"])
p("C233","Searching a matrix for a value",
  "hasSpecialValue returns true exactly if some cell of the matrix has the value (is NaN, if the value is NaN), for dense and sparse matrices, including views and stored zeros.",
  "all matrices and values","all sizes, contents and representations",["src/runtime/local/kernels/HasSpecialValue.h"])
SQ=["src/parser/sql/SQLVisitor.cpp","src/ir/daphneir/DaphneInferFrameLabelsOpInterface.cpp","src/runtime/local/kernels/InnerJoin.h","src/runtime/local/kernels/Group.h"]
p("C234","SQL queries without grouping",
  "sql(\"SELECT ... FROM ... JOIN ... WHERE ... ORDER BY ...\") with cross products, joins, nested arithmetic, comparisons, AND, OR, BETWEEN, `*`, `f.*` and AS returns exactly the labels and the rows, in the order, that the query means, if table names and aliases are unambiguous and the labels of the result are distinct.",
  "all queries, tables and arithmetic","all nestings of expressions, lists of tables and contents",SQ)
p("C235","SQL queries with GROUP BY",
  "A query with GROUP BY returns one row per group that satisfies HAVING, in the order of ORDER BY (or of the keys), and every item and HAVING may combine keys, aggregations of expressions (each as often as one likes, in any spelling) and literals.",
  "all queries, tables and arithmetic","all nestings, groups and contents",SQ)
p("C236","SQL aggregation of all rows",
  "A query without GROUP BY whose items are built from aggregations of columns returns one row with the values of the items.",
  "all queries, tables and arithmetic","all nestings and contents",SQ)
p("C237","SQL DISTINCT",
  "A query with DISTINCT (without GROUP BY) returns each row of the query without DISTINCT exactly once.",
  "all queries, tables","all nestings and contents",SQ)
p("C238","SQL DISTINCT with GROUP BY",
  "A query with DISTINCT and GROUP BY returns each row of the query without DISTINCT exactly once.",
  "all queries, tables","all queries",SQ)
p("C239","SQL DISTINCT with ORDER BY",
  "The rows of a query with DISTINCT and ORDER BY are in the order of ORDER BY.",
  "all queries, tables","all queries",SQ)
p("C240","SQL aliases name tables only for the rest of the query",
  "FROM t AS a reads the table t and calls it a, whatever other tables and aliases are called.",
  "all FROM clauses","all combinations of names",SQ)
p("C241","Every query accepted by the grammar is translated or rejected with an error",
  "Queries with count(1), != and literals beside aggregations get their value; a query that means nothing is rejected by an exception.",
  "all queries","all queries",SQ)
p("C242","SQL * with GROUP BY",
  "SELECT * with GROUP BY and aggregations stands for all columns.",
  "all queries","all queries",SQ)
p("C243","Escape sequences of string literals",
  "The value of a string literal in DaphneDSL and SQL is the sequence of characters that its text stands for (escape sequences for backspace, form feed, line feed, carriage return, tabulator, quotes and backslash), if no escaped backslash is followed by one of the letters or quotes that may follow a backslash.",
  "all string literals","strings of any length and content",["src/parser/daphnedsl/DaphneDSLVisitor.cpp: visitLiteral","src/parser/sql/SQLVisitor.cpp: createStringConstant"])
p("C244","Escaped backslash before a letter",
  "C243 also for literals with an escaped backslash before a letter, such as \"C:\\\\new\".",
  "all string literals","strings of any length and content",["src/parser/daphnedsl/DaphneDSLVisitor.cpp: visitLiteral"])
DV="src/parser/daphnedsl/DaphneDSLVisitor.cpp"
p("C245","Keyword arguments of functions",
  "A call f(a, b, z=c, y=d) passes the positional arguments to the first parameters and each keyword argument to the parameter of its name; it is accepted exactly if the keyword arguments fill the parameters that follow the positional ones without gaps and repetitions, and rejected by an exception otherwise (also if a positional argument follows a keyword argument).",
  "all parameter lists and argument lists","any number of parameters, any order of the arguments",[DV+": orderCallArguments"])
p("C246","Overloaded functions",
  "A call of a user-defined function goes to the first definition whose parameter types accept the types of the arguments in parameter order; if there is none, the call is rejected.",
  "all sets of definitions with the same parameter names, all calls","any number of definitions and types",[DV+": findMatchingUDF, argAndUDFParamCompatible, getUdfParamNames"])
p("C247","The most specific definition is called",
  "If one definition has a parameter without a type and another the exact type of the argument, the second is called.",
  "all sets of definitions, all calls","any number of definitions and types",[DV+": findMatchingUDF"])
p("C248","Valid calls are accepted",
  "Positional calls of functions whose definitions name their parameters differently, keyword arguments in recursive calls and keyword arguments of map are accepted.",
  "all definitions and calls","any number of definitions",[DV+": getUdfParamNames, handleMapOpCall"])
SG="src/compiler/lowering/SpecializeGenericFunctionsPass.cpp"
p("C249","Specialisation of functions keeps the meaning of programs",
  "Copying functions for the types, shapes and constants of the arguments of each call, reusing copies and removing functions that are not needed does not change the results and effects of a program, and each call goes to a copy with the types of its arguments, if the functions have a parameter without complete type (or, generally, if no call that is left goes to a function that was replaced).",
  "all programs with (mutually) recursive functions and branches, all inputs, all orders of the functions, with and without constant propagation","any call graph, any number of nested calls",[SG])
p("C250","Specialisation of functions with typed parameters",
  "C249 also for functions whose parameters have complete types.",
  "all programs and inputs","any call graph",[SG])
p("C251","Specialisation of functions ends",
  "Compilation of a program with recursive functions ends.",
  "all programs","any call graph",[SG])
p("C252","Functions with several returns",
  "A function where each path ends with one return is compiled to one with a single return at its end that returns the same values and has the same effects, if the results of the if-statements with returns are not used and nothing but a return follows an if-statement where a return is nested in a further if-statement; the compiler does not loop forever, and values are defined before they are used. Without the condition on results, what the compiler accepts has the same meaning.",
  "all functions with nested if-statements, all inputs and all operations with effects","any number of statements, any nesting",[DV+": rectifyEarlyReturns, rectifyEarlyReturn, rectifyIfCaseWithoutReturnOp, removeTrailingOperationsAfterReturnOp, visitFunctionStatement"])
p("C253","Returns in if-statements that assign variables",
  "C252 also if a variable that is assigned in an if-statement with a return is used after it.",
  "all functions","any nesting",[DV+": rectifyEarlyReturn, rectifyIfCaseWithoutReturnOp"])
p("C254","Returns in nested if-statements with statements after the outer one",
  "C252 also if statements follow an if-statement where a return is nested in a further if-statement (the example in the comment of the code).",
  "all functions","any nesting",[DV+": rectifyIfCaseWithoutReturnOp"])
p("C255","Functions where each path ends with a return are accepted",
  "A function where each path ends with one return is accepted.",
  "all functions","any nesting",[DV+": rectifyEarlyReturn"])
HF="src/compiler/lowering/HorizontalFusionPass.cpp"
VU="src/compiler/utils/VectorizationUtils.cpp"
p("C256","Fusion of pipelines that read the same matrix",
  "Fusing vectorized pipelines that read the same matrix does not change what a program computes: the compiler does not fail, values are defined before they are used, each print, write or other operation is executed once with the same operand values, if no pipeline depends on another one, the operation after each pipeline uses its result and no other pipeline, conditional code uses no results of pipelines, sharing of matrices is transitive and the matrices split by one pipeline have the same number of rows.",
  "all blocks with any number of pipelines and other operations, all inputs, all partitionings into tasks, all operations and combinations of partial results","any number of pipelines, of rows and of tasks",[HF,VU+": movePipelineInterleavedOperations, valueDependsOnResultOf, operationDependsOnResultOf"])
p("C257","Matrices are read by one pipeline only",
  "Under the conditions of C256, no two pipelines of a block split the same matrix after the fusion.",
  "all blocks with any number of pipelines","any number of pipelines and inputs",[HF])
p("C258","Fusion of pipelines one of which depends on another one",
  "C256 also if a pipeline depends on another one.",
  "all programs","any number of pipelines",[HF])
p("C259","Fusion if sharing is not transitive",
  "C256 also if a pipeline shares different matrices with different pipelines.",
  "all programs","any number of pipelines",[HF])
p("C260","Fusion with other operations after a pipeline",
  "C256 also if the operation after a pipeline does not use its result.",
  "all programs","any number of pipelines",[HF,VU+": movePipelineInterleavedOperations"])
p("C261","Fusion with conditional code between the pipelines",
  "C256 also if an if-statement or a loop between two pipelines uses the result of the first one.",
  "all programs","any number of pipelines",[HF,VU+": operationDependsOnResultOf"])
p("C262","Fusion keeps the order of effects",
  "The fusion of pipelines keeps the order of outputs.",
  "all programs","any number of pipelines",[HF,VU+": movePipelineInterleavedOperations"])
MMF="src/runtime/local/io/MMFile.h"
RMM="src/runtime/local/io/ReadMM.h"
p("C263","Dense matrices from Matrix Market files in coordinate format",
  "Reading a well-formed Matrix Market file in coordinate format (real, integer or pattern; general, symmetric or skew-symmetric; any case of the words in the first line; any comments and blank lines before the sizes) into a dense matrix gives a matrix of the announced size which has each given value at its position (and, for symmetric and skew-symmetric files, the same resp. the negated value at the mirrored position) and zeros elsewhere.",
  "all sizes below 2^31, all lists of entries in any order, all comments, all value types","any number of entries and lines",[MMF,RMM+": ReadMM<DenseMatrix<VT>>"])
p("C264","Dense matrices from Matrix Market files in array format",
  "C263 for files in array format: values column by column, for symmetric files from the diagonal on, for skew-symmetric ones below the diagonal (which is zero).",
  "all sizes, all values, all value types","any number of values",[MMF,RMM+": ReadMM<DenseMatrix<VT>>"])
p("C265","Sparse matrices from Matrix Market files",
  "Reading a well-formed Matrix Market file of either format into a CSR matrix gives a matrix of the announced size with well-formed row offsets, rows sorted by column without duplicates, and exactly the entries of the file (including mirrored ones).",
  "all sizes, all lists of entries in any order, all value types","any number of entries",[MMF,RMM+": ReadMM<CSRMatrix<VT>>"])
p("C266","Frames from Matrix Market files",
  "Reading a well-formed Matrix Market file of either format into a frame gives a frame of the announced size with the given values, converted to 64-bit integers if the file says integer, and zeros elsewhere.",
  "all sizes, all lists of entries","any number of entries",[MMF,RMM+": ReadMM<Frame>"])
p("C267","Blank lines in Matrix Market files",
  "A blank line at the end of a Matrix Market file makes no difference.",
  "all files","any number of lines",[MMF+": MMIterator::readEntry"])
p("C268","White space in Matrix Market files",
  "White space before and between the numbers of an entry makes no difference.",
  "all files","any number of lines",[MMF+": MMIterator::readEntry"])
p("C269","Files that are not supported Matrix Market files are rejected",
  "A missing file, a file without a banner and one with complex or Hermitian entries is rejected with an error.",
  "all files","any content",[MMF+": mm_read_banner, MMFile::MMFile"])
p("C270","Matrix Market files without a final newline",
  "The last line of a Matrix Market file need not end with a newline.",
  "all files","any number of lines",[MMF+": MMIterator::readEntry"])
p("C271","64-bit integers in Matrix Market files",
  "C263 and C264 for all values of 64-bit integers.",
  "all 64-bit integers","the range of values",[MMF+": MMIterator::readEntry","src/runtime/local/io/utils.h: convertCstr"])
p("C272","Matrix Market files with wrong indices or counts are rejected",
  "A Matrix Market file with indices outside of the announced size or fewer entries than announced is rejected with an error.",
  "all files","any number of entries",[MMF,RMM])

MDP="src/parser/metadata/MetaDataParser.cpp"; RDK="src/runtime/local/kernels/Read.h"; WRK="src/runtime/local/kernels/Write.h"
p("C273","Meta data files round-trip",
  "Meta data of a matrix (dimensions, value type, number of non-zeros) or a frame (dimensions, value types and labels of the columns) that are written to a meta data file are read back unchanged; of an HDFS file name the last component comes back, with a slash in front.",
  "all dimensions, schemas of any length, all labels, all numbers of non-zeros","any number of columns, arbitrary labels",[MDP+": writeMetaDataToString, readMetaDataFromString"])
p("C274","Accepted meta data files are complete",
  "If a meta data file is accepted, it contains numbers for numRows and numCols, which are the dimensions, and either a value type, or a schema each element of which has a label and either a known value type or (else) the known value type given for the whole file; the value types and labels of the result are exactly these, in the order of the schema.",
  "all JSON documents","arbitrary documents",[MDP+": readMetaDataFromString"])
p("C275","read returns what write has stored in CSV files",
  "After write(X, f) with a file name with extension .csv succeeds, read(f) returns a matrix or frame with the same dimensions, values, value types and labels, whatever files existed before.",
  "all file systems, all file names with extension .csv, all non-empty integer matrices (64-bit values in the range of int) and frames with integer and string columns","any size, any content",[WRK,RDK,MDP])
p("C276","write touches only the file and its meta data",
  "write changes at most the named file and the file with .meta appended, also if it fails; with an unsupported extension it changes nothing and throws; after success the meta data file describes the matrix.",
  "all file systems, names, matrices and frames","any content",[WRK])
p("C277","Meta data with fixed-size strings",
  "C273 for columns of fixed-size strings.",
  "all frames with such columns","any number of columns",["src/parser/metadata/MetaDataParser.h: NLOHMANN_JSON_SERIALIZE_ENUM"])
p("C278","Frames with empty labels",
  "As documented (doc/FileMetaDataFormat.md, Data Frame Meta Data with Empty Labels), a frame can be read if all labels in the meta data are empty.",
  "all frames","any number of columns",[RDK+": Read<Frame>","doc/FileMetaDataFormat.md"])
p("C279","Meta data with a wrong number of columns are rejected",
  "Meta data whose schema has fewer elements than numCols are rejected with an error.",
  "all meta data","any number of columns",[RDK+": Read<Frame>",MDP])
p("C280","Malformed meta data are rejected",
  "Meta data with an unknown value type of a matrix or dimensions that are not natural numbers are rejected with an error when they are read.",
  "all JSON documents","arbitrary documents",[MDP+": readMetaDataFromString"])
p("C281","The compiler knows shape, types and labels of data to be read",
  "As long as the meta data file is not changed between compilation and execution, the shape inferred for readMatrix/readFrame is the one of the object read, and so are the value types and labels if the schema has numCols elements.",
  "all file systems and names","any content",["src/ir/daphneir/DaphneInferShapeOpInterface.cpp: ReadOp::inferShape","src/ir/daphneir/DaphneInferTypesOpInterface.cpp: ReadOp::inferTypes","src/ir/daphneir/DaphneInferFrameLabelsOpInterface.cpp: ReadOp::inferFrameLabels"])
p("C282","Reading a file that the same script has written",
  "C281 for scripts that write a file and read it afterwards.",
  "all scripts, all file systems","any content",["src/ir/daphneir/DaphneInferShapeOpInterface.cpp: ReadOp::inferShape",WRK])
WDF="src/runtime/local/io/WriteDaphne.h"; RDF="src/runtime/local/io/ReadDaphne.h"
p("C283","Binary files of frames",
  "A frame of numbers whose labels have at most 32 bytes that is written to a DAPHNE binary file is read back with the same dimensions, value types and values; frames with columns of strings are rejected with an error.",
  "all dimensions, schemas and values","any number of rows and columns",[WDF+": WriteDaphne<Frame>",RDF+": ReadDaphne<Frame>"])
p("C284","Labels of frames in binary files",
  "The labels of a frame survive being written to and read from a DAPHNE binary file.",
  "all frames","any labels",[WDF+": WriteDaphne<Frame>",RDF+": ReadDaphne<Frame>"])
p("C285","Long labels in binary files",
  "Frames with labels of any length can be written to DAPHNE binary files.",
  "all frames","any labels",[WDF+": WriteDaphne<Frame>"])
p("C286","Files that are not binary files of frames are rejected",
  "Reading a frame from a DAPHNE binary file of a matrix or a truncated, empty or missing file is an error.",
  "all files","any content",[RDF+": ReadDaphne<Frame>"])
NDA="src/runtime/local/kernels/NumDistinctApprox.h"
UBS="src/util/UniqueBoundedSet.h"
p("C287","Few distinct values are counted exactly",
  "If a matrix has fewer distinct (hashed) values than the parameter K, the approximate number of distinct values is their exact number, for dense matrices, views and sparse matrices, where the cells without entry count as the value zero.",
  "all matrices, hash functions and K","any number, order and repetition of values",[NDA+": NumDistinctApprox",UBS+": UniqueBoundedSet"])
p("C288","The estimate of the number of distinct values",
  "With at least K distinct hash values, the approximate number of distinct values is K - 1 or an estimate from a hash value with at least K - 1 smaller ones, and without repeated values it is the estimate from the K-th smallest hash value.",
  "all matrices, hash functions and K > 0","any number and order of values",[NDA+": NumDistinctApprox",UBS+": push, pop, top"])
p("C289","The approximate number of distinct values does not depend on the order",
  "Two matrices with the same values in a different order have the same approximate number of distinct values.",
  "all matrices and K","any order",[UBS+": push"])
p("C290","Every parameter of the approximate number of distinct values is safe",
  "The approximate number of distinct values is defined (or an error) for every K.",
  "all matrices and K","any K",[NDA+": NumDistinctApprox",UBS+": top"])
CTH="src/runtime/local/datastructures/ContiguousTensor.h"
p("C291","Element access of tensors",
  "Reading and writing a cell of a tensor by its indexes checks the number and the range of the indexes; a written value is read back from its cell and no other cell changes, whatever the rank and extents.",
  "all tensors, indexes and values","unbounded rank and extents",[CTH+": tryGet, get, trySet, set"])
p("C292","New tensors are initialised",
  "A new tensor has the given extents and the wanted initial values (zero, maximum, minimum, or the position); an extent zero is refused.",
  "all shapes and kinds of initialisation","unbounded rank and extents",[CTH+": ContiguousTensor(shape, init_code)","src/runtime/local/datastructures/Tensor.h: Tensor"])
p("C293","Dicing tensors",
  "Dicing a tensor returns the cells within the given index ranges (upper bounds exclusive), and nothing if a range is empty, reversed or beyond the extent, or if their number is not the rank.",
  "all tensors and ranges","unbounded rank and extents",[CTH+": tryDice"])
p("C294","Tensors made from matrices",
  "The tensor made from a dense matrix or a view of one has the cells of the matrix.",
  "all dense matrices and views","any size",[CTH+": ContiguousTensor(const DenseMatrix *)"])
p("C295","Matrices made from tensors",
  "A tensor of rank two that owns contiguous memory converts to the dense matrix with the same cells; tensors of other ranks are refused.",
  "all tensors","any extents",[CTH+": tryToGetDenseMatrix"])
p("C296","Comparing tensors",
  "Two tensors that own contiguous memory are equal exactly if they have the same extents and the same cells.",
  "all pairs of tensors","any extents and values",[CTH+": operator=="])
p("C297","Removing a last dimension of extent one",
  "reduceRank does not change a tensor without extent one; if only the last extent is one it is removed, and the cells stay the same.",
  "all tensors","unbounded rank",[CTH+": reduceRank"])
p("C298","Removing any dimension of extent one",
  "reduceRank removes all extents one from a tensor.",
  "all tensors","any position of the extents one",[CTH+": reduceRank"])
p("C299","Tensors made from views convert back and compare",
  "The tensor made from a view of a matrix converts back to a matrix with the same cells and equals the tensors with the same cells.",
  "all views","any view",[CTH+": tryToGetDenseMatrix, operator=="])
p("C300","Writing the cell of a tensor of rank zero",
  "The cell of a tensor of rank zero can be written.",
  "all tensors of rank zero","any value",[CTH+": trySet, set"])
FST="src/runtime/local/datastructures/FixedSizeStringValueType.h"
p("C301","Fixed-size strings behave like strings",
  "A text of at most 15 bytes stored as a fixed-size string keeps its length and content, and equality, order, concatenation, hash and case conversion agree with those of the texts; longer texts are refused.",
  "all pairs of texts","any content and length",[FST+": FixedStr16"])
p("C302","Printing fixed-size strings",
  "Printing a fixed-size string writes its text.",
  "all texts","any text",[FST+": operator<<"])
p("C303","Fixed-size strings with NUL bytes",
  "Fixed-size strings made of strings with NUL bytes are totally ordered, consistently with equality, and keep their content.",
  "all strings","any content",[FST+": operator<, operator==, to_string"])
ISP="src/ir/daphneir/DaphneInferSparsityOpInterface.cpp"
DDI="src/ir/daphneir/DaphneDialect.cpp"
p("C304","Inferred sparsities are valid",
  "For arguments with valid types, the sparsity the compiler infers for a result is unknown or between zero and one, so that the result type is valid: element-wise operations, matrix multiplication, triangles, transpose, reshape, diagonal matrices of vectors of known length, random matrices with a valid sparsity, and files with a valid number of non-zeros.",
  "all operations with sparsity inference, all sparsities and extents","continuum of values",[ISP+": tryInferSparsity","src/ir/daphneir/DaphneOps.td"])
p("C305","Inferred sparsities are exact where they can be",
  "For matrix literals, transpose, reshape and diagonal matrices, the sparsity in the result type is the fraction of non-zeros of the result, if that of the argument type is the one of the argument; an unknown one stays unknown (transpose, reshape) or becomes an upper bound (diagonal matrix).",
  "all matrices of any size and value type","any content and size",[ISP+": MatrixConstantOp::inferSparsity, DiagMatrixOp::inferSparsity, tryInferSparsity"])
p("C306","Inferred sparsities are always valid",
  "The inferred sparsity is valid without conditions on constants in the script, on meta data and on unknown or zero extents.",
  "all operations with sparsity inference","continuum of values",[ISP+": DiagMatrixOp::inferSparsity, ReadOp::inferSparsity, tryInferSparsity"])
p("C307","Inferred symmetry is right",
  "If the compiler infers that a constant matrix or a transposed matrix is symmetric (not symmetric), then it is (is not).",
  "all shapes, known or not, and all matrices","any shape",["src/ir/daphneir/DaphneInferSymmetricOpInterface.cpp"])
p("C308","Types survive the textual form of the IR",
  "Reading the text of a matrix, column, handle or string type gives the type again, and leaves what follows it (the IR is sent to distributed workers as text).",
  "all value types, extents, sparsities, representations and symmetries, except for unknown value types and those extents of zero that make the text ambiguous","unbounded extents and all combinations",[DDI+": printType, parseType"])
p("C309","Types with zero rows or columns survive the textual form of the IR",
  "The same holds for types of matrices and columns without rows or columns.",
  "all such types","all combinations",[DDI+": printType, parseType"])
p("C310","All types survive the textual form of the IR",
  "The same holds for frames, lists, and the other types of the dialect.",
  "all such types","all combinations",[DDI+": printType, parseType"])
p("C311","Requested types",
  "After any history of requests for matrix types in a context, requesting a type gives one with the requested value type, extents, representation and symmetry, and with a sparsity that is unknown if and only if the requested one is and differs from it by less than one millionth.",
  "all histories of requests","unbounded histories",[DDI+": MatrixTypeStorage::operator==, MatrixTypeStorage::hashKey","src/ir/daphneir/DaphneTypeStorage.h"])
p("C312","Types are values",
  "Requesting a matrix type gives the requested type, whatever was requested before; equality of types is an equivalence and equal types have equal hash values.",
  "all histories of requests","unbounded histories",[DDI+": MatrixTypeStorage::operator==, MatrixTypeStorage::hashKey"])
KCH="src/compiler/catalog/KernelCatalog.h"
RCK="src/compiler/lowering/RewriteToCallKernelOpPass.cpp"
p("C313","The chosen kernel",
  "Looking up a kernel for an operation, parameter types, result types and backend finds the kernel with the highest priority among those registered for exactly these, the first registered one of several; none is found exactly if there is none.",
  "all histories of kernel registrations (built-in catalog and extensions), operations, types and backends","unbounded catalogs and histories",[KCH+": registerKernel, findKernel"])
p("C314","What kernel look-up depends on",
  "Two types are looked up as the same exactly if their run-time objects have the same C++ class: value type, representation and rank matter, shape, sparsity, symmetry, labels and frame schema do not.",
  "all types, lists nested to any depth","unbounded nesting",[KCH+": normalizeTypeForKernelLookup"])
p("C315","Operations become calls of applicable kernels",
  "An operation without a kernel hint becomes a call of the applicable kernel with the highest priority for the backend it is marked for. The operands are passed in order (the occurrences of a variadic operand as an array with its size), followed by the call id and the context. The kernel's library is the only one newly marked as used. If a kernel is applicable, there is no error.",
  "all catalogs, operations, numbers of occurrences of variadic operands","unbounded operand lists and catalogs",[RCK+": KernelReplacement::matchAndRewrite",KCH])
p("C316","Missing variadic operands are refused",
  "An operation with a variadic operand that has no occurrence is refused by the lowering, except for a grouping without aggregates.",
  "all operations, catalogs and states","unbounded operand lists",[RCK+": KernelReplacement::matchAndRewrite"])
p("C317","Kernel hints are checked",
  "An operation with a kernel hint is only lowered to a kernel that is applicable to its operand and result types.",
  "all operations with hints and catalogs","unbounded catalogs",[RCK+": KernelReplacement::matchAndRewrite"])
p("C318","All occurrences of a variadic operand fit the kernel",
  "Every object in the array passed for a variadic operand is of the class the kernel expects.",
  "all operations with variadic operands","unbounded operand lists",[RCK+": KernelReplacement::matchAndRewrite","src/ir/daphneir/DaphneInferTypesOpInterface.cpp: CreateListOp::inferTypes"])
p("C319","Type names in kernel catalogs are unambiguous",
  "Two types have the same name in kernel catalog files exactly if their run-time objects have the same C++ class, and every type of known value type has a name.",
  "all types, lists nested to any depth","unbounded nesting",["src/compiler/utils/CompilerUtils.h: mlirTypeToCppTypeName"])
p("C320","Loading kernel catalog files",
  "Loading a catalog file registers its kernels in order, after the existing ones, with the types their type names stand for and the priority of the file (entries of two operations are skipped); the first entry with an unknown type name ends it with an error and the kernels before stay registered.",
  "all catalog files, priorities and catalogs loaded before","unbounded files",["src/parser/catalog/KernelCatalogParser.cpp: KernelCatalogParser, mapTypes, parseKernelCatalog"])
p("C321","Call ids identify kernel calls",
  "Kernel calls get distinct ids, none of them zero; the id of a call leads to its kernel's name and source location (for an operation without one, that of the last one before).",
  "all sequences of kernel calls whose first has a location","unbounded sequences",["src/util/KernelDispatchMapping.cpp"])
p("C322","Call ids never lead to another operation",
  "The location reported for a kernel call is that of its operation, and asking for an operation without location is safe.",
  "all sequences of kernel calls","unbounded sequences",["src/util/KernelDispatchMapping.cpp"])
p("C323","Casts for kernels of uniform value type",
  "For operations on scalars, matrices and columns, casts are inserted exactly for the operands the operation's trait concerns that do not have the target value type (the most general one of the operands, or that of the result); casts keep all other properties of the type, other operands stay, and a second run changes nothing.",
  "all traits, operand lists and types","unbounded operand lists",["src/compiler/inference/AdaptTypesToKernelsPass.cpp","src/compiler/inference/TypeInferenceUtils.cpp: generality, mostGeneralVt"])
p("C324","Casts of list operands keep lists",
  "A cast inserted for a list operand only changes the value type.",
  "all lists of matrices","all types",["src/compiler/inference/AdaptTypesToKernelsPass.cpp","src/compiler/utils/CompilerUtils.h: setValueType"])
p("C325","Recorded sparsities are exact",
  "With property recording, the sparsity recorded for an intermediate result with at least one cell is exactly the fraction of its cells that are not zero, for dense matrices including views, and for CSR matrices that start at the beginning of their arrays; explicitly stored zeros are not counted.",
  "all matrices, representations and views","all matrices",["src/runtime/local/kernels/RecordProperties.h"])
p("C326","Recorded sparsities of row views and empty matrices",
  "The recorded sparsity is that of the matrix also for row views of CSR matrices and for matrices without cells.",
  "all CSR row views, all empty matrices","all views",["src/runtime/local/kernels/RecordProperties.h","src/runtime/local/datastructures/CSRMatrix.h: getValues"])
p("C327","Recorded properties find their values again",
  "The matrix-typed results of main outside of loops and branches are numbered 1, 2, 3, ... in program order; when the recorded properties are inserted into the same program, each result is matched with the entry recorded for it, whatever the order of the file, and exactly one cast with that sparsity is put behind each loop or branch per matrix-typed result.",
  "all programs, recordings and file orders","unbounded programs",["src/compiler/explanation/RecordPropertiesPass.cpp","src/compiler/explanation/InsertPropertiesPass.cpp"])
p("C328","Inserted properties are seen by later operations",
  "After inserting recorded data properties, the operations that use a result see its recorded sparsity.",
  "all programs and recordings","unbounded programs",["src/compiler/explanation/InsertPropertiesPass.cpp"])
p("C329","An entry without a number affects only its own result",
  "If the recorded sparsity of one result is missing or null, the properties of all other results are still inserted.",
  "all programs and recordings","unbounded programs",["src/compiler/explanation/InsertPropertiesPass.cpp"])
p("C330","Configuration files are applied exactly",
  "A configuration file with an undocumented key or a value of the wrong type is rejected, naming such a key; any other is accepted, the settings named in it have exactly the values given there, and all other settings keep their values.",
  "all configuration files and initial settings","53 keys, arbitrary files",["src/parser/config/ConfigParser.cpp: readUserConfig, checkAnyUnexpectedKeys","src/parser/config/JsonParams.h","src/api/cli/DaphneUserConfig.h"])
p("C331","Options on the command line win",
  "Options given on the command line override the configuration file, whatever it says (options for the number of threads, the library directory, HDFS and tile sizes: with any value but their default).",
  "all files and command lines","all combinations of settings",["src/api/internal/daphne_internal.cpp: startDAPHNE","src/parser/config/ConfigParser.cpp"])
p("C332","Settings of the configuration file take effect",
  "Settings of the configuration file for which there is no option, and those for the number of threads, HDFS, fixed tile sizes, CUDA, explanations and the library directory, take effect if the option for them is not given.",
  "all files and command lines","all combinations of settings",["src/api/internal/daphne_internal.cpp: startDAPHNE","src/parser/config/ConfigParser.cpp"])
p("C333","All settings of the configuration file take effect",
  "Every setting of the configuration file takes effect if the option for it is not given.",
  "all files and command lines","all combinations of settings",["src/api/internal/daphne_internal.cpp: startDAPHNE","src/parser/config/ConfigParser.cpp"])
p("C334","Options with their default value win",
  "An option that is given explicitly with its default value overrides the configuration file.",
  "all files and command lines","all combinations of settings",["src/api/internal/daphne_internal.cpp: startDAPHNE","src/parser/config/ConfigParser.cpp"])
p("C335","A missing configuration file is reported",
  "A configuration file that is named on the command line and cannot be opened is an error.",
  "all file names and command lines","all command lines",["src/api/internal/daphne_internal.cpp: startDAPHNE","src/parser/config/ConfigParser.cpp"])
p("C336","Script arguments",
  "Script arguments are accepted exactly if each is of the form name=value and no name occurs twice among those behind the script and those of --args; the script gets exactly these names and values, a value being everything behind the first equals sign.",
  "all lists of texts","unbounded texts",["src/api/internal/daphne_internal.cpp: parseScriptArgs, startDAPHNE"])
p("C337","Priorities of kernel extensions",
  "A kernel extension with a colon is accepted exactly if the last colon is followed by an integer of 64 bits, which is its priority; everything in front of it is the catalog file; without colon the priority is 0.",
  "all texts","unbounded texts",["src/api/internal/daphne_internal.cpp: parseScriptArgs, startDAPHNE"])
p("C338","Catalog files whose path contains a colon",
  "A catalog file of a kernel extension can be given without a priority, whatever its path.",
  "all paths","unbounded texts",["src/api/internal/daphne_internal.cpp: parseScriptArgs, startDAPHNE"])
p("C339","The library directory is resolved",
  "A leading {exedir}/ of the library directory is replaced by the directory of the executable if a relative path follows; other paths are not changed.",
  "all paths and directories","unbounded texts",["src/api/cli/DaphneUserConfig.h: resolveLibDir"])
p("C340","The placeholder is replaced in front of any path",
  "A leading {exedir}/ is replaced by the directory of the executable whatever follows.",
  "all paths","unbounded texts",["src/api/cli/DaphneUserConfig.h: resolveLibDir"])
p("C341","Options that cannot be honoured are refused",
  "Once the configuration file is accepted, a run is refused exactly if the options contradict each other or ask for something this build does not have (columnar execution for optimistic splitting, recording and inserting properties at a time, HDFS, MPI, PAPI).",
  "all builds, files and command lines","all combinations of settings",["src/api/internal/daphne_internal.cpp: startDAPHNE","src/parser/config/ConfigParser.cpp"])
p("C342","Lowered kernel calls do what the program says",
  "In every run of a compiled function, with any nesting of loops and branches, each kernel is called with its operands in their order, the elements of variadic operands in theirs, and null for each result that is an object, also when the call is repeated; the results of the operation are those the kernel produced.",
  "all functions, kernels, states and runs","unbounded programs and runs",["src/compiler/lowering/LowerToLLVMPass.cpp: CallKernelOpLowering, CreateVariadicPackOpLowering, StoreVariadicPackOpLowering"])
p("C343","String constants reach the kernels",
  "String constants without null characters reach the kernels unchanged, and no other memory is written for them.",
  "all strings and memories","unbounded strings",["src/compiler/lowering/LowerToLLVMPass.cpp: ConstantOpLowering"])
p("C344","Pipelines compute with their inputs",
  "In every task of a vectorized pipeline on CPUs, the body computes with exactly the inputs of the pipeline, each in its place: scalars with their values, objects themselves or views of the rows of the task, with the right reference counts; the kernel gets the extents of results, splits and combines in their order.",
  "all pipelines, scalar types, values and tasks","all values",["src/compiler/lowering/LowerToLLVMPass.cpp: VectorizedPipelineOpLowering, StoreVariadicPackOpLowering","src/runtime/local/vectorized/Tasks.h: createFuncInputs","src/runtime/local/kernels/VectorizedPipeline.h"])
p("C345","Single-precision scalars in CUDA pipelines",
  "Scalars in single precision have the same value in CUDA pipelines.",
  "all single-precision numbers","all values",["src/compiler/lowering/LowerToLLVMPass.cpp: VectorizedPipelineOpLowering"])
p("C346","Strings in pipelines",
  "String scalars can be passed to vectorized pipelines.",
  "all strings","all strings",["src/compiler/lowering/LowerToLLVMPass.cpp: VectorizedPipelineOpLowering, StoreVariadicPackOpLowering","src/runtime/local/vectorized/Tasks.h: createFuncInputs","src/runtime/local/kernels/VectorizedPipeline.h"])
p("C347","Vectorization accepts all result types",
  "Every program that can be compiled without vectorization can be compiled with it, whatever the types of results of its pipelines.",
  "all lists of result types","unbounded lists",["src/compiler/lowering/LowerToLLVMPass.cpp: VectorizedPipelineOpLowering"])
p("C348","Queries read the views registered last",
  "If views are registered outside of branches and loops, every executed query, wherever it is, reads the frames that were registered last under the names it mentions; programs without control flow are rejected only if a query of theirs comes before the registration.",
  "all programs with branches and loops, all frames","unbounded programs, numbers of iterations and histories of registrations",["src/compiler/lowering/RewriteSqlOpPass.cpp: SqlReplacement, tables"])
p("C349","Registrations in branches and loops",
  "Every executed query reads the frames that were registered last by the time of its execution, also if views are registered in branches and loops.",
  "all programs with branches and loops","depends on the path taken",["src/compiler/lowering/RewriteSqlOpPass.cpp: SqlReplacement, tables"])
p("C350","Registrations end with the program",
  "A program can only query the views that it registers itself, also if the process has compiled other programs before.",
  "all sequences of programs compiled by one process","histories of a process",["src/compiler/lowering/RewriteSqlOpPass.cpp: SqlReplacement, tables"])
p("C351","Strings are freed exactly once",
  "A string is freed exactly when its last reference is given up, and only then, whatever the order in which threads duplicate and give up references, and also if a new string gets the address of one freed before.",
  "all histories of calls, by any number of threads","unbounded interleavings and address reuse",["src/util/StringRefCount.cpp: StringRefCounter::inc, dec","src/runtime/local/kernels/IncRef.h","src/runtime/local/kernels/DecRef.h"])
p("C352","Pipelines sent to workers compute the same",
  "A pipeline rewritten for distributed execution has the non-constant inputs of the original in their order, each with its own split, and the function sent to the workers computes from their parts what the original body computes from the parts of all inputs.",
  "all bodies, inputs, constants and parts","unbounded bodies and inputs",["src/compiler/lowering/DistributePipelinesPass.cpp: DistributePipelines"])
p("C353","Exchange with numpy",
  "A C-contiguous numpy array is received as the matrix it shows, sharing its memory; a matrix whose rows lie next to each other is returned to Python as an array that shows it.",
  "all shapes, offsets and contents","all shapes and layouts",["src/runtime/local/kernels/ReceiveFromNumpy.h","src/runtime/local/kernels/SaveDaphneLibResult.h","src/api/python/daphne/context/daphne_context.py: from_numpy","src/api/python/daphne/operator/operation_node.py: compute"])
p("C354","Any numpy array can be received",
  "A two-dimensional numpy array of any strides (such as a transposed one) is received as the matrix it shows.",
  "all strides","all layouts",["src/runtime/local/kernels/ReceiveFromNumpy.h","src/runtime/local/kernels/SaveDaphneLibResult.h","src/api/python/daphne/context/daphne_context.py: from_numpy","src/api/python/daphne/operator/operation_node.py: compute"])
p("C355","Any matrix can be returned to numpy",
  "A matrix that is a range of columns of another one is returned to Python as an array that shows it.",
  "all ranges of columns","all layouts",["src/runtime/local/kernels/ReceiveFromNumpy.h","src/runtime/local/kernels/SaveDaphneLibResult.h","src/api/python/daphne/context/daphne_context.py: from_numpy","src/api/python/daphne/operator/operation_node.py: compute"])
p("C356","Arrays of 16-bit integers can be received",
  "A numpy array of 16-bit integers is received as the matrix of 32-bit integers with the same values.",
  "all arrays","all contents",["src/runtime/local/kernels/ReceiveFromNumpy.h","src/runtime/local/kernels/SaveDaphneLibResult.h","src/api/python/daphne/context/daphne_context.py: from_numpy","src/api/python/daphne/operator/operation_node.py: compute"])
p("C357","Matrices reach generated code",
  "A matrix whose rows lie next to each other is seen by generated code as it is, and converting to generated code and back changes nothing.",
  "all shapes and contents","all layouts",["src/runtime/local/kernels/ConvertDenseMatrixToMemRef.h","src/runtime/local/kernels/ConvertMemRefToDenseMatrix.h"])
p("C358","Ranges of columns reach generated code",
  "A matrix that is a range of columns of another one is seen by generated code as it is.",
  "all ranges of columns","all layouts",["src/runtime/local/kernels/ConvertDenseMatrixToMemRef.h","src/runtime/local/kernels/ConvertMemRefToDenseMatrix.h"])
p("C359","Sparse matrices reach generated code",
  "The buffers of a sparse matrix, also of a range of rows of another one, passed to generated code and back make a matrix with the same contents.",
  "all sparse matrices and row views","all layouts",["src/runtime/local/kernels/ConvertCSRMatrixToValuesMemRef.h","src/runtime/local/kernels/ConvertCSRMatrixToColIdxsMemRef.h","src/runtime/local/kernels/ConvertCSRMatrixToRowOffsetsMemRef.h","src/runtime/local/kernels/ConvertSparseBuffersToMatrix.h"])
p("C360","map calls the function once per cell",
  "map calls the user-defined function exactly once per cell, row by row from left to right, each call in the state the previous one has left; the result consists of the returned values, and a failing call ends it.",
  "all dense matrices and views, all functions with effects","all functions and states",["src/runtime/local/kernels/Map.h: Map"])
p("C361","Elements of chunked tensors",
  "Writing an element of a chunked tensor makes it visible to checked and unchecked reads and changes no other element, also if the chunks do not divide the tensor evenly; a new tensor shows its initial value everywhere, or nothing if it has none; checked writes outside of the tensor change nothing.",
  "all ranks, extents, chunk shapes, indexes and values","unbounded ranks and extents",["src/runtime/local/datastructures/ChunkedTensor.h: ChunkedTensor::ChunkedTensor, get, tryGet, set, trySet"])
p("C362","Checked reads outside of chunked tensors",
  "A checked read outside of a chunked tensor answers nothing.",
  "all indexes outside of the tensor","all extents and indexes",["src/runtime/local/datastructures/ChunkedTensor.h: ChunkedTensor::tryGet"])
p("C363","Equality of chunked tensors",
  "Chunked tensors of the same shape whose elements are all loaded and the same are equal.",
  "all tensors and all contents of memory behind the last elements","depends on memory that no element shows",["src/runtime/local/datastructures/ChunkedTensor.h: ChunkedTensor::operator=="])
p("C364","Writing chunks a tensor does not have",
  "A checked write of a chunk that the tensor does not have is refused.",
  "all chunk indexes outside of the tensor","all extents and indexes",["src/runtime/local/datastructures/ChunkedTensor.h: ChunkedTensor::trySetChunk"])
p("C365","Chunked tensors from matrices",
  "A chunked tensor made from a matrix shows its cells.",
  "all matrices and chunk shapes","all matrices",["src/runtime/local/datastructures/ChunkedTensor.h: ChunkedTensor::ChunkedTensor(const DenseMatrix*, size_t, size_t)"])
p("C366","Writing tensors of rank zero",
  "An unchecked write of the only element of a chunked tensor of rank zero makes it visible.",
  "all tensors of rank zero and values","undefined behaviour that tests do not show",["src/runtime/local/datastructures/ChunkedTensor.h: ChunkedTensor::set"])
p("C367","Reversal of bytes","Reversing the bytes of elements read from a file of the other byte order exchanges byte j with byte size-1-j of each element and changes no other memory.","all memories, elements and sizes of elements","all memories",["src/runtime/local/datastructures/ChunkedTensor.h: ReverseArray"])
p("C368","Writing whole chunks",
  "Writing an existing chunk of a chunked tensor makes its values visible, each element the value at its place inside the chunk, and changes nothing that is seen of other chunks, also if the chunk overhangs the tensor.",
  "all ranks, extents, chunk shapes, chunks and values","unbounded ranks and extents",["src/runtime/local/datastructures/ChunkedTensor.h: ChunkedTensor::trySetChunk"])
p("C369","Equal chunked tensors have equal elements",
  "The comparison of chunked tensors of rank at least one always returns; if it says yes, shapes agree, all elements are loaded and corresponding elements are the same, and if the chunks divide the tensor evenly, it says yes whenever this is so.",
  "all pairs of chunked tensors of rank at least one, all contents","unbounded ranks and extents",["src/runtime/local/datastructures/ChunkedTensor.h: ChunkedTensor::operator=="])
p("C370","Rechunking keeps the elements",
  "Changing the chunks of a chunked tensor whose elements are all loaded changes no element, whatever the old and new chunk shapes; it is refused, without any change, if the number of extents is wrong or some element has not been loaded.",
  "all ranks of at least one, extents, old and new chunk shapes without zeros, contents","unbounded ranks and extents",["src/runtime/local/datastructures/ChunkedTensor.h: ChunkedTensor::tryRechunk"])
p("C371","Reading after rechunking",
  "After a successful change of the chunks, a checked read of any element returns it.",
  "all tensors and new chunk shapes","memory outside of an allocation, only for some shapes",["src/runtime/local/datastructures/ChunkedTensor.h: ChunkedTensor::tryRechunk, tryGet"])
p("C372","Parts of chunked tensors",
  "A part of a chunked tensor shows the elements of the ranges it was made from, in any number of dimensions.",
  "all ranks, ranges and new chunk shapes","all shapes; uninitialised memory that often looks right",["src/runtime/local/datastructures/ChunkedTensor.h: ChunkedTensor::tryDice"])
p("C373","Parts of one-dimensional chunked tensors",
  "The part of a one-dimensional chunked tensor shows exactly the elements of the range if all of them are loaded, whatever the new chunks; otherwise there is no part.",
  "all tensors, ranges and new chunk extents","unbounded extents",["src/runtime/local/datastructures/ChunkedTensor.h: ChunkedTensor::tryDice"])
p("C374","Ranges of chunks show their elements",
  "A tensor made from a range of chunks shows the elements of these chunks to checked reads.",
  "all ranks, ranges and contents","all shapes",["src/runtime/local/datastructures/ChunkedTensor.h: ChunkedTensor::tryDiceAtChunkLvl"])
p("C375","Asking for a range of chunks changes nothing",
  "Making a tensor from a range of chunks does not change what the original shows.",
  "all tensors and ranges","depends on which chunks are loaded",["src/runtime/local/datastructures/ChunkedTensor.h: ChunkedTensor::tryDiceAtChunkLvl"])
p("C376","Comparing contiguous and chunked tensors","A contiguous and a chunked tensor of rank at least one compare as equal exactly if they have the same shape, all elements of the chunked one are loaded, and corresponding elements are the same.","all pairs of tensors of rank at least one, any chunk shape, views included","unbounded ranks and extents",["src/runtime/local/datastructures/ChunkedTensor.h: areLogicalElementsEqual"])
