{"id": "C01", "title": "Factory functions build exactly the matrix they describe", "statement": "zeros/filled/eye/diag/from_row/from_column/create/range/create_spectrum produce a matrix of the requested shape whose (i,j) entry is the documented one (0, 1, the fill value, the diagonal pattern, the i-th input column, the arithmetic sequence laid out row-major); an empty request gives a matrix of the requested shape too.", "quantifier": "for all requested row/column counts, all fill values, all input vectors and all scalar types", "why_tests_cant": "a unit test checks a handful of shapes; degenerate counts (0 rows, 0 columns) and every (i,j) position are an infinite family", "anchors": ["src/wai/ma/core/matrix/factory.py:zeros", "src/wai/ma/core/matrix/factory.py:filled", "src/wai/ma/core/matrix/factory.py:eye", "src/wai/ma/core/matrix/factory.py:diag", "src/wai/ma/core/matrix/factory.py:range", "src/wai/ma/core/matrix/factory.py:from_row", "src/wai/ma/core/matrix/factory.py:from_column", "src/wai/ma/core/matrix/factory.py:create", "src/wai/ma/core/matrix/factory.py:create_spectrum"]}
{"id": "C02", "title": "Element read-over-write", "statement": "After set(i,j,v), get(i,j) returns v, every other entry is unchanged and the shape is unchanged; negative indices address from the end; an index outside [-n,n) raises IndexError and leaves the matrix unchanged.", "quantifier": "for all matrices, all integer indices, all values", "why_tests_cant": "indices and matrices range over infinite sets; frame conditions speak about all other cells", "anchors": ["src/wai/ma/core/matrix/_Matrix.py:Matrix.get", "src/wai/ma/core/matrix/_Matrix.py:Matrix.set"]}
{"id": "C03", "title": "Row and column writes change exactly the addressed cells", "statement": "set_row(i,row)/set_column(j,col) overwrite exactly the first min(len) entries of the addressed row/column with the given vector's entries and change nothing else.", "quantifier": "for all matrices, all indices, all row/column vectors of any length", "why_tests_cant": "frame condition over all other cells for all sizes", "anchors": ["src/wai/ma/core/matrix/_Matrix.py:Matrix.set_row", "src/wai/ma/core/matrix/_Matrix.py:Matrix.set_column"]}
{"id": "C04", "title": "Row/column/sub-matrix selection is positional", "statement": "get_row, get_column, get_rows, get_columns and get_sub_matrix return the matrix whose entries are the source entries at the selected (Python-normalised) positions, in order, and fail with IndexError when a position is out of range.", "quantifier": "for all matrices, all ranges/index lists", "why_tests_cant": "selection lists are unbounded and include repeats, negatives and empty selections", "anchors": ["src/wai/ma/core/matrix/_Matrix.py:Matrix.get_row", "src/wai/ma/core/matrix/_Matrix.py:Matrix.get_rows", "src/wai/ma/core/matrix/_Matrix.py:Matrix.get_column", "src/wai/ma/core/matrix/_Matrix.py:Matrix.get_columns", "src/wai/ma/core/matrix/_Matrix.py:Matrix.get_sub_matrix"]}
{"id": "C05", "title": "Transpose and copy laws", "statement": "transpose is an involution with T[i,j]=A[j,i]; (A\u00b7B)^T = B^T\u00b7A^T; copy equals the source; to_raw_copy_1D lists the entries column by column and to_raw_copy_2D row by row (creating a matrix from the latter restores the matrix); as_real succeeds exactly on 1x1.", "quantifier": "for all matrices of all shapes", "why_tests_cant": "Involution and copy laws are equations between programs for every shape, including 0xn; a test compares finitely many matrices and would not see a shape for which rows and columns are mixed up.", "anchors": ["src/wai/ma/core/matrix/_Matrix.py:Matrix.transpose", "src/wai/ma/core/matrix/_Matrix.py:Matrix.copy", "src/wai/ma/core/matrix/_Matrix.py:Matrix.to_raw_copy_1D", "src/wai/ma/core/matrix/_Matrix.py:Matrix.as_real", "src/wai/ma/core/matrix/_Matrix.py:Matrix.to_raw_copy_2D"]}
{"id": "C06", "title": "Concatenation places blocks side by side", "statement": "concat_along_rows / concat_along_columns / multi_concat stack the two matrices in order, are associative, are undone by sub-matrix selection, and fail with a shape error exactly when the other dimension differs.", "quantifier": "for all pairs/triples of matrices", "why_tests_cant": "all shapes; associativity quantifies over three matrices", "anchors": ["src/wai/ma/core/matrix/_Matrix.py:Matrix.concat", "src/wai/ma/core/matrix/_Matrix.py:Matrix.concat_along_rows", "src/wai/ma/core/matrix/_Matrix.py:Matrix.concat_along_columns", "src/wai/ma/core/matrix/helper.py:multi_concat"]}
{"id": "C07", "title": "Arithmetic agrees with linear algebra", "statement": "add/subtract/scalar ops/matrix product are the entrywise and row-by-column operations; product is associative and distributive in exact arithmetic; a product or sum with incompatible shapes raises an error and never returns a matrix.", "quantifier": "for all matrices and shapes", "why_tests_cant": "algebraic identities over all operands; rejection for all incompatible shapes", "anchors": ["src/wai/ma/core/matrix/_Matrix.py:Matrix.add", "src/wai/ma/core/matrix/_Matrix.py:Matrix.sub", "src/wai/ma/core/matrix/_Matrix.py:Matrix.mul", "src/wai/ma/core/matrix/_Matrix.py:Matrix.mul_elementwise", "src/wai/ma/core/matrix/_Matrix.py:Matrix.div_elementwise", "src/wai/ma/core/matrix/_Matrix.py:Matrix.vector_dot"]}
{"id": "C08", "title": "Row/column vector broadcasting", "statement": "add_by_vector, sub_by_vector, mul_by_vector, scale_by_row_vector, scale_by_column_vector and the *_modify variants apply the vector's j-th (i-th) entry to column j (row i); they accept exactly the documented vector orientation and length and raise an error otherwise.", "quantifier": "for all matrices and vectors", "why_tests_cant": "The broadcasting direction is chosen from the shape of the operand; errors sit on shapes that are ambiguous (1x1, square, 1xn against nx1), for every combination of shapes and orientations.", "anchors": ["src/wai/ma/core/matrix/_Matrix.py:Matrix.vector_op", "src/wai/ma/core/matrix/_Matrix.py:Matrix.sub_by_vector", "src/wai/ma/core/matrix/_Matrix.py:Matrix.scale_by_row_vector", "src/wai/ma/core/matrix/_Matrix.py:Matrix.scale_by_column_vector", "src/wai/ma/core/matrix/_Matrix.py:Matrix.vector_op_modify"]}
{"id": "C09", "title": "Sums and means along an axis", "statement": "sum(0) is the row vector of column sums, sum(1) the column vector of row sums, sum(-1) the grand total, which equals the sum of either; mean is sum over count; any other axis raises an error.", "quantifier": "for all matrices and all integer axis arguments", "why_tests_cant": "The axis argument ranges over all integers and the matrices over all shapes; tests cover a handful of axes on rectangular samples.", "anchors": ["src/wai/ma/core/matrix/_Matrix.py:Matrix.sum", "src/wai/ma/core/matrix/_Matrix.py:Matrix.mean"]}
{"id": "C10", "title": "Clipping, sign and absolute value", "statement": "clip_lower/clip_upper/clip yield values within the bounds, leave in-range values untouched and are idempotent; sign and abs satisfy sign(x)*abs(x)=x entrywise.", "quantifier": "for all matrices and bounds", "why_tests_cant": "The claim compares every entry with every pair of bounds, one-sided bounds and bounds in the wrong order included.", "anchors": ["src/wai/ma/core/matrix/_Matrix.py:Matrix.clip", "src/wai/ma/core/matrix/_Matrix.py:Matrix.clip_lower", "src/wai/ma/core/matrix/_Matrix.py:Matrix.clip_upper", "src/wai/ma/core/matrix/_Matrix.py:Matrix.sign", "src/wai/ma/core/matrix/_Matrix.py:Matrix.abs"]}
{"id": "C11", "title": "Predicates and searches over entries", "statement": "any/all/which/where_vector answer exactly according to the predicate: which lists exactly the positions satisfying it, any is true iff that list is nonempty; contains_NaN reports whether some entry is NaN.", "quantifier": "for all matrices and all predicates", "why_tests_cant": "predicates range over all functions; special values like NaN are easy to miss", "anchors": ["src/wai/ma/core/matrix/_Matrix.py:Matrix.any", "src/wai/ma/core/matrix/_Matrix.py:Matrix.all", "src/wai/ma/core/matrix/_Matrix.py:Matrix.which", "src/wai/ma/core/matrix/_Matrix.py:Matrix.where_vector", "src/wai/ma/core/matrix/_Matrix.py:Matrix.contains_NaN"]}
{"id": "C12", "title": "Matrix equality", "statement": "Two matrices of equal shape compare equal iff all entries agree (within the given tolerance for helper.equal); comparing different shapes raises for == and is False for helper.equal; a matrix containing NaN must not be reported equal within a tolerance. An infinite entry never equals a finite one nor the opposite infinity, whatever the tolerance.", "quantifier": "for all pairs of matrices and tolerances", "why_tests_cant": "Equality is claimed for every pair of matrices and every tolerance; NaN entries, empty shapes and boundary differences are exactly the pairs a sample misses.", "anchors": ["src/wai/ma/core/matrix/_Matrix.py:Matrix.__eq__", "src/wai/ma/core/matrix/helper.py:equal"]}
{"id": "C13", "title": "Eigen/SVD results always describe the current contents", "statement": "After any sequence of public method calls, the eigen decomposition and SVD returned by a matrix are those of its current entries (no stale cache).", "quantifier": "for all histories of operations on a matrix object", "why_tests_cant": "the property is about all histories; tests use fresh matrices", "anchors": ["src/wai/ma/core/matrix/_Matrix.py:Matrix.set", "src/wai/ma/core/matrix/_Matrix.py:Matrix.reset_cache", "src/wai/ma/core/matrix/_Matrix.py:Matrix.get_eigenvalue_decomposition_V", "src/wai/ma/core/matrix/_Matrix.py:Matrix.vector_op_modify", "src/wai/ma/core/matrix/helper.py:fill_diagonal"]}
{"id": "C14", "title": "Non-mutating operations do not alias their arguments", "statement": "Matrices returned by arithmetic, selection, copy and the like are fresh: later in-place changes to the result are not visible in the argument and vice versa; only the documented in-place methods change a matrix.", "quantifier": "for all heaps of matrix objects and all sequences of operations", "why_tests_cant": "aliasing shows up only in particular later mutations, over unbounded histories", "anchors": ["src/wai/ma/core/matrix/_Matrix.py:Matrix", "src/wai/ma/core/matrix/factory.py:create"]}
{"id": "C15", "title": "SVD accessors reconstruct the matrix", "statement": "svd_U * svd_S * svd_V^T equals the matrix, with orthogonal factors and singular values in non-increasing order (as the accessors' names promise).", "quantifier": "for all real matrices and every valid output of the underlying LAPACK routine", "why_tests_cant": "every matrix and every sign choice of the solver", "anchors": ["src/wai/ma/core/matrix/_Matrix.py:Matrix.svd_U", "src/wai/ma/core/matrix/_Matrix.py:Matrix.svd_S", "src/wai/ma/core/matrix/_Matrix.py:Matrix.svd_V", "src/wai/ma/core/matrix/_Matrix.py:Matrix.get_singular_values"]}
{"id": "C16", "title": "Sorted eigenpairs stay paired", "statement": "The descending-sorted eigenvector accessor returns the eigenvectors in the order of the descending-sorted eigenvalues: column k is an eigenvector for the k-th largest eigenvalue.", "quantifier": "for all square matrices and every valid eigensolver output (any order, ties included)", "why_tests_cant": "The order in which an eigensolver lists eigenvalues is unspecified and ties are allowed; a test sees the one order of the installed library.", "anchors": ["src/wai/ma/core/matrix/_Matrix.py:Matrix.get_eigenvectors_sorted_descending", "src/wai/ma/core/matrix/_Matrix.py:Matrix.get_eigenvalues_sorted_descending"]}
{"id": "C17", "title": "Scalar serialisation is exact and self-delimiting", "statement": "int, float and str states encode to bytes from which the same values are recovered by sequential decoding; ints outside the 32-bit signed range raise OverflowError; other types raise TypeError.", "quantifier": "for all integers, 64-bit patterns, strings, and all sequences of them", "why_tests_cant": "infinite value ranges and arbitrary concatenations", "anchors": ["src/wai/ma/core/_Serialisable.py:Serialisable.serialise_to_bytes"]}
{"id": "C18", "title": "Matrix serialisation is exact", "statement": "A matrix's byte form is rows, columns, then the entries row-major; decoding the form recovers shape and entries, the encoding is injective and has length 8+8*rows*cols.", "quantifier": "for all matrices", "why_tests_cant": "A round trip must be the identity for every shape and every bit pattern, not for the few matrices that were written.", "anchors": ["src/wai/ma/core/matrix/_Matrix.py:Matrix.serialise_state"]}
{"id": "C19", "title": "get_serialised_state returns the serialised state", "statement": "get_serialised_state() returns exactly the bytes that serialise_state writes to a stream.", "quantifier": "for all serialisable objects", "why_tests_cant": "The claim is about every object and every reachable state of it; a test checks the states it constructs.", "anchors": ["src/wai/ma/core/_Serialisable.py:Serialisable.get_serialised_state"]}
{"id": "C20", "title": "Arbitrary-size integer serialisation", "statement": "serialise_big_int encodes every Python integer to a two's complement little-endian byte string which decodes to the same integer.", "quantifier": "for all integers", "why_tests_cant": "Integers are unbounded and the failures sit exactly on bit-length boundaries, one per power of 256 and sign.", "anchors": ["src/wai/ma/core/_Serialisable.py:Serialisable.serialise_big_int"]}
{"id": "C21", "title": "save_state writes to any writable path", "statement": "save_state(filename) creates the missing parent directories and then writes the state, for any filename including one without a directory part.", "quantifier": "for all path strings", "why_tests_cant": "The set of path strings is unbounded; the failing ones (no directory part, existing directories) depend on the structure of the string.", "anchors": ["src/wai/ma/core/_Serialisable.py:Serialisable.save_state"]}
{"id": "C22", "title": "sort returns a permutation", "statement": "utils.sort(array) returns an index list that is a permutation of 0..n-1, for every array, including arrays with NaN, infinities and ties.", "quantifier": "for all arrays of numpy floats", "why_tests_cant": "all array contents and lengths, incomparable values", "anchors": ["src/wai/ma/core/utils.py:sort", "src/wai/ma/core/utils.py:quick_sort", "src/wai/ma/core/utils.py:_partition_real"]}
{"id": "C23", "title": "sort orders the array", "statement": "Reading the array through the index returned by sort yields a non-decreasing sequence.", "quantifier": "for all arrays of totally ordered values", "why_tests_cant": "quicksort partition bugs occur on specific orders only", "anchors": ["src/wai/ma/core/utils.py:sort", "src/wai/ma/core/utils.py:quick_sort", "src/wai/ma/core/utils.py:_partition_int"]}
{"id": "C24", "title": "Simple linear regression is least squares", "statement": "linear_regression returns the (intercept, slope) pair minimising the residual sum of squares whenever the predictor is not constant; the residuals sum to zero and are orthogonal to the predictor.", "quantifier": "for all data vectors and all competing lines", "why_tests_cant": "optimality quantifies over every competing line", "anchors": ["src/wai/ma/core/utils.py:linear_regression"]}
{"id": "C25", "title": "max_index returns the index of a maximum", "statement": "max_index(list) returns an index whose element is >= all others.", "quantifier": "for all nonempty lists", "why_tests_cant": "Correctness for every list, ties and every position of the maximum, needs induction over the list.", "anchors": ["src/wai/ma/core/utils.py:max_index"]}
{"id": "C26", "title": "Transformation lifecycle", "statement": "transform/inverse_transform configure exactly once on first use (on the data given) and re-use that configuration until reset; changing a validated parameter forces a new configuration; results thus depend only on the first data since the last reset and on the parameters.", "quantifier": "for all histories of configure/transform/inverse/parameter changes", "why_tests_cant": "Histories of configure, transform, inverse and assignments are unbounded; an invariant over all of them needs induction.", "anchors": ["src/wai/ma/transformation/_AbstractTransformation.py:AbstractTransformation"]}
{"id": "C27", "title": "Center removes column means and inverts", "statement": "A configured Center subtracts the configuration data's column means from every row; transformed configuration data has zero column means; inverse_transform after transform is the identity on every matrix of that width.", "quantifier": "for all real matrices and all second matrices of equal width", "why_tests_cant": "Both claims quantify over every training matrix and every second matrix; numerical tests also cannot separate an exact law from a small error.", "anchors": ["src/wai/ma/transformation/_Center.py:Center"]}
{"id": "C28", "title": "Standardize yields unit variance and inverts", "statement": "After configuring on data, every non-constant column of transformed data has mean 0 and variance 1, constant columns become finite zeros, and inverse_transform restores any matrix.", "quantifier": "for all matrices with any set of constant columns", "why_tests_cant": "Constant columns may be anywhere and in any number; the guard in the code looks at one position only, so tests with the usual data pass.", "anchors": ["src/wai/ma/transformation/_Standardize.py:Standardize"]}
{"id": "C29", "title": "RowNorm normalises each row and inverts", "statement": "transform gives each non-constant row mean 0 and unit variance independently of earlier matrices seen; inverse_transform(transform(X)) = X.", "quantifier": "for all matrices and histories", "why_tests_cant": "The inverse depends on what was transformed before, so the claim ranges over all histories of calls.", "anchors": ["src/wai/ma/transformation/_RowNorm.py:RowNorm"]}
{"id": "C30", "title": "Log transform domain and round trip", "statement": "transform computes log_base(x+offset)*factor-style values entrywise, raises ValueError iff some x+offset<=0, base must be positive and not 1, and inverse_transform recovers the data.", "quantifier": "for all matrices, bases, offsets", "why_tests_cant": "The domain and the inverse are claimed for every base and offset; failures sit on single points (base 1, argument 0).", "anchors": ["src/wai/ma/transformation/_Log.py:Log"]}
{"id": "C31", "title": "Savitzky-Golay coefficients reproduce polynomial derivatives", "statement": "The coefficient vector c satisfies sum c_k k^j = 0 for j<=poly order, j != derivative order, and the derivative factor for j = derivative order, so the filter is exact on polynomials of degree <= poly order.", "quantifier": "for all window sizes and orders, all polynomials", "why_tests_cant": "infinitely many window/polynomial combinations", "anchors": ["src/wai/ma/transformation/_SavitzkyGolay.py:SavitzkyGolay.determine_coefficients"]}
{"id": "C32", "title": "Savitzky-Golay transform shape and locality", "statement": "Output has cols-(left+right) columns; column j is the weighted sum of input columns j..j+left+right; too-narrow input is rejected; the transform is linear.", "quantifier": "for all matrices and coefficient settings", "why_tests_cant": "Shape and locality are claimed for every matrix width and every setting of points, order and derivative.", "anchors": ["src/wai/ma/transformation/_SavitzkyGolay.py:SavitzkyGolay.do_transform"]}
{"id": "C33", "title": "Savitzky-Golay never uses stale coefficients", "statement": "After any sequence of parameter changes and transforms, transform uses coefficients belonging to the current parameters; an invalid parameter raises and keeps the old value and state.", "quantifier": "for all histories of setter calls and transforms", "why_tests_cant": "Setter calls and transforms can alternate arbitrarily often; staleness shows only for particular interleavings.", "anchors": ["src/wai/ma/transformation/_SavitzkyGolay.py:SavitzkyGolay", "src/wai/ma/transformation/_SavitzkyGolay2.py:SavitzkyGolay2"]}
{"id": "C34", "title": "Multiplicative scatter correction", "statement": "Amplitudes outside the correction ranges are untouched; within a range the corrected row regressed on the reference mean has intercept 0 and slope 1; shape preserved; inverse is rejected.", "quantifier": "for all matrices, ranges and wave numbers", "why_tests_cant": "Exact regression identities for every matrix, every list of ranges and every assignment of wave numbers to ranges.", "anchors": ["src/wai/ma/transformation/_MultiplicativeScatterCorrection.py:MultiplicativeScatterCorrection", "src/wai/ma/transformation/_MultiplicativeScatterCorrection.py:RangeBased.correct"]}
{"id": "C35", "title": "Y-gradient filter", "statement": "The five-point filter preserves shape, kills constants, is linear, and on linear ramps returns a constant slope on interior rows; empty input is rejected.", "quantifier": "for all matrices with any number of rows and columns", "why_tests_cant": "The border rows are treated separately, so the claim has to hold for every number of rows relative to the window.", "anchors": ["src/wai/ma/transformation/_YGradientGLSWSavitzkyGolayFilter.py:YGradientGLSWSavitzkyGolayFilter", "src/wai/ma/algorithm/glsw/_YGradientGLSW.py:YGradientGLSW.get_covariance_matrix"]}
{"id": "C36", "title": "FFT round trip", "statement": "inverse_transform(transform(X)) = X for pair output modes in exact arithmetic, for every number of rows and (odd or even) columns; non-invertible modes raise ValueError.", "quantifier": "for all real matrices and all output modes", "why_tests_cant": "The index arithmetic differs between even and odd lengths and output modes; the identity is claimed for all lengths and data.", "anchors": ["src/wai/ma/transformation/_FFT.py:FFT"]}
{"id": "C37", "title": "FFT output row alignment", "statement": "Row i of the FFT transform output is determined by row i of the input.", "quantifier": "for all matrices with any number of rows and columns and all output modes", "why_tests_cant": "Misalignment shows only with several rows, and the claim is about every number of rows and every position.", "anchors": ["src/wai/ma/transformation/_FFT.py:FFT"]}
{"id": "C38", "title": "Wrapper transformers never use a stale fit", "statement": "For the scikit-learn backed transformations, changing any parameter that influences the fit causes the next transform to refit with the new parameters.", "quantifier": "for all histories of parameter changes and transforms", "why_tests_cant": "Parameter changes and transforms can be interleaved arbitrarily; a stale fit shows only in particular histories.", "anchors": ["src/wai/ma/transformation/_PowerTransformer.py:PowerTransformer", "src/wai/ma/transformation/_QuantileTransformer.py:QuantileTransformer", "src/wai/ma/transformation/_RobustScaler.py:RobustScaler"]}
{"id": "C39", "title": "Kernel matrices", "statement": "apply_matrix(X) has entry (i,j)=k(x_i,x_j), is symmetric, equals apply_matrix(X,X), and apply_matrix(X,Y) has shape rows(X) x rows(Y).", "quantifier": "for all data matrices and kernels", "why_tests_cant": "all shapes; half of the matrix is filled by symmetry", "anchors": ["src/wai/ma/transformation/kernel/_AbstractKernel.py:AbstractKernel.apply_matrix"]}
{"id": "C40", "title": "RBF kernel", "statement": "k(x,x)=1, k symmetric, values in (0,1], strictly decreasing in distance for gamma>0, and k(x,y)=exp(-gamma*||x-y||^2) as documented.", "quantifier": "for all vectors and gamma", "why_tests_cant": "Symmetry, range and the agreement of the forms are claimed for all real vectors and every gamma, default included.", "anchors": ["src/wai/ma/transformation/kernel/_RBFKernel.py:RBFKernel"]}
{"id": "C41", "title": "Polynomial kernel parameters", "statement": "k(x,y)=(gamma x.y + coef0)^degree with gamma defaulting to 1/columns of the data it is applied to; the default must not depend on data seen earlier.", "quantifier": "for all vectors, parameters, histories", "why_tests_cant": "The default of gamma is stored at the first use, so the value depends on the whole history of uses.", "anchors": ["src/wai/ma/transformation/kernel/_PolyKernel.py:PolyKernel"]}
{"id": "C42", "title": "Downsample", "statement": "filter keeps exactly the columns start, start+step, ... in order; step 0 raises ValueError; no other change.", "quantifier": "for all matrices, start, step", "why_tests_cant": "Start and step range over all integers; failures sit on the boundaries (start beyond the end, steps that do not divide the width).", "anchors": ["src/wai/ma/filter/_Downsample.py:Downsample"]}
{"id": "C43", "title": "Equidistance resampling", "statement": "filter returns num_samples equidistant linear interpolants per row; first and last columns are preserved; it is the identity when num_samples equals the number of columns; every sample lies between its two neighbours; linear data stays linear.", "quantifier": "for all matrices and sample counts", "why_tests_cant": "Rounding of positions (floor and ceiling) fails at boundaries for particular pairs of widths and sample counts; the claim covers all of them.", "anchors": ["src/wai/ma/filter/_Equidistance.py:Equidistance"]}
{"id": "C44", "title": "MultiFilter composes", "statement": "A MultiFilter applies its filters in order; concatenating filter lists composes; the empty list is the identity; the first error stops.", "quantifier": "for all lists of filters", "why_tests_cant": "Lists of filters are unbounded and filters may fail at any position.", "anchors": ["src/wai/ma/core/_MultiFilter.py:MultiFilter"]}
{"id": "C45", "title": "Parameter validation protects state", "statement": "Assigning an invalid value to a validated parameter raises ValueError and changes nothing; assigning a valid one stores it and marks the object uninitialised/unconfigured.", "quantifier": "for all histories over all algorithms' validated parameters", "why_tests_cant": "Every validated parameter of every algorithm, every value and every earlier history; an invariant over unbounded histories.", "anchors": ["src/wai/ma/core/_LoggingObject.py:LoggingObject", "src/wai/ma/algorithm/_AbstractAlgorithm.py:AbstractAlgorithm"]}
{"id": "C46", "title": "No results from an untrained model", "statement": "predict/transform before a successful initialize raises RuntimeError; get_matrix_names lists exactly the accessible matrices. Debug output is off in a new object and stays off until the user assigns debug.", "quantifier": "for all algorithm classes and all histories of calls", "why_tests_cant": "The claim is about every history of calls that ends untrained, an unbounded set.", "anchors": ["src/wai/ma/algorithm/pls/_AbstractPLS.py:AbstractPLS", "src/wai/ma/algorithm/_AbstractAlgorithm.py:AbstractAlgorithm", "src/wai/ma/core/_LoggingObject.py:__init__"]}
{"id": "C47", "title": "Failed training leaves the model untrained", "statement": "If initialize returns an error message or raises, the model is uninitialised afterwards and predict/transform refuse to work; missing predictors or responses are reported as error messages.", "quantifier": "for all histories and failing inputs", "why_tests_cant": "Training can fail at every statement that can raise; tests cannot provoke every failure point after every history.", "anchors": ["src/wai/ma/algorithm/pls/_AbstractPLS.py:AbstractPLS.initialize", "src/wai/ma/algorithm/_AbstractAlgorithm.py:AbstractAlgorithm"]}
{"id": "C48", "title": "Retraining forgets the past", "statement": "Re-initialising a model gives the same results as a freshly constructed model with the same parameters trained on the same data.", "quantifier": "for all algorithms, all previous training histories", "why_tests_cant": "The earlier history is arbitrary; a leftover shows only for a particular combination of old and new parameters and data.", "anchors": ["src/wai/ma/algorithm/_CCAFilter.py:CCAFilter", "src/wai/ma/algorithm/pls/_DIPLS.py:DIPLS", "src/wai/ma/algorithm/ica/_FastICA.py:FastICA", "src/wai/ma/algorithm/pls/_PLS1.py:PLS1", "src/wai/ma/algorithm/pls/_NIPALS.py:NIPALS", "src/wai/ma/algorithm/pls/_KernelPLS.py:KernelPLS", "src/wai/ma/algorithm/pls/_SparsePLS.py:SparsePLS"]}
{"id": "C49", "title": "PLS1 scores are orthogonal and reproduced by transform", "statement": "For training data, transform returns the training scores T, the columns of T are mutually orthogonal, and deflated predictors are orthogonal to all extracted scores.", "quantifier": "for all real data for which no denominator vanishes, any number of components", "why_tests_cant": "Orthogonality for any number of components is proved by induction over the components; tests check small numbers up to a tolerance.", "anchors": ["src/wai/ma/algorithm/pls/_PLS1.py:PLS1"]}
{"id": "C50", "title": "PLS1 predictions", "statement": "predict is the linear map given by the regression vector; with k components the training residual is orthogonal to the k scores, so the fit is the least-squares fit on the score space and the residual norm is non-increasing in k.", "quantifier": "for all real training data, any number of components and all new data", "why_tests_cant": "The closed form of the prediction is an identity over all real data and any number of components.", "anchors": ["src/wai/ma/algorithm/pls/_PLS1.py:PLS1.do_perform_predictions"]}
{"id": "C51", "title": "Preprocessing is applied consistently at prediction time", "statement": "With preprocessing CENTER or STANDARDIZE, predictions for data equal those of the model expressed in original units: predictors get the training preprocessing before prediction and responses are back-transformed.", "quantifier": "for all training data, all preprocessing types and all new data", "why_tests_cant": "The right prediction is defined for every data set and new sample; with data that happen to be centred the error is invisible.", "anchors": ["src/wai/ma/algorithm/pls/_AbstractPLS.py:AbstractPLS"]}
{"id": "C52", "title": "Multi-response preprocessing is per response", "statement": "For multi-response PLS with preprocessing, each response column is de-normalised with its own mean and standard deviation.", "quantifier": "for all training data with at least two responses, all preprocessing types and all new data", "why_tests_cant": "Errors show only when the responses have different means and deviations; the claim covers all data with several responses.", "anchors": ["src/wai/ma/algorithm/pls/_AbstractMultiResponsePLS.py:AbstractMultiResponsePLS"]}
{"id": "C53", "title": "NIPALS handles several responses", "statement": "NIPALS.initialize succeeds for any number of response columns.", "quantifier": "for all data with >= 2 responses", "why_tests_cant": "The claim is about every data set with any number of response columns; a test shows success for the data it uses.", "anchors": ["src/wai/ma/algorithm/pls/_NIPALS.py:NIPALS", "src/wai/ma/algorithm/pls/_CCARegression.py:CCARegression"]}
{"id": "C54", "title": "NIPALS iteration reaches a fixed point", "statement": "The NIPALS power iteration's result satisfies the documented fixed-point equation up to tol or the maximum number of iterations was reached.", "quantifier": "for all data and tolerances", "why_tests_cant": "What holds at the end of the iteration is claimed for every data set and every tolerance, and for iterations of unbounded length.", "anchors": ["src/wai/ma/algorithm/pls/_NIPALS.py:NIPALS.nipals_loop"]}
{"id": "C55", "title": "SIMPLS scores are orthonormal", "statement": "The weight matrix W satisfies (XW)^T(XW)=I when every component norm is non-zero; predict(x)=x*B with B=W*Q^T; transform(x)=x*W; serialised state is W.", "quantifier": "for all data, any number of components", "why_tests_cant": "Orthonormality for any number of components needs induction over the deflation steps and exact arithmetic.", "anchors": ["src/wai/ma/algorithm/pls/_SIMPLS.py:SIMPLS"]}
{"id": "C56", "title": "SIMPLS slimming keeps the requested number of coefficients", "statement": "slim keeps exactly num_coefficients largest-magnitude entries per column and zeroes the others.", "quantifier": "for all weight matrices and counts", "why_tests_cant": "Off-by-one errors and ties sit on particular counts and weights; the claim covers every weight matrix and every count.", "anchors": ["src/wai/ma/algorithm/pls/_SIMPLS.py:SIMPLS.slim"]}
{"id": "C57", "title": "OPLS removes orthogonal variation", "statement": "Scores of removed orthogonal components are orthogonal to the response; transform of the training data equals the filtered training data used to train the base model; an error of the base model is reported.", "quantifier": "for all real data and all numbers of orthogonal components", "why_tests_cant": "Orthogonality of what is removed is an identity over all real data and any number of components.", "anchors": ["src/wai/ma/algorithm/pls/_OPLS.py:OPLS"]}
{"id": "C58", "title": "KernelPLS centering and prediction", "statement": "The centered training kernel has zero row and column sums and is symmetric; scores are orthogonal across components.", "quantifier": "for all data and kernels", "why_tests_cant": "The centring identities and the orthogonality of the scores are claimed for every kernel, every data set and any number of components.", "anchors": ["src/wai/ma/algorithm/pls/_KernelPLS.py:KernelPLS"]}
{"id": "C59", "title": "DIPLS source/target handling", "statement": "In each strategy the source and target samples used are the first ns and the next nt rows; error messages report illegal ns/nt; unsupervised, supervised and semi-supervised modes accept every ns, nt >= the documented minimum.", "quantifier": "for all ns, nt, data", "why_tests_cant": "Every combination of source and target counts and of data is covered, boundary counts included.", "anchors": ["src/wai/ma/algorithm/pls/_DIPLS.py:DIPLS"]}
{"id": "C60", "title": "PRM iterates to convergence", "statement": "PRM re-weights until the relative change of the coefficient norm is below tol (or max_iter), weights lie in (0,1].", "quantifier": "for all data and tolerances", "why_tests_cant": "Convergence and its stopping rule are statements about iterations of unbounded length on arbitrary data.", "anchors": ["src/wai/ma/algorithm/pls/_PRM.py:PRM"]}
{"id": "C61", "title": "SparsePLS sparsity", "statement": "The direction vector is soft-thresholded (support = entries with magnitude above the threshold, signs kept) and has unit norm; predictions depend only on the selected variables.", "quantifier": "for all data and sparsity parameters in [0,1]", "why_tests_cant": "Which variables are kept depends on the data in a discontinuous way; the claim covers all data and all thresholds.", "anchors": ["src/wai/ma/algorithm/pls/_SparsePLS.py:SparsePLS"]}
{"id": "C62", "title": "PCA component selection", "statement": "PCA keeps the least number of leading components whose cumulative variance reaches the requested fraction (bounded by max_columns), scores are the centred data times loadings, constant columns are dropped, and each loading is attributed to its original attribute.", "quantifier": "for all data and parameters", "why_tests_cant": "Constant columns at any position and cumulative variances exactly on the threshold are measure-zero cases that samples miss.", "anchors": ["src/wai/ma/algorithm/_PCA.py:PCA"]}
{"id": "C63", "title": "CCA filter validates and whitens", "statement": "kcca/lambda parameters are validated; C^(-1/2) computed from the eigen decomposition squares to the inverse covariance; transform centres with the training means.", "quantifier": "for all pairs of data sets and all parameter settings", "why_tests_cant": "The whitening identity is claimed for all data and every valid eigensolver output, exactly rather than up to a tolerance.", "anchors": ["src/wai/ma/algorithm/_CCAFilter.py:CCAFilter"]}
{"id": "C64", "title": "GLSW down-weights clutter directions", "statement": "The GLSW matrix is symmetric, has eigenvalues in (0,1] on the clutter eigenvectors with each eigenvector paired with its own eigenvalue, tends to the identity when the clutter vanishes, and transform multiplies by it.", "quantifier": "for all data and alpha>0, and every valid solver output", "why_tests_cant": "The order in which the eigensolver lists its pairs is unspecified; a test sees the order of the installed library only.", "anchors": ["src/wai/ma/algorithm/glsw/_GLSW.py:GLSW"]}
{"id": "C65", "title": "EPO projects clutter away", "statement": "The EPO filter matrix I - V V^T is an idempotent symmetric projection annihilating the first N clutter directions.", "quantifier": "for all data and N", "why_tests_cant": "The projection property is claimed for every data set, every number of components and every valid eigensolver output.", "anchors": ["src/wai/ma/algorithm/glsw/_EPO.py:EPO"]}
{"id": "C66", "title": "FastICA round trip", "statement": "reconstruct(transform(X)) recovers the data when all components are kept.", "quantifier": "for all data and numbers of components, and every valid decomposition routine", "why_tests_cant": "The round trip is an identity over all data and shapes, with an unspecified singular value decomposition in the middle.", "anchors": ["src/wai/ma/algorithm/ica/_FastICA.py:FastICA"]}
{"id": "C67", "title": "CSV read/write round trip", "statement": "Reading back written lines restores the matrix for any separator and header choice; malformed, missing or extra cells never shift other cells. Blanks, tabs and line breaks around a number do not change its cell.", "quantifier": "for all matrices, separators, cell texts", "why_tests_cant": "Cell texts and separators are arbitrary strings; failures need texts that contain the separator, quotes or line breaks.", "anchors": ["src/wai/ma/core/matrix/helper.py:read", "src/wai/ma/core/matrix/helper.py:write", "src/wai/ma/core/matrix/helper.py:to_lines"]}
{"id": "C68", "title": "Random factories are reproducible and honour their parameters", "statement": "rand/randn with a given seed return the same matrix whatever the global generator was used for before; randn's entries are scaled by std and shifted by mean. A random matrix uses up exactly one number of the global generator for each entry.", "quantifier": "for all shapes, seeds, means, standard deviations and prior generator states", "why_tests_cant": "prior state of the global generator and the parameter space are unbounded; a fixed seed hides ignored parameters", "anchors": ["src/wai/ma/core/matrix/factory.py:randn", "src/wai/ma/core/matrix/factory.py:rand", "src/wai/ma/core/matrix/factory.py:randn_like", "src/wai/ma/core/matrix/factory.py:rand_like"]}
{"id": "C69", "title": "A failed save keeps the old file", "statement": "If serialise_state raises during save_state, the files on disk are as before the call.", "quantifier": "for all objects, file systems and filenames", "why_tests_cant": "quantifies over every failure point and file-system content", "anchors": ["src/wai/ma/core/_Serialisable.py:Serialisable.save_state", "src/wai/ma/transformation/_Standardize.py:Standardize.serialise_state"]}
{"id": "C70", "title": "Log state has a fixed layout", "statement": "The serialised state of Log depends only on the values of base, conversion factor and offset, and these are recovered from it.", "quantifier": "for all bases and offsets", "why_tests_cant": "depends on the Python type of the stored parameter, not on a value a test would compare", "anchors": ["src/wai/ma/transformation/_Log.py:Log.serialise_state", "src/wai/ma/core/_Serialisable.py:Serialisable.serialise_to_bytes"]}
{"id": "C71", "title": "Model state serialisation", "statement": "Standardize serialises its means followed by its standard deviations, SavitzkyGolay its coefficients and SIMPLS its W matrix; the matrices are recovered from the bytes; before configuration nothing is written and RuntimeError is raised. When a matrix cannot be written nothing is written after the failure.", "quantifier": "for all configured and unconfigured objects", "why_tests_cant": "all matrix shapes and contents, both life-cycle states", "anchors": ["src/wai/ma/transformation/_Standardize.py:Standardize.serialise_state", "src/wai/ma/transformation/_SavitzkyGolay.py:SavitzkyGolay.serialise_state", "src/wai/ma/algorithm/pls/_SIMPLS.py:SIMPLS.serialise_state"]}
{"id": "C72", "title": "FFT output modes", "statement": "Each FFT output mode returns, row by row, the stated part (real, imaginary, amplitude, phase, or a pair of these) of frequencies 0..floor(n/2) of the discrete Fourier transform of that row; the single-part modes have floor(n/2)+1 columns and the pair modes as many columns as the input.", "quantifier": "for all real matrices with at least one row and column, all output modes, with or without orthonormalisation", "why_tests_cant": "The layout depends on the parity of the row length and on all data; a test fixes a few lengths and data sets.", "anchors": ["src/wai/ma/transformation/_FFT.py:FFT"]}
{"id": "C73", "title": "SIMPLS and PLS1 make the same predictions", "statement": "Trained on the same data with the same number of components and without slimming, SIMPLS and PLS1 give equal predictions on every new data set, and every SIMPLS score is a non-zero multiple of the PLS1 score.", "quantifier": "for all data in which no PLS1 score vanishes, any number of components, all new data", "why_tests_cant": "tests compare one data set to stored references up to a tolerance; the equality is an induction over components", "anchors": ["src/wai/ma/algorithm/pls/_SIMPLS.py:SIMPLS", "src/wai/ma/algorithm/pls/_PLS1.py:PLS1"]}
{"id": "C74", "title": "NIPALS with one response is PLS1 on standardised data", "statement": "For a single response column and regression deflation, NIPALS predicts for every data set exactly what PLS1 trained on the standardised predictors and response predicts for the standardised data, converted back to the units of the response; its scores are component-wise multiples of the PLS1 scores.", "quantifier": "for all training data on which none of the numerical guards is met, all numbers of components and all new data", "why_tests_cant": "agreement of two algorithms on every data set and number of components", "anchors": ["src/wai/ma/algorithm/pls/_NIPALS.py:NIPALS", "src/wai/ma/algorithm/pls/_PLS1.py:PLS1"]}
{"id": "C75", "title": "KernelPLS predicts the fitted values for its training data", "statement": "Applied to the training predictors, transform returns the centred training kernel times U, and predict returns the fitted values K U B plus the response means.", "quantifier": "for all kernels, data, start vectors and options", "why_tests_cant": "the error is an offset that depends on the kernel and vanishes for the linear one", "anchors": ["src/wai/ma/algorithm/pls/_KernelPLS.py:KernelPLS"]}
{"id": "C76", "title": "KernelPLS exposes the loadings of the kernel", "statement": "The matrix P holds the loadings of the kernel on the scores (non-zero whenever the score explains part of the kernel).", "quantifier": "for all kernels and data", "why_tests_cant": "A regression test records whatever is computed; only a proof shows that P is zero for all data.", "anchors": ["src/wai/ma/algorithm/pls/_KernelPLS.py:KernelPLS"]}
{"id": "C77", "title": "Options accepted by KernelPLS are usable", "statement": "Every tolerance and iteration limit that passes validation lets training succeed on some data.", "quantifier": "for all accepted options and all data", "why_tests_cant": "Usability of an option is a statement about training and prediction on all data, not on the data of one test.", "anchors": ["src/wai/ma/algorithm/pls/_KernelPLS.py:KernelPLS"]}
{"id": "C78", "title": "DIPLS regression is the least-squares fit on its scores", "statement": "DIPLS weights have unit length and solve the penalised normal equations; the scores are orthogonal; the regression coefficients reproduce, on the training rows, the least-squares fit of the centred response on the scores; predictions are (Z - m) b + mean(y) with m the target means (unsupervised) or the training means.", "quantifier": "for all data meeting the guards, all numbers of components, all lambda", "why_tests_cant": "relates two different computations (rotation W (P^T W)^-1 and the deflation loop) for all data", "anchors": ["src/wai/ma/algorithm/pls/_DIPLS.py:DIPLS"]}
{"id": "C79", "title": "DIPLS transform returns the scores of the training data", "statement": "Transforming the training rows with a trained DIPLS model gives the score matrix T of the model.", "quantifier": "for all training data and numbers of components", "why_tests_cant": "the regression tests record the transform without comparing it to T", "anchors": ["src/wai/ma/algorithm/pls/_DIPLS.py:DIPLS"]}
{"id": "C80", "title": "The geometric median used for PRM leverage weights", "statement": "geometric_median returns a convex combination of the points; a step never increases the sum of distances, and a point left unchanged by a step minimises it.", "quantifier": "for all point sets with at least two points, all tolerances and iteration limits, and all competing points", "why_tests_cant": "optimality is a statement about every other point, and descent about every iterate", "anchors": ["src/wai/ma/algorithm/pls/_PRM.py:PRM"]}
{"id": "C81", "title": "PRM on data with more columns than rows", "statement": "When X has more columns than rows, PRM trains on X\u00b7U (U from the SVD of the transpose) and U times the coefficients gives the same fitted values on the original X: the model is the one PRM would compute without the replacement, whichever valid SVD is returned and in whatever order the columns are given.", "quantifier": "for all wide matrices and every valid SVD of the transpose", "why_tests_cant": "the SVD is not unique; tests see the one the solver returns", "anchors": ["src/wai/ma/algorithm/pls/_PRM.py:PRM", "src/wai/ma/core/matrix/_Matrix.py:Matrix.svd_V", "src/wai/ma/algorithm/pls/_PRM.py:do_perform_initialization"]}
{"id": "C82", "title": "SparsePLS without sparsity is NIPALS", "statement": "When every variable is selected, the coefficients of SparsePLS are those of the inner NIPALS model on the standardised data, and its predictions are those of NIPALS on the raw data.", "quantifier": "for all data without constant columns, all numbers of components up to the number of columns, and all new data", "why_tests_cant": "The equality of two programs on every input and every number of components cannot be sampled.", "anchors": ["src/wai/ma/algorithm/pls/_SparsePLS.py:SparsePLS", "src/wai/ma/algorithm/pls/_NIPALS.py:NIPALS"]}
{"id": "C83", "title": "SparsePLS transforms rows independently", "statement": "The scores that a trained SparsePLS model assigns to a row do not depend on the other rows transformed with it.", "quantifier": "for all trained models and all pairs of data sets sharing a row", "why_tests_cant": "relates the outputs for every pair of batches; the tests transform only the training data", "anchors": ["src/wai/ma/algorithm/pls/_SparsePLS.py:SparsePLS"]}
{"id": "C84", "title": "PCA of further data", "statement": "Once components have been fitted, transforming further data projects it onto those components with the means and deviations of the data they were fitted on; the scores of a row do not depend on the rows it is transformed together with.", "quantifier": "for all training data, all further data of the same width and all parameters", "why_tests_cant": "The claim quantifies over pairs of data sets: those used for fitting and any further data of the same width.", "anchors": ["src/wai/ma/algorithm/_PCA.py:PCA"]}
{"id": "C85", "title": "Five-point Savitzky-Golay filter of the Y-gradient methods is a first derivative", "statement": "The filter keeps the shape, treats every column on its own, is linear, maps constant columns to zero, and for every column that is a parabola in the row number returns its first derivative at every inner row; data without rows and the inverse raise.", "quantifier": "for all matrices, all parabolas and all inner rows", "why_tests_cant": "one numeric example with an expected file cannot tell a derivative from its negative for all data", "anchors": ["src/wai/ma/algorithm/glsw/_YGradientGLSW.py:SavitzkyGolayFilter", "src/wai/ma/transformation/_YGradientGLSWSavitzkyGolayFilter.py:YGradientGLSWSavitzkyGolayFilter"]}
{"id": "C86", "title": "Y-gradient covariance", "statement": "The covariance is the weighted sum of products of predictor slopes with the samples sorted by response, symmetric with non-negative quadratic form, independent of the order in which the samples are given, with weights 2^(-dy/s) that are smaller where the response changes faster; every usable single-column response gives a finite covariance; a response of the wrong shape is refused; the filter built on it scales every clutter eigenvector by its own weight.", "quantifier": "for all predictors, responses, permutations of the samples and solver outputs", "why_tests_cant": "Independence of the order of samples quantifies over all permutations; the sign of the weights shows only against the documented formula.", "anchors": ["src/wai/ma/algorithm/glsw/_YGradientGLSW.py:YGradientGLSW", "src/wai/ma/algorithm/glsw/_YGradientEPO.py:YGradientEPO"]}
{"id": "C87", "title": "CCA projections are canonical", "statement": "With respect to the regularised scatter matrices the columns of both projections are orthonormal, and the cross-covariance of the projected predictors and projected responses is the diagonal matrix of canonical correlations (singular values of Cxx^(-1/2) Cxy Cyy^(-1/2)); this holds whichever of the two blocks has more columns.", "quantifier": "for all training data, positive regularisations, projection dimensions and solver outputs meeting the decomposition contracts", "why_tests_cant": "the regression tests compare with stored output of the same code; sampled data cannot establish the identities for all data", "anchors": ["src/wai/ma/algorithm/_CCAFilter.py:CCAFilter", "src/wai/ma/core/matrix/_Matrix.py:svd_V"]}
{"id": "C88", "title": "FastICA weights are orthonormal", "statement": "Every weight update is E[x g(w.x)] - E[g'(w.x)] w for the weight vector being updated, decorrelated from the vectors already found and normalised; the unmixing matrix returned by both algorithms has orthonormal rows for every accepted parameter value.", "quantifier": "for all whitened data, non-linearities, starting weights, tolerances and iteration limits", "why_tests_cant": "the regression tests compare with stored output; orthonormality is an invariant of all iterations on all data", "anchors": ["src/wai/ma/algorithm/ica/_FastICA.py:deflation", "src/wai/ma/algorithm/ica/_FastICA.py:parallel", "src/wai/ma/algorithm/ica/_FastICA.py:symmetric_decorrelation", "src/wai/ma/algorithm/ica/_FastICA.py:decorrelate"]}
{"id": "C89", "title": "FastICA non-linearities and their derivatives", "statement": "Cube, Exponential and LogCosH return g of every element and, per row, the mean of the derivative of g.", "quantifier": "for all non-empty matrices and all alpha", "why_tests_cant": "A derivative identity has to hold at all real arguments and for every alpha; finite differences on samples only approximate it.", "anchors": ["src/wai/ma/algorithm/ica/approxfun/_Cube.py:Cube", "src/wai/ma/algorithm/ica/approxfun/_Exponential.py:Exponential", "src/wai/ma/algorithm/ica/approxfun/_LogCosH.py:LogCosH"]}
{"id": "C90", "title": "norm1 and norm2 are norms", "statement": "norm1 is the sum of absolute entries. norm2 is the Euclidean length of a vector and the Frobenius norm divided by the square root of the smaller dimension otherwise. Both are non-negative, zero only for the zero matrix, scale with |s| and obey the triangle inequality; vector_dot obeys Cauchy-Schwarz with norm2, and norm2 is submultiplicative.", "quantifier": "for all real matrices of every non-empty shape and all scalars", "why_tests_cant": "inequalities over all pairs of matrices; the tests check single values", "anchors": ["src/wai/ma/core/matrix/_Matrix.py:norm1", "src/wai/ma/core/matrix/_Matrix.py:norm2", "src/wai/ma/core/matrix/_Matrix.py:norm2_squared", "src/wai/ma/core/matrix/_Matrix.py:vector_dot"]}
{"id": "C91", "title": "trace, max, head and shape predicates", "statement": "trace is the sum of the main diagonal of any matrix, linear, invariant under transposition and under exchanging two factors; max is attained and bounds every entry, and fails on empty matrices; head(n) is the first n rows, or all but the last -n rows for negative n; is_multiplicable_with and same_shape_as decide exactly when mul and add succeed.", "quantifier": "for all matrices of every shape and all integers n", "why_tests_cant": "identities over all matrices and the negative and empty boundary cases", "anchors": ["src/wai/ma/core/matrix/_Matrix.py:trace", "src/wai/ma/core/matrix/_Matrix.py:max", "src/wai/ma/core/matrix/_Matrix.py:head", "src/wai/ma/core/matrix/_Matrix.py:is_multiplicable_with", "src/wai/ma/core/matrix/_Matrix.py:is_square"]}
{"id": "C92", "title": "VCPLS weights maximise the penalised covariance criterion", "statement": "The weights are unit vectors that maximise ((Xv).y)^2 - lambda |v|^2 relative to |Xv|^2 + nu |v|^2; without penalty they are the normalised ridge coefficients. For every accepted lambda training never divides by zero while the number of components is at most the rank of the predictors, and then scores are orthogonal, predictions linear and the fit least squares. Changing the sign of the response changes only the sign of the predictions.", "quantifier": "for all predictors, responses, penalties and numbers of components up to the rank", "why_tests_cant": "an optimality claim over all directions and all data; the regression test compares one stored result", "anchors": ["src/wai/ma/algorithm/pls/_VCPLS.py:calculate_weights", "src/wai/ma/algorithm/pls/_VCPLS.py:validate_lambda_", "src/wai/ma/core/matrix/_Matrix.py:get_dominant_eigenvector"]}
{"id": "C93", "title": "normalized gives unit columns or rows", "statement": "normalized(0) divides every column by its Euclidean length and normalized(1) every row: the result has unit columns (rows) of the same direction, normalising twice is normalising once, positive factors do not matter, negative axes count from the end and any other axis is rejected. The result is free of NaN for finite data.", "quantifier": "for all real matrices of every shape and all integer axes", "why_tests_cant": "holds for every direction and every scale; the zero-column boundary and the axis convention need all inputs", "anchors": ["src/wai/ma/core/matrix/_Matrix.py:normalized"]}
{"id": "C94", "title": "vector access and diagonals", "statement": "get_from_vector(k) is entry k of a row or column vector, with negative positions from the end, and raises on other matrices; num_elements counts the entries; fill_diagonal sets exactly the main diagonal; diag returns the diagonal as a column; vector_to_diagonal and diag are inverse to each other, and multiplying by the diagonal matrix scales rows (left) or columns (right).", "quantifier": "for all matrices of every shape, all vectors, positions and values", "why_tests_cant": "frame conditions (no other cell changes) over all shapes, wide and tall", "anchors": ["src/wai/ma/core/matrix/_Matrix.py:get_from_vector", "src/wai/ma/core/matrix/_Matrix.py:diag", "src/wai/ma/core/matrix/_Matrix.py:vector_to_diagonal", "src/wai/ma/core/matrix/helper.py:fill_diagonal"]}
{"id": "C95", "title": "element-wise functions", "statement": "apply_elementwise applies the function to every cell; sqrt undoes squaring up to sign and is undone by squaring on non-negative entries, negative entries give NaN; element-wise powers add and multiply exponents; exp turns sums into products and is undone by the logarithm; tanh is odd, lies strictly between -1 and 1 and has the sign of its argument.", "quantifier": "for all real matrices and all natural exponents", "why_tests_cant": "Functional equations over all entries, signs and exponents, checked exactly rather than up to rounding.", "anchors": ["src/wai/ma/core/matrix/_Matrix.py:apply_elementwise", "src/wai/ma/core/matrix/_Matrix.py:sqrt", "src/wai/ma/core/matrix/_Matrix.py:pow_elementwise", "src/wai/ma/core/matrix/_Matrix.py:exp", "src/wai/ma/core/matrix/_Matrix.py:tanh"]}
{"id": "C96", "title": "inverse and solve", "statement": "For a regular square matrix inverse() is the two-sided inverse and solve(A, b) the only solution of A x = b; for a singular matrix both raise LinAlgError. For a matrix that is not square inverse() is the Moore-Penrose pseudo-inverse: a left inverse when the columns are independent and a right inverse when the rows are.", "quantifier": "for all real matrices of every shape and all right-hand sides", "why_tests_cant": "algebraic identities and uniqueness over all matrices", "anchors": ["src/wai/ma/core/matrix/_Matrix.py:inverse", "src/wai/ma/core/matrix/helper.py:solve", "src/wai/ma/core/matrix/helper.py:inverse"]}
{"id": "C97", "title": "PLS1 reaches ordinary least squares", "statement": "With as many components as predictors PLS1 predicts with the regression vector of ordinary least squares, (X^T X)^-1 X^T y. In general, once no further component exists the fit on the training data is the least-squares fit on all predictors; unless the response is uncorrelated with every predictor this happens at some number of components between one and the number of predictors, even if the predictors are collinear.", "quantifier": "for all real training data of every size and all new data", "why_tests_cant": "a statement about the end point of an iteration of unbounded length, on all data including collinear data", "anchors": ["src/wai/ma/algorithm/pls/_PLS1.py:do_perform_initialization", "src/wai/ma/algorithm/pls/_PLS1.py:do_perform_predictions"]}
{"id": "C98", "title": "PLS1 and SIMPLS do not depend on the order of samples or predictors", "statement": "Training on the same samples in another order, or with the predictors of all data in another order, gives the same scores and predictions for new data. More generally, orthogonal changes of coordinates of samples and predictors leave the predictions unchanged and rotate the training scores.", "quantifier": "for all real training data without a zero score, all numbers of components, all permutations and orthogonal matrices, and all new data", "why_tests_cant": "an equivariance over all data and all transformations", "anchors": ["src/wai/ma/algorithm/pls/_PLS1.py:do_perform_initialization", "src/wai/ma/algorithm/pls/_PLS1.py:calculate_weights", "src/wai/ma/algorithm/pls/_PLS1.py:do_transform", "src/wai/ma/algorithm/pls/_PLS1.py:do_perform_predictions", "src/wai/ma/algorithm/pls/_SIMPLS.py:do_perform_initialization"]}
{"id": "C99", "title": "PLS1 does not depend on the units of predictors and response", "statement": "Measuring all predictors in another common unit, and the response in another unit, makes PLS1 predict the same values in the new unit. A unit changed for a single predictor, by contrast, can change the predictions.", "quantifier": "for all real training data without a zero score, all non-zero factors of either sign, all numbers of components and all new data", "why_tests_cant": "An equivariance for all data and all factors of either sign, as an exact identity over the reals.", "anchors": ["src/wai/ma/algorithm/pls/_PLS1.py:do_perform_initialization", "src/wai/ma/algorithm/pls/_PLS1.py:calculate_weights", "src/wai/ma/algorithm/pls/_PLS1.py:do_perform_predictions"]}
{"id": "C100", "title": "DIPLS without a domain shift is PLS1", "statement": "When source and target domain have the same covariances (or the penalty is zero), DIPLS predicts exactly what PLS1 predicts: supervised, PLS1 trained on the centred rows of both domains together; unsupervised, PLS1 trained on the centred source rows, with new data centred by the target means. The mean of the response is added back.", "quantifier": "for all real source and target data with equal covariances or penalty zero and no zero score, all penalties, all numbers of components and all new data", "why_tests_cant": "an agreement of two training procedures over all data; a test compares one data set", "anchors": ["src/wai/ma/algorithm/pls/_DIPLS.py:do_perform_initialization", "src/wai/ma/algorithm/pls/_DIPLS.py:initialize_supervised", "src/wai/ma/algorithm/pls/_DIPLS.py:initialize_unsupervised", "src/wai/ma/algorithm/pls/_DIPLS.py:do_perform_predictions", "src/wai/ma/algorithm/pls/_PLS1.py:do_perform_initialization"]}
{"id": "C101", "title": "KernelPLS with the linear kernel is PLS1", "statement": "KernelPLS with the linear kernel and a single response predicts, for all new data, exactly what PLS1 predicts on the centred data, plus the mean of the response; the random start vectors, the tolerance and the iteration limit play no part.", "quantifier": "for all real training data without a zero score, all numbers of components, all tolerances, all iteration limits of at least two, all new data, and all start vectors that are not orthogonal to the score of their component and whose length differs from one by more than the tolerance", "why_tests_cant": "an agreement of an iterative method started at random vectors with a direct method, over all data; a test compares one data set up to a tolerance", "anchors": ["src/wai/ma/algorithm/pls/_KernelPLS.py:do_perform_initialization", "src/wai/ma/algorithm/pls/_KernelPLS.py:do_perform_predictions", "src/wai/ma/transformation/kernel/_LinearKernel.py:apply_matrix", "src/wai/ma/algorithm/pls/_PLS1.py:do_perform_initialization"]}
{"id": "C102", "title": "OPLS is PLS1 with the orthogonal components added", "statement": "OPLS that removes k orthogonal components and then fits PLS1 with K components predicts, for every data set, exactly what PLS1 with k + K components predicts.", "quantifier": "for all predictors and responses on which PLS1 with the larger number of components meets no score of length zero, every K >= 1, and every data set to predict", "why_tests_cant": "Unit tests compare OPLS with a stored reference run of itself on one data set; that the filtered model and the larger PLS1 model coincide is an identity over all matrices, and it fails for k >= 2 only through a term that is small on typical data.", "anchors": ["src/wai/ma/algorithm/pls/_OPLS.py:do_perform_initialization", "src/wai/ma/algorithm/pls/_OPLS.py:do_transform", "src/wai/ma/algorithm/pls/_OPLS.py:do_perform_predictions", "src/wai/ma/algorithm/pls/_PLS1.py:do_perform_initialization", "src/wai/ma/algorithm/pls/_PLS1.py:do_perform_predictions"]}
{"id": "C103", "title": "A trained model treats every sample on its own", "statement": "Applying a fitted transformation, filter or trained algorithm to a data set gives each sample a result that depends on that sample only: predicting a batch, its samples one at a time, in another order, or stacked on further samples gives the same rows, and fails exactly when a single sample would fail.", "quantifier": "for every transformation, filter, kernel and algorithm of the library, all states they can be in after fitting, all data sets with at least one row (of any width, fitting or not), and all selections of their samples", "why_tests_cant": "A statement about all pairs of data sets sharing a sample; a test transforms one data set. Code that peeks at the other rows (batch statistics, deflation with the new data, refitting) gives the same answer on the data it was tuned on.", "anchors": ["src/wai/ma/transformation/_Center.py:do_transform", "src/wai/ma/transformation/_Standardize.py:do_transform", "src/wai/ma/transformation/_RowNorm.py:do_transform", "src/wai/ma/transformation/_SavitzkyGolay.py:do_transform", "src/wai/ma/transformation/_FFT.py:do_transform", "src/wai/ma/algorithm/pls/_PLS1.py:do_perform_predictions", "src/wai/ma/algorithm/pls/_PLS1.py:do_transform", "src/wai/ma/algorithm/pls/_AbstractSingleResponsePLS.py:do_predict", "src/wai/ma/algorithm/pls/_AbstractMultiResponsePLS.py:do_predict", "src/wai/ma/algorithm/pls/_SIMPLS.py:do_perform_predictions", "src/wai/ma/algorithm/pls/_OPLS.py:do_transform", "src/wai/ma/algorithm/pls/_NIPALS.py:do_perform_predictions", "src/wai/ma/algorithm/pls/_KernelPLS.py:do_perform_predictions", "src/wai/ma/algorithm/pls/_DIPLS.py:do_perform_predictions", "src/wai/ma/algorithm/pls/_SparsePLS.py:do_perform_predictions", "src/wai/ma/algorithm/pls/_SparsePLS.py:do_transform", "src/wai/ma/algorithm/_PCA.py:transform"]}
{"id": "C104", "title": "PRM: transform gives the scores behind predict when samples are at least as many as variables, and raises otherwise", "statement": "After PRM has been trained on n samples with p \u2264 n variables, transform(Z) = Z\u00b7W for the weights W of the inner SIMPLS model and predict(Z) = (Z\u00b7W)\u00b7gamma, whatever tol, max_iter, C and slimming are, and both succeed for every Z with p columns. With n < p training succeeds and predict works, but transform raises ValueError for every matrix with p columns, because the weights belong to the reduced problem with n variables.", "quantifier": "for all n, p, training matrices X and responses y, all parameter settings of PRM, all matrices Z with p columns", "why_tests_cant": "Tests train PRM on one tall data set and never call transform; the failing shape is a wide data set.", "anchors": ["src/wai/ma/algorithm/pls/_PRM.py:PRM.do_transform", "src/wai/ma/algorithm/pls/_PRM.py:PRM.do_perform_initialization", "src/wai/ma/algorithm/pls/_SIMPLS.py:SIMPLS"]}
{"id": "C105", "title": "PRM with C = infinity is SIMPLS, as documented, unless the median absolute residual is zero", "statement": "With the tuning constant C set to infinity (documented as 'c=Infinity is equal to SIMPLS result') every PRM weight is one, so PRM holds exactly the coefficient matrix and weights of one SIMPLS run on the unweighted data, for every tol and max_iter, provided the residual and score scales are non-zero. If more than half of the responses are equal, the scale is zero, all initial residual weights are NaN and the inner model is trained on NaN only.", "quantifier": "for all data sets of finite numbers, all tol and max_iter; for all data sets in which more than half of the responses coincide", "why_tests_cant": "It relates two algorithms for all data; a test compares at most a few data sets and the NaN case needs tied responses.", "anchors": ["src/wai/ma/algorithm/pls/_PRM.py:PRM", "src/wai/ma/algorithm/pls/_PRM.py:PRM.update_residual_weights", "src/wai/ma/algorithm/pls/_PRM.py:PRM.update_leverage_weights"]}
{"id": "C106", "title": "The kernel matrices of all three kernels are positive semidefinite for non-negative parameters", "statement": "For every data matrix X, apply_matrix(X) of the linear kernel, of the polynomial kernel with coef0 \u2265 0 and gamma \u2265 0 (or default) of any degree, and of the RBF kernel with gamma \u2265 0 (or NAN) is a symmetric positive semidefinite matrix, which KernelPLS presupposes. This holds for the RBF kernel although the code uses exp(-gamma\u00b7\u2016x-y\u2016) without squaring the distance. A negative gamma (RBF) or a negative coef0 with an odd degree (polynomial) breaks it and nothing rejects these values.", "quantifier": "for all numbers of samples and variables, all data matrices, all non-negative parameters, all coefficient vectors of the quadratic form", "why_tests_cant": "Positive semidefiniteness is a statement about every quadratic form on every data set; a test can sample a few.", "anchors": ["src/wai/ma/transformation/kernel/_RBFKernel.py:RBFKernel", "src/wai/ma/transformation/kernel/_PolyKernel.py:PolyKernel", "src/wai/ma/transformation/kernel/_LinearKernel.py:LinearKernel"]}
{"id": "C107", "title": "The normalisations remove exactly the offset and gain they are meant to remove, and applying them twice changes nothing", "statement": "RowNorm gives the same output for a spectrum and for any positive multiple of it plus any constant (a negative multiple flips the sign), whatever factor and offset each row has. Center fitted and applied on rescaled and shifted columns gives the rescaled columns without the shift. Standardize with no constant column gives the same output whatever positive factor and offset each column has. Multiplicative scatter correction gives the same output for a sample whose values in every correction range were multiplied by a non-zero gain and shifted, if the ranges do not overlap on the sample's wavelengths. The d-th Savitzky-Golay derivative ignores any added polynomial baseline of degree below d. RowNorm, Center, Standardize and the scatter correction are idempotent.", "quantifier": "for all matrix sizes, all data, all gains and offsets per row, column or range, all window sizes, polynomial orders and derivative orders", "why_tests_cant": "Each statement quantifies over all factors, offsets and baselines; a test fixes a few of them and compares numbers up to rounding.", "anchors": ["src/wai/ma/transformation/_RowNorm.py:RowNorm", "src/wai/ma/transformation/_Center.py:Center", "src/wai/ma/transformation/_Standardize.py:Standardize", "src/wai/ma/transformation/_MultiplicativeScatterCorrection.py:RangeBased", "src/wai/ma/transformation/_SavitzkyGolay.py:SavitzkyGolay", "src/wai/ma/core/utils.py:linear_regression"]}
{"id": "C108", "title": "Training does not depend on the order of the samples", "statement": "Reordering the rows of the training data (predictors and responses together) changes nothing a user can see of the trained model: the matrices of PLS1, VCPLS and SIMPLS are the same; predictions and scores of NIPALS, CCARegression, OPLS and SparsePLS (and the selected predictors) are the same; the projections of GLSW, EPO and CCAFilter are the same; PCA keeps the same columns, centre, covariance, eigenvectors, loadings and scores of other data. The three preprocessing modes of the base classes keep this. For DIPLS source and target samples may be reordered independently under all three strategies. PRM with at least as many samples as predictors gives the same predictions, scores and number of iterations and its case weights are reordered with the samples. KernelPLS with one response and a positive semidefinite kernel (all three kernels of the library with non-negative parameters) gives the same predictions for every order of the samples, and also for every other random start, tolerance and iteration limit, provided no start vector is orthogonal to the score of its component. If training fails, it fails with the same exception for every order.", "quantifier": "for all numbers of samples, predictors, responses and components, all data, all permutations of the samples, all parameters, any numerical routines (inverse, eigenvalues, pseudo-inverse where stated to follow a reordering)", "why_tests_cant": "There are n! orders of n samples and unboundedly many data sets; a test compares a few shuffles up to rounding.", "anchors": ["src/wai/ma/algorithm/pls/_PLS1.py:PLS1.do_perform_initialization", "src/wai/ma/algorithm/pls/_VCPLS.py:VCPLS", "src/wai/ma/algorithm/pls/_SIMPLS.py:SIMPLS.do_perform_initialization", "src/wai/ma/algorithm/pls/_NIPALS.py:NIPALS.do_perform_initialization", "src/wai/ma/algorithm/pls/_CCARegression.py:CCARegression", "src/wai/ma/algorithm/pls/_OPLS.py:OPLS.do_perform_initialization", "src/wai/ma/algorithm/pls/_SparsePLS.py:SparsePLS.do_perform_initialization", "src/wai/ma/algorithm/pls/_DIPLS.py:DIPLS", "src/wai/ma/algorithm/pls/_PRM.py:PRM", "src/wai/ma/algorithm/pls/_AbstractSingleResponsePLS.py:AbstractSingleResponsePLS", "src/wai/ma/algorithm/pls/_AbstractMultiResponsePLS.py:AbstractMultiResponsePLS", "src/wai/ma/algorithm/glsw/_GLSW.py:GLSW", "src/wai/ma/algorithm/glsw/_EPO.py:EPO", "src/wai/ma/algorithm/_CCAFilter.py:CCAFilter", "src/wai/ma/algorithm/_PCA.py:PCA.configure", "src/wai/ma/algorithm/pls/_KernelPLS.py:KernelPLS.do_perform_initialization"]}
{"id": "C109", "title": "SparsePLS is NIPALS on the selected variables", "statement": "Whatever set of variables SparsePLS ends up selecting, its predictions equal those of a NIPALS model trained on the raw selected columns alone, with the requested number of components or the number of selected columns, whichever is smaller, and applied to the selected columns of the new data; the coefficients of all other variables are zero.", "quantifier": "for all data without constant columns, all sparsity parameters, all numbers of components, all non-empty selected sets and all new data", "why_tests_cant": "equality of two training programs for every selected set and every input", "anchors": ["src/wai/ma/algorithm/pls/_SparsePLS.py:SparsePLS", "src/wai/ma/algorithm/pls/_NIPALS.py:NIPALS"]}
{"id": "C110", "title": "NaN and infinities in text", "statement": "Infinities are written as the constants +Infinity and -Infinity (inf and -inf when the number of decimals is -1), NaN as the constant NaN; a matrix with such entries is restored by writing and reading, the special values exactly and the finite ones to the number of decimals. Called with a matrix only, to_string gives a heading, tab-separated cells and six decimals.", "quantifier": "for all matrices of finite numbers, infinities and NaN, all numbers of decimals, separators and header choices", "why_tests_cant": "all matrices and texts; special values are rarely tried", "anchors": ["src/wai/ma/core/utils.py:real_to_string_fixed", "src/wai/ma/core/matrix/helper.py:to_string", "src/wai/ma/core/matrix/helper.py:read", "src/wai/ma/core/matrix/helper.py:write"]}
{"id": "C111", "title": "Default parameters", "statement": "A newly constructed algorithm object has the documented default parameters, and initialize() without data restores them, succeeds and leaves the object untrained.", "quantifier": "for all 17 algorithm classes, all behaviours of training and prediction, and all histories of calls before", "why_tests_cant": "all histories of calls, including failing ones", "anchors": ["src/wai/ma/algorithm/pls/_AbstractPLS.py:AbstractPLS", "src/wai/ma/core/_LoggingObject.py:LoggingObject", "src/wai/ma/algorithm/_PCA.py:PCA", "src/wai/ma/algorithm/ica/_FastICA.py:FastICA", "src/wai/ma/algorithm/_CCAFilter.py:CCAFilter", "src/wai/ma/algorithm/glsw/_EPO.py:EPO"]}
{"id": "C112", "title": "NIPALS, CCARegression and SparsePLS do not depend on the units of the data", "statement": "Changing the unit and the zero point of every predictor and of the response (new value = a times old value plus b, a positive) changes nothing but the unit of the predictions: training succeeds or fails in the same way, the weights, loadings, scores and (for SparsePLS) the selected variables are the same, new samples in the new units get the same scores, and the predictions are the old ones converted to the new unit.", "quantifier": "for all configurations of the method, all data without constant columns, all positive factors and all offsets, all new samples", "why_tests_cant": "relation between two runs of an iterative training program over all inputs and all conversions", "anchors": ["src/wai/ma/algorithm/pls/_NIPALS.py:NIPALS", "src/wai/ma/algorithm/pls/_CCARegression.py:CCARegression", "src/wai/ma/algorithm/pls/_SparsePLS.py:SparsePLS", "src/wai/ma/transformation/_Standardize.py:Standardize"]}
{"id": "C113", "title": "Training and prediction leave the caller's matrices alone and the model shares none of them", "statement": "Initialising PLS1, VCPLS, SIMPLS, OPLS (over any base algorithm that is itself safe, in particular PLS1), NIPALS, CCARegression, SparsePLS (with its inner NIPALS objects), KernelPLS (linear, polynomial or RBF kernel) or PRM (with its inner SIMPLS objects), with any preprocessing, or DIPLS (a new object, unsupervised, supervised or semi-supervised), and predicting or transforming with the result never changes a matrix object that existed before the call, whether the call returns or raises. What is computed is the function of the contents of the arguments given by the value-level model, the result is a new object, and the trained model is independent of the caller's objects: overwriting the training matrices in place afterwards, or training another model, leaves its predictions unchanged. Limit: get_matrix hands out the model's own matrix object; changing an entry of b_hat obtained that way changes the predictions.", "quantifier": "all heaps of matrix objects that share no arrays, all training, response and test objects in them (also the same object used twice), all preprocessing types, numbers of components and hyper-parameters, all later states of the heap that leave the model's own objects alone; any scalar field", "why_tests_cant": "the training loops change several matrices in place (set, set_column, set_row, slim) and pass others on by reference; a test that compares results cannot see that an argument or an attribute of another object was modified, and in-place overwriting after training is an interleaving that no finite set of tests covers", "anchors": ["src/wai/ma/algorithm/pls/_PLS1.py:PLS1", "src/wai/ma/algorithm/pls/_VCPLS.py:VCPLS", "src/wai/ma/algorithm/pls/_SIMPLS.py:SIMPLS", "src/wai/ma/algorithm/pls/_OPLS.py:OPLS", "src/wai/ma/core/matrix/_Matrix.py:Matrix", "src/wai/ma/algorithm/pls/_NIPALS.py:NIPALS", "src/wai/ma/algorithm/pls/_SparsePLS.py:SparsePLS", "src/wai/ma/algorithm/pls/_KernelPLS.py:KernelPLS", "src/wai/ma/algorithm/pls/_PRM.py:PRM", "src/wai/ma/algorithm/pls/_DIPLS.py:DIPLS"]}
{"id": "C114", "title": "PLS1 is least squares over a Krylov space", "statement": "With K components for which every score is nonzero, the weight matrix PLS1 stores is an orthonormal basis of the span of X'y, (X'X)X'y, ..., (X'X)^(K-1)X'y; the stored regression vector lies in that space, gives the predictions, and is the only vector of the space with the smallest sum of squared training residuals. SIMPLS with one response, NIPALS in regression mode (on standardised data) and KernelPLS with the linear kernel (on centred data) predict with the same characterisation, so the number of components, not the algorithm, fixes the model.", "quantifier": "all n by p real matrices X, all response columns y, all K >= 1 for which the K scores are nonzero, all prediction matrices; for the other algorithms all configurations meeting the hypotheses of C73, C74, C101", "why_tests_cant": "the claim compares the code's result with every vector of a linear space that depends on the data and says what the deflation loop computes without reference to the loop; tests only compare stored regression outputs", "anchors": ["src/wai/ma/algorithm/pls/_PLS1.py:PLS1", "src/wai/ma/algorithm/pls/_SIMPLS.py:SIMPLS", "src/wai/ma/algorithm/pls/_NIPALS.py:NIPALS", "src/wai/ma/algorithm/pls/_KernelPLS.py:KernelPLS"]}
{"id": "C115", "title": "PLS1 shrinks: the regression vector grows with the number of components and stays below least squares", "statement": "The Euclidean length of the regression vector stored by PLS1 strictly increases with the number of components, and is never larger than the length of any solution of the normal equations (X'X)c = X'y, in particular the minimum-norm one.", "quantifier": "all real X and y, all numbers of components K < K' for which the scores are nonzero, all solutions c of the normal equations", "why_tests_cant": "an inequality between models for all data and between the model and all least-squares solutions; a test sees one data set and one pair", "anchors": ["src/wai/ma/algorithm/pls/_PLS1.py:PLS1"]}
{"id": "C116", "title": "PLS1 fits at least as well as principal component regression with as many components", "statement": "The sum of squared training residuals of PLS1 with K components is at most that of any linear combination of the scores of at most K principal components with the largest variances.", "quantifier": "all real X, y, all K with nonzero scores, all orthonormal eigenbases of X'X, all choices of at most K components such that no component left out has a larger eigenvalue, all coefficients", "why_tests_cant": "quantifies over every coefficient vector and every eigenbasis, including tied eigenvalues", "anchors": ["src/wai/ma/algorithm/pls/_PLS1.py:PLS1", "src/wai/ma/algorithm/_PCA.py:PCA"]}
{"id": "C117", "title": "Each PLS1 component maximises the covariance with the response", "statement": "Each weight vector stored by PLS1 has length one, the k-th score is the predictors left by the earlier components (X minus the earlier scores times loadings) times that weight vector, and its inner product with the response is the largest among all directions of length one.", "quantifier": "all real X and y, all K with nonzero scores, every component k, all unit directions u", "why_tests_cant": "Optimality is a comparison with every direction in space, an uncountable family.", "anchors": ["src/wai/ma/algorithm/pls/_PLS1.py:PLS1"]}
{"id": "C118", "title": "Savitzky-Golay output is the derivative of the best-fitting polynomial, with the least noise", "statement": "Each output value of the Savitzky-Golay filter times d! is the d-th derivative, at the position of the window centre, of the polynomial of degree at most p that fits the values of the window best in least squares, and that polynomial is unique. Among all coefficient vectors that reproduce polynomials of degree at most p, the ones computed have the smallest sum of squares, so the smallest variance under independent noise, and no other vector attains it.", "quantifier": "all window sizes l and r, polynomial orders p and derivative orders d with d <= p <= l + r and 1 <= l + r, all real matrices with at least l + r + 1 columns, all polynomials, all competing filters", "why_tests_cant": "optimality over all polynomials and over all filters", "anchors": ["src/wai/ma/transformation/_SavitzkyGolay.py:SavitzkyGolay"]}
{"id": "C119", "title": "PCA scores are uncorrelated and no other directions keep more variance", "statement": "The scores returned by PCA have mean zero. When the eigenvalues are distinct, or the eigenvectors returned are orthonormal, scores of different components are uncorrelated, the variance of each is its eigenvalue, no other K orthonormal directions give scores of larger total variance, and no projection on K directions reconstructs the prepared data with a smaller squared error.", "quantifier": "all real training data with at least one non-constant column, all settings of variance, maximum columns and centring, all eigenvalue and sorting routines that meet their specification, all competing sets of K orthonormal directions", "why_tests_cant": "Optimality is a comparison with every set of orthonormal directions and every valid eigensolver output.", "anchors": ["src/wai/ma/algorithm/_PCA.py:PCA"]}
{"id": "C120", "title": "get_loadings returns the loadings", "statement": "A PLS class whose has_loadings is true backs get_loadings with an attribute that training assigns; get_loadings never raises, answers None before training and after a reset, and for a trained model returns loadings of the predictors: one row per predictor, and scores times the transposed loadings is the best approximation of the training predictors by the scores.", "quantifier": "All PLS classes, all histories of calls, all training data, options and numbers of components (under the classes' regularity conditions).", "why_tests_cant": "The result depends on attributes set by training in earlier calls, and a matrix of plausible shape can be checked by a test without being the loadings of the scores.", "anchors": ["src/wai/ma/algorithm/pls/_PLS1.py:PLS1", "src/wai/ma/algorithm/pls/_NIPALS.py:NIPALS", "src/wai/ma/algorithm/pls/_SIMPLS.py:SIMPLS", "src/wai/ma/algorithm/pls/_KernelPLS.py:KernelPLS", "src/wai/ma/algorithm/pls/_DIPLS.py:DIPLS", "src/wai/ma/algorithm/pls/_OPLS.py:OPLS"]}
{"id": "C121", "title": "Models with fewer components are part of models with more", "statement": "Training with k components stores exactly the first k columns of the scores, weights and loadings (and the first k score coefficients) that training with K >= k components stores; PCA asked for more variance or more columns keeps at least as many components and the common ones are the same.", "quantifier": "All data, all k <= K, all options and base models; NIPALS/CCARegression in any arithmetic and with any stopping rule.", "why_tests_cant": "Quantifies over pairs of training runs of any length; a test compares a few sizes on one data set.", "anchors": ["src/wai/ma/algorithm/pls/_PLS1.py:PLS1", "src/wai/ma/algorithm/pls/_VCPLS.py:VCPLS", "src/wai/ma/algorithm/pls/_SIMPLS.py:SIMPLS", "src/wai/ma/algorithm/pls/_KernelPLS.py:KernelPLS", "src/wai/ma/algorithm/pls/_OPLS.py:OPLS", "src/wai/ma/algorithm/pls/_DIPLS.py:DIPLS", "src/wai/ma/algorithm/pls/_NIPALS.py:NIPALS", "src/wai/ma/algorithm/_PCA.py:PCA"]}
{"id": "C122", "title": "Predictions for the training data explain a fraction of the response: analysis of variance and R\u00b2 of the PLS regressors", "statement": "On the data they were trained on, the predictions of PLS1, VCPLS and SIMPLS (centred data), of NIPALS with one response (any data) and of KernelPLS with the linear kernel (any data) behave like fitted values: the residuals sum to zero, they are uncorrelated with the predictions, and the variation of the response about its mean is exactly the variation of the predictions about that mean plus the sum of squared residuals. Hence R\u00b2 is the explained fraction of the variation, lies between 0 and 1, and does not decrease when more components are used.", "quantifier": "for all numbers of samples, features and components K <= K', all real predictor and response matrices on which no score vanishes; for NIPALS and KernelPLS all (uncentred) data, every pseudo-inverse returning the inverse of invertible matrices, every random start with enough weight", "why_tests_cant": "A test can compute R\u00b2 on one data set; that R\u00b2 is the explained fraction, stays within [0,1] and never falls with more components on every data set is an orthogonality statement about the whole deflation loop together with the code's own centring and rescaling.", "anchors": ["src/wai/ma/algorithm/pls/_PLS1.py:PLS1", "src/wai/ma/algorithm/pls/_SIMPLS.py:SIMPLS", "src/wai/ma/algorithm/pls/_NIPALS.py:NIPALS", "src/wai/ma/algorithm/pls/_KernelPLS.py:KernelPLS"]}
{"id": "C123", "title": "The inner iteration of KernelPLS converges and ends by its tolerance", "statement": "For a positive semidefinite (centred, deflated) kernel matrix the repetition t = K u / |K u|, u = Y Y^T t / |Y Y^T t| of KernelPLS converges: unless the second pass divides by zero, u tends to a unit vector with Y Y^T K u = l u and l > 0, where l is at least every eigenvalue whose eigenvector is present in the start vector. Consequently, for every positive tolerance, the loop ends because u changed by at most tol once max_iter is large enough, and from some N on the whole trained model is independent of max_iter.", "quantifier": "for all numbers of samples, predictors, responses and components, all data, all start vectors whose second pass is not zero, all positive tolerances; kernels as in C106", "why_tests_cant": "Convergence is a statement about a limit over unboundedly many passes and about all start vectors; a test runs finitely many passes from one random start vector and cannot tell slow convergence from none.", "anchors": ["src/wai/ma/algorithm/pls/_KernelPLS.py:KernelPLS"]}
{"id": "C124", "title": "What CCARegression fits for one response", "statement": "With one response, CCARegression uses one component whatever the number asked for. Its score is the combination of the standardised predictors with the highest correlation with the response. Its predictions are mean + standard deviation * f * (standardised predictors * b), where b are the minimum-norm least-squares coefficients; for uncorrelated predictors f is 1 up to the 1e-16 guards, so that the predictions are those of least squares. The full claim, least-squares predictions for all data, is false: correlated predictors are predicted with another scale (a predictor given twice doubles the predictions), and with as many predictors as samples training raises because the standardised matrix is square and singular.", "quantifier": "all data with one response that is not constant and not practically unrelated to the predictors (n >= 2, n different from the number of predictors for the positive part), all numbers of components, all prediction inputs, all routines that return Moore-Penrose inverses", "why_tests_cant": "Tests compare one data set with stored reference output; neither optimality of the correlation over all combinations nor the scale of the predictions for all data can be sampled.", "anchors": ["src/wai/ma/algorithm/pls/_CCARegression.py:CCARegression", "src/wai/ma/algorithm/pls/_NIPALS.py:NIPALS", "src/wai/ma/core/matrix/_Matrix.py:Matrix.inverse"]}
{"id": "C125", "title": "FastICA with fewer components keeps the best approximation of the data", "statement": "When FastICA (with whitening) is asked for K components, fewer than or as many as the data have features, whose singular values are not zero, then the sources it returns are uncorrelated with zero mean and equal variance, and sources times the transposed mixing matrix is the orthogonal projection of the centred data on K directions; no projection of the centred data on any K orthonormal directions has a smaller sum of squared errors. reconstruct() on such an object raises ValueError unless the data are square.", "quantifier": "all numbers of samples, features and components, all data, all orthonormal sets of K directions, every non-linearity and either algorithm as long as the weights found are orthonormal (C88)", "why_tests_cant": "A test compares one reconstruction against a stored matrix; optimality among all K-dimensional projections is a statement about infinitely many competitors.", "anchors": ["src/wai/ma/algorithm/ica/_FastICA.py:FastICA"]}
{"id": "C126", "title": "The geometric median of PRM ends by its tolerance near the minimum", "statement": "As long as no iterate comes within 1e-10 of a data point, every pass of geometric_median lowers the sum of distances by at least n^2 |step|^2 / (2 sum); for a positive tol and a max_iter above 2 (sum of distances from the mean)^2 / (n^2 tol) the loop therefore ends because the step is short, not because of max_iter, and the returned point has a sum of distances at most (sum of inverse distances) * sqrt(tol) * distance above that of any other point.", "quantifier": "all point sets of at least two points in any dimension, all positive tolerances, all competing points", "why_tests_cant": "Convergence for every data set with an explicit number of passes, and optimality against all points, cannot be sampled.", "anchors": ["src/wai/ma/algorithm/pls/_PRM.py:PRM.geometric_median"]}
{"id": "C127", "title": "GLSW and EPO learn only from differences between paired samples and never lengthen a sample", "statement": "The matrix fitted by GLSW and EPO is unchanged when the same matrix is added to both data sets, when either is shifted by an offset per variable, when the data sets are swapped and when the pairs are reordered - whatever the eigensolver returns. With orthonormal eigenvectors the GLSW filter never lengthens a sample nor moves two samples apart, shrinks none by more than the weight of the largest clutter eigenvalue, and keeps distinct samples distinct; the EPO filter never lengthens a sample and applying it twice equals applying it once.", "quantifier": "all paired data sets, all added matrices, offsets and permutations, all filtered data of any number of rows", "why_tests_cant": "Invariance under every added matrix and contraction for every sample are universally quantified over real data.", "anchors": ["src/wai/ma/algorithm/glsw/_GLSW.py:GLSW.do_initialize", "src/wai/ma/algorithm/glsw/_GLSW.py:GLSW.get_covariance_matrix", "src/wai/ma/algorithm/glsw/_EPO.py:EPO"]}
{"id": "C128", "title": "PLS1 and SIMPLS see the training data only through X\u1d40X and X\u1d40y", "statement": "Two training sets, possibly with different numbers of samples, whose second moments X\u1d40X and X\u1d40y are proportional with the same positive factor give PLS1 the same weights, loadings and coefficients, and give SIMPLS the same predictions. With equal second moments SIMPLS returns the same result outright, slimmed or not, failing or not. Entering every sample the same number of times changes nothing in a PLS1 trained without preprocessing or with centering.", "quantifier": "all real training sets of all sizes, all positive factors, all component counts for which the first data set's scores do not vanish; for SIMPLS with equal moments all scalars, all eigenvector routines, all settings; all ways of repeating samples equally often", "why_tests_cant": "The claim relates runs on two different data sets of different sizes for every pair of data sets; a test compares one pair, and rounding hides exact equality.", "anchors": ["src/wai/ma/algorithm/pls/_PLS1.py:PLS1.do_perform_initialization", "src/wai/ma/algorithm/pls/_SIMPLS.py:SIMPLS.do_perform_initialization", "src/wai/ma/algorithm/pls/_AbstractSingleResponsePLS.py:AbstractSingleResponsePLS.do_initialize"]}
{"id": "C129", "title": "Printing a matrix gives its comma-separated text; files need no final line break", "statement": "str(matrix) is the comma-separated text of the matrix without header, the same text to_string gives with commas and unlimited decimals, and reading that text with commas restores the matrix. A file whose last line has no line break is read exactly as the same file with it, whatever its content. The shape texts '[r x c]' and 'r x c' determine the shape.", "quantifier": "all matrices with at least one entry, all number formats that read back and contain neither comma nor line break; all file contents, all separators without line feed, with and without header, by name and as stream", "why_tests_cant": "The claim covers every shape, every entry text and every file content; a test prints a few matrices.", "anchors": ["src/wai/ma/core/matrix/_Matrix.py:Matrix.__str__", "src/wai/ma/core/matrix/_Matrix.py:Matrix.row_str", "src/wai/ma/core/matrix/_Matrix.py:Matrix.shape_string", "src/wai/ma/core/matrix/helper.py:read", "src/wai/ma/core/matrix/helper.py:dim"]}
{"id": "C130", "title": "FFT amplitudes carry the energy of the rows and ignore cyclic shifts", "statement": "In amplitude mode the squared amplitudes of an output row, counting every frequency but zero and the highest twice, sum to the energy (sum of squares) of one row of the data, each row being accounted for once; without orthonormalisation the sum is multiplied by the number of columns (Parseval). Amplitudes do not change when all rows are shifted cyclically, and scale with the absolute value of a gain, while phases ignore a positive gain. Real parts, imaginary parts and pairs of them depend linearly on the data.", "quantifier": "all real matrices with any number of rows and at least one column, both normalisations, all cyclic shifts, all gains", "why_tests_cant": "Energy, shift and linearity laws relate the outputs for all data of all sizes (odd and even column counts treat the highest frequency differently); tests compare rounded outputs for a few sizes.", "anchors": ["src/wai/ma/transformation/_FFT.py:FFT.do_transform", "src/wai/ma/transformation/_FFT.py:FFT.internal_format", "src/wai/ma/transformation/_FFT.py:format_amplitude_only", "src/wai/ma/transformation/_FFT.py:format_phase_angle_only"]}
{"id": "C131", "title": "Only the geometry of the samples matters: KernelPLS under rotations and shifts, PLS1 and SIMPLS when the samples are placed in a larger space", "statement": "PLS1, SIMPLS (without slimming) and KernelPLS (linear, polynomial and RBF kernel) depend on the geometry of the samples, not on the coordinates they are written in: multiplying training and new samples by a matrix Q with Q Q^T = 1 (a rotation, a reflection, a permutation of columns, and for PLS1 and SIMPLS also adding columns of zeros) changes no prediction and no PLS1 score. With centring the training samples of PLS1 may also be shifted; KernelPLS centres itself, so training and new samples may be shifted together.", "quantifier": "for every number of components, every training set with non-zero scores (KernelPLS: every training set, including those on which training fails), every new data set, every matrix Q with orthonormal rows and every shift", "why_tests_cant": "The claim relates two runs on different real data for all rotations; a test compares a few rotations up to rounding.", "anchors": ["src/wai/ma/algorithm/pls/_PLS1.py:PLS1.do_perform_initialization", "src/wai/ma/algorithm/pls/_SIMPLS.py:SIMPLS.do_perform_initialization", "src/wai/ma/algorithm/pls/_KernelPLS.py:KernelPLS.do_perform_initialization", "src/wai/ma/transformation/kernel/_RBFKernel.py:RBFKernel.apply_vector", "src/wai/ma/transformation/kernel/_PolyKernel.py:PolyKernel.apply_matrix"]}
{"id": "C132", "title": "A larger lambda_ makes the DIPLS scores of the two domains more alike", "statement": "Training DIPLS on the same source and target samples with a larger lambda_ makes the variance of the first source scores and the variance of the first target scores differ by at most as much as with the smaller lambda_.", "quantifier": "for all source and target samples of any size, all responses, all component counts and all pairs 0 <= lambda <= lambda'", "why_tests_cant": "The claim compares two trainings over a continuum of regularisation strengths and all data; any finite grid of strengths on given data can be monotone while other data are not.", "anchors": ["src/wai/ma/algorithm/pls/_DIPLS.py:DIPLS", "src/wai/ma/algorithm/pls/_DIPLS.py:DIPLS.validate_lambda_", "src/wai/ma/algorithm/pls/_DIPLS.py:DIPLS.initialize_unsupervised"]}
{"id": "C133", "title": "However wrong a minority of the responses are, the first pass of PRM stays bounded", "statement": "PRM is the robust PLS of the library. If more than half of the training responses are at most M in absolute value then, whatever the other responses are, the first residual weights lie in (0,1], a response y beyond M gets a weight of at most (2CM/(|y|-M))^2, every weighted response handed to the inner PLS model in the first pass is at most (1+2C)M in absolute value, and a model that stops after one pass predicts with the coefficients of exactly such an inner model. With half of the responses wrong there is no bound.", "quantifier": "all sample counts of at least two, all responses and predictors, all bounds M, all positive fair constants C and all inner models; the median absolute deviation of the responses is not zero", "why_tests_cant": "A test contaminates one data set with one outlier of one size. Robustness is about outliers of any size in any positions.", "anchors": ["src/wai/ma/algorithm/pls/_PRM.py:PRM.update_residual_weights", "src/wai/ma/algorithm/pls/_PRM.py:PRM.fair_function", "src/wai/ma/algorithm/pls/_PRM.py:PRM.get_reweighted_matrix", "src/wai/ma/algorithm/pls/_PRM.py:PRM.do_perform_initialization"]}
{"id": "C134", "title": "Whatever was done with an algorithm object before, training it and asking any questions gives what its formulas give for the current parameters", "statement": "For VCPLS, SIMPLS, PRM, SparsePLS, NIPALS, CCARegression, GLSW, EPO, YGradientGLSW, YGradientEPO, KernelPLS and OPLS (around any base algorithm object): take an object in any state, with the parameters it has now (including the state of its kernel or base algorithm object). Training it on X, Y and then asking it for any sequence of predictions or transforms gives exactly the list of answers that the training function of those parameters and the prediction function of the resulting model give. If training raises, that error is reported and every question after it is refused. No earlier training, reset, assignment or question leaves a trace, and no question changes the answer of a later one.", "quantifier": "for every object state, every parameter setting, all training data that pass the documented checks, every list of queries, predict and transform", "why_tests_cant": "Tests train a few fresh objects and ask one question each; the claim is about every history of one object and every sequence of questions.", "anchors": ["src/wai/ma/algorithm/_AbstractAlgorithm.py:AbstractAlgorithm", "src/wai/ma/algorithm/pls/_AbstractPLS.py:AbstractPLS", "src/wai/ma/algorithm/pls/_AbstractSingleResponsePLS.py:AbstractSingleResponsePLS", "src/wai/ma/algorithm/pls/_AbstractMultiResponsePLS.py:AbstractMultiResponsePLS", "src/wai/ma/algorithm/pls/_VCPLS.py:VCPLS", "src/wai/ma/algorithm/pls/_SIMPLS.py:SIMPLS", "src/wai/ma/algorithm/pls/_PRM.py:PRM", "src/wai/ma/algorithm/pls/_SparsePLS.py:SparsePLS", "src/wai/ma/algorithm/pls/_NIPALS.py:NIPALS", "src/wai/ma/algorithm/pls/_CCARegression.py:CCARegression", "src/wai/ma/algorithm/glsw/_GLSW.py:GLSW", "src/wai/ma/algorithm/glsw/_EPO.py:EPO", "src/wai/ma/algorithm/glsw/_YGradientGLSW.py:YGradientGLSW", "src/wai/ma/algorithm/glsw/_YGradientEPO.py:YGradientEPO", "src/wai/ma/algorithm/pls/_KernelPLS.py:KernelPLS", "src/wai/ma/algorithm/pls/_OPLS.py:OPLS"]}
{"id": "C135", "title": "Small changes of the data change the predictions of PLS1, SIMPLS, OPLS, linear KernelPLS and NIPALS by little", "statement": "If all components asked for exist in the preprocessed training data (and, with STANDARDIZE, no column is constant), then for every tolerance there is a distance such that training PLS1 or SIMPLS on any data within that distance of X and y still succeeds, and the predictions for samples within that distance differ by less than the tolerance; this holds with each preprocessing, for SIMPLS whatever signs the eigenvector routine picks, and for the PLS1 scores including their signs. Near data in which a component does not exist there is no such bound. The same holds for OPLS with one orthogonal component and PLS1 as base (with any preprocessing), for KernelPLS with the linear kernel and one response (whatever the start vectors, if they suit the data), and for NIPALS with one response away from its numerical thresholds and from constant columns.", "quantifier": "for all sizes, all numbers of components, all regular training data and all samples, every tolerance; all data within the distance", "why_tests_cant": "A test perturbs a few data sets by a few amounts; the claim is about every perturbation of every data set, and about where stability ends.", "anchors": ["src/wai/ma/algorithm/pls/_PLS1.py:PLS1.do_perform_initialization", "src/wai/ma/algorithm/pls/_PLS1.py:PLS1.do_perform_predictions", "src/wai/ma/algorithm/pls/_SIMPLS.py:SIMPLS.do_perform_initialization", "src/wai/ma/algorithm/pls/_AbstractSingleResponsePLS.py:AbstractSingleResponsePLS", "src/wai/ma/algorithm/pls/_OPLS.py:OPLS.do_perform_initialization", "src/wai/ma/algorithm/pls/_KernelPLS.py:KernelPLS.do_perform_initialization", "src/wai/ma/algorithm/pls/_NIPALS.py:NIPALS.do_perform_initialization"]}
{"id": "C136", "title": "PLS1 and SIMPLS see the samples only through their inner products", "statement": "Take two descriptions of the same number of training samples, possibly with different numbers of columns, that have the same inner products between samples and the same response. If PLS1 (SIMPLS with one response and without slimming) finds all components asked for with one of them, it does with the other. The training scores agree. New samples whose inner products with the training samples agree get the same scores and the same predictions.", "quantifier": "for all training predictors with any two numbers of columns, all responses, all numbers of components, all new samples, all counts of new samples", "why_tests_cant": "A test can compare a few recodings of one data set. That nothing beyond the inner products enters is a statement about all pairs of data sets of all widths; it is what makes kernel versions and compressed versions of wide data legitimate.", "anchors": ["src/wai/ma/algorithm/pls/_PLS1.py:do_perform_initialization", "src/wai/ma/algorithm/pls/_PLS1.py:do_perform_predictions", "src/wai/ma/algorithm/pls/_PLS1.py:do_transform", "src/wai/ma/algorithm/pls/_SIMPLS.py:do_perform_initialization", "src/wai/ma/algorithm/pls/_SIMPLS.py:do_perform_predictions"]}
{"id": "C137", "title": "KernelPLS with a positive semidefinite kernel is PLS1 on features, up to one constant", "statement": "With one response and a kernel whose values are inner products of features (every positive semidefinite kernel, in particular the linear kernel, the polynomial kernel with non-negative gamma and offset, and the RBF kernel with non-negative gamma), KernelPLS trains whenever PLS1 finds all components on the centred features. Its prediction for a new sample is the mean response, plus what PLS1 predicts for the features centred with the training means, plus a number that depends on the training data only and is the same for all samples. With one component less than training samples, the predictions for the training samples are the training responses, all shifted by that number.", "quantifier": "for all training data and new data, all positive semidefinite kernels and states of the kernel object, all numbers of components, tolerances, iteration limits of at least two and start vectors that are not orthogonal to the scores and not nearly of length one", "why_tests_cant": "The feature space of the RBF kernel cannot be built in a test, and that the error of the test centring (C75) is one and the same constant for all inputs is a statement about all new data.", "anchors": ["src/wai/ma/algorithm/pls/_KernelPLS.py:do_perform_initialization", "src/wai/ma/algorithm/pls/_KernelPLS.py:do_perform_predictions", "src/wai/ma/algorithm/pls/_KernelPLS.py:do_transform", "src/wai/ma/algorithm/pls/_KernelPLS.py:centralize_train_in_kernel_space", "src/wai/ma/algorithm/pls/_KernelPLS.py:centralize_test_in_kernel_space", "src/wai/ma/transformation/kernel/_RBFKernel.py:apply_vector", "src/wai/ma/transformation/kernel/_PolyKernel.py:apply_matrix"]}
{"id": "C138", "title": "Resampling composes, loses nothing on a finer grid, and commutes with centring and mixing", "statement": "Downsampling what a downsampling kept is one downsampling: the second start counts in steps of the first, the steps multiply. Resampling n+1 columns with Equidistance to q*n+1 columns and the result to any number of columns is the same as resampling the original to that number; in particular resampling back to n+1 columns, or keeping every q-th column, gives the original back exactly. Equidistance, Downsample and SavitzkyGolay multiply the data on the right by a matrix that depends on the parameters and the number of columns only (for Equidistance: non-negative weights summing to one, nonzero only for columns less than one position away), so filtering after centring equals centring after filtering, and the filtered mixture of spectra is the mixture of the filtered spectra.", "quantifier": "for all real matrices with at least one row, all numbers of columns, all refinement factors q >= 1, all target sizes >= 2, all start and step values (step positive, start not negative), all Savitzky-Golay coefficient vectors", "why_tests_cant": "The laws relate two different runs on arbitrary data with arbitrary sizes; a test checks one size and one matrix, and an off-by-one in the interpolation grid shows up for particular ratios of sizes only.", "anchors": ["src/wai/ma/filter/_Equidistance.py:Equidistance", "src/wai/ma/filter/_Downsample.py:Downsample", "src/wai/ma/transformation/_SavitzkyGolay.py:SavitzkyGolay", "src/wai/ma/transformation/_Center.py:Center"]}
{"id": "C139", "title": "Scatter correction with a prefilter", "statement": "When the range-based scatter correction has a prefilter (a transformation object), the corrected spectrum is a function of that spectrum, the reference, the ranges and the prefilter's parameters only: spectra corrected earlier have no influence, resetting the corrector and configuring it anew gives the behaviour of a new corrector, and the lines are fitted to the samples of the range.  Wave numbers and further columns are kept; an error of the prefilter is passed on.", "quantifier": "for all prefilters, references, ranges, spectra and sequences of earlier corrections", "why_tests_cant": "depends on the order of calls on two cooperating objects with their own state; the existing tests have no prefilter", "anchors": ["src/wai/ma/transformation/_MultiplicativeScatterCorrection.py:RangeBased.correct", "src/wai/ma/transformation/_MultiplicativeScatterCorrection.py:MultiplicativeScatterCorrection", "src/wai/ma/transformation/_AbstractTransformation.py:AbstractTransformation.transform"]}
{"id": "C140", "title": "Transformations and filters leave the caller's matrices alone", "statement": "Configuring Center, Standardize, RowNorm, SavitzkyGolay, the scatter correction (with any prefilter that itself changes nothing), GLSW, EPO, YGradientGLSW, YGradientEPO, CCAFilter, PCA or FastICA, and transforming (for Center, Standardize, RowNorm and Log also inverse-transforming) with it, never changes a matrix object that existed before the call, whether the call returns or raises; the result is a new object whose contents are the function on values of the contents of the arguments, and the transformation keeps no object of the caller: overwriting the data it was configured with leaves later results unchanged. Log, the Y-gradient filter, Downsample and Equidistance keep nothing and return new objects; a MultiFilter with at least one such filter does too. This fails for PassThrough and for a MultiFilter without filters: they return the caller's own object, so that changing the result changes the data. Limits: get_means and get_std_devs hand out the matrices of the transformation, and FastICA.transform returns the matrix that a later reconstruct works with, so changing it changes what is reconstructed.", "quantifier": "for all heaps of matrix objects that share no arrays, all objects in them (also one object used twice), all parameters, lists of filters and later states of the heap that leave the transformation's own objects alone; any scalar field", "why_tests_cant": "RowNorm, SavitzkyGolay, the scatter correction and PCA write into matrices and raw arrays in place; a test that compares results cannot see a changed argument, and overwriting the training data later is an interleaving no finite set of tests covers", "anchors": ["src/wai/ma/transformation/_Center.py:Center", "src/wai/ma/transformation/_Standardize.py:Standardize", "src/wai/ma/transformation/_RowNorm.py:RowNorm", "src/wai/ma/transformation/_SavitzkyGolay.py:SavitzkyGolay", "src/wai/ma/transformation/_MultiplicativeScatterCorrection.py:RangeBased.correct", "src/wai/ma/transformation/_Log.py:Log", "src/wai/ma/transformation/_PassThrough.py:PassThrough", "src/wai/ma/algorithm/_PCA.py:PCA", "src/wai/ma/core/_MultiFilter.py:MultiFilter", "src/wai/ma/filter/_Downsample.py:Downsample", "src/wai/ma/filter/_Equidistance.py:Equidistance", "src/wai/ma/algorithm/ica/_FastICA.py:FastICA.transform"]}
{"id": "C141", "title": "Means, standard deviations and the median", "statement": "helper.mean and helper.stdev return the arithmetic mean and the sample standard deviation (divisor one less than the number of samples) of the column, or with column=False of the row, with the given index; a negative index counts from the end and any other index raises IndexError. The deviation is zero exactly for constant samples; a change of units and origin changes both accordingly. Matrix.median of finite numbers is the mid-point of the lower and the upper middle entry, depends only on the values and not on where they stand, follows changes of units (also of sign) and origin, lies between two bounds whenever more than half of the entries do, whatever the others are, and is NaN if an entry is NaN or there is none.", "quantifier": "for all matrices, indices, changes of units and rearrangements of the cells into any shape; the median over any ordered field", "why_tests_cant": "order statistics and divisors for every number of cells, even and odd, and every arrangement of equal values; tests only compare a few literal matrices", "anchors": ["src/wai/ma/core/matrix/helper.py:mean", "src/wai/ma/core/matrix/helper.py:stdev", "src/wai/ma/core/matrix/helper.py:row_stdevs", "src/wai/ma/core/matrix/_Matrix.py:Matrix.median"]}
{"id": "C142", "title": "helper.euclidean_distance gives the distances between rows", "statement": "helper.euclidean_distance(x, y, squared) returns the (squared) Euclidean distances between the rows of x and the rows of y. This fails for all arguments: it calls row_norms, which raises NotImplementedError.", "quantifier": "for all matrices x and y and both values of squared", "why_tests_cant": "no test calls it; a test of one input would not show that there is no input for which it works", "anchors": ["src/wai/ma/core/matrix/helper.py:euclidean_distance", "src/wai/ma/core/matrix/helper.py:row_norms"]}
{"id": "C143", "title": "Training does not depend on the order of the predictors", "statement": "If the columns of the predictor matrix are put in another order, and new samples are presented in that same order, then training and using the model gives exactly what the original order gives: the same predictions and scores, or the same exception or message. Holds for PLS1, VCPLS, SIMPLS (with and without slimming), OPLS, PRM (no more predictors than samples), DIPLS (all three strategies), KernelPLS with the linear, polynomial and RBF kernels, and through every preprocessing option of the base classes. For SparsePLS the same predictors are selected as well. For NIPALS, CCARegression, SparsePLS and the option STANDARDIZE it holds only if no predictor is constant: Standardize guards only the first column against division by zero, so a constant predictor gives zeros in the first place and NaN anywhere else.", "quantifier": "all predictor and response matrices, all permutations of the predictors, all new samples, any number of components, any scalars (a field with a square root), any external eigenvalue or inversion routine that itself follows the reordering", "why_tests_cant": "A test can try one or two permutations on one data set; the claim is about every permutation, every shape and every error path, and about the guard for constant columns which is only visible for particular positions.", "anchors": ["src/wai/ma/algorithm/pls/_PLS1.py:PLS1.do_perform_initialization", "src/wai/ma/algorithm/pls/_SIMPLS.py:SIMPLS.do_perform_initialization", "src/wai/ma/algorithm/pls/_OPLS.py:OPLS.do_perform_initialization", "src/wai/ma/algorithm/pls/_PRM.py:PRM.do_perform_initialization", "src/wai/ma/algorithm/pls/_DIPLS.py:DIPLS.do_perform_initialization", "src/wai/ma/algorithm/pls/_KernelPLS.py:KernelPLS.do_perform_initialization", "src/wai/ma/algorithm/pls/_NIPALS.py:NIPALS.do_perform_initialization", "src/wai/ma/transformation/_Standardize.py:Standardize.configure", "src/wai/ma/algorithm/pls/_SparsePLS.py:SparsePLS.do_perform_initialization"]}
{"id": "C144", "title": "The integer partition step splits its range around the middle element", "statement": "`_partition_int` called on a list of integers between positions l < r returns a position m with l <= m < r. Only entries between l and r move, and the result is a rearrangement. Every entry at l..m is at most the middle element, and every entry at m+1..r is at least that element. So the known fault of `sort` on plain integers (C22, C23) does not lie in this function.", "quantifier": "all lists of integers, all bounds l < r inside the list", "why_tests_cant": "The scan loops have no explicit bound checks and rely on the pivot acting as a sentinel; a test runs a few lists, while the claim that no scan leaves the range and that the split is right is about every list and every pair of bounds.", "anchors": ["src/wai/ma/core/utils.py:_partition_int"]}
{"id": "C145", "title": "A trained linear model is one table of coefficients and one offset, which can be read off from its predictions", "statement": "For a trained model, predict and transform either raise for every data matrix of a given width, or they compute Z*B + b with one coefficient matrix B and one offset row b that do not depend on the data or on the number of samples. Consequently the result for a mixture of samples whose weights add up to one is the mixture of the results, and asking the model about the zero sample and the unit samples recovers B and b exactly. Holds for PLS1, VCPLS, SIMPLS, OPLS, PRM, NIPALS, SparsePLS, DIPLS, CCARegression, GLSW, PCA, KernelPLS with the linear kernel, Center and Standardize, and through the preprocessing of the base classes. It does not hold for KernelPLS with the RBF kernel.", "quantifier": "all model states (for NIPALS, SparsePLS, CCARegression and Standardize: with nonzero stored deviations), all widths, all data matrices with at least one sample, all fields of scalars", "why_tests_cant": "Linearity in the input is a statement about all pairs of inputs and all mixture weights; a test compares finitely many predictions and the row-by-row deflation loops of PLS1 hide the linear structure.", "anchors": ["src/wai/ma/algorithm/pls/_PLS1.py:PLS1.do_perform_predictions", "src/wai/ma/algorithm/pls/_PLS1.py:PLS1.do_transform", "src/wai/ma/algorithm/pls/_SIMPLS.py:SIMPLS.do_perform_predictions", "src/wai/ma/algorithm/pls/_NIPALS.py:NIPALS.do_perform_predictions", "src/wai/ma/algorithm/pls/_SparsePLS.py:SparsePLS.do_perform_predictions", "src/wai/ma/algorithm/pls/_DIPLS.py:DIPLS.do_perform_predictions", "src/wai/ma/algorithm/pls/_OPLS.py:OPLS.do_perform_predictions", "src/wai/ma/algorithm/pls/_PRM.py:PRM.do_perform_predictions", "src/wai/ma/algorithm/pls/_KernelPLS.py:KernelPLS.do_perform_predictions"]}
{"id": "C146", "title": "PLS1 never turns bad data or an impossible number of components into a plausible number", "statement": "In exact arithmetic with the IEEE rules for infinities and NaN: (1) if any entry of the training predictors or response is infinite or NaN, then whenever PLS1 training ends every prediction for every data set is NaN, with preprocessing NONE, CENTER or STANDARDIZE; (2) if more components are requested than the data have (some score vanishes) every prediction is NaN; in particular with more components than predictors (the default is five), and with CENTER with at least as many components as samples; (3) with CENTER or STANDARDIZE a constant response gives NaN for every prediction, and with STANDARDIZE a constant predictor other than the first does; (4) otherwise, for finite data with enough components, training and prediction agree with the computation over the reals and every prediction is finite; (5) a new sample with an infinite or NaN entry gets a prediction that is not finite, whatever the model.", "quantifier": "for all training matrices and responses over the extended reals of any size, all numbers of components, all preprocessing options, all new data sets, and all inverse routines that are right on finite invertible matrices", "why_tests_cant": "tests use clean data and a small number of components; whether NaN can disappear again somewhere in the chain of weights, deflations, coefficients and denormalisation needs an argument about every possible position of a bad entry", "anchors": ["src/wai/ma/algorithm/pls/_PLS1.py:PLS1.do_perform_initialization", "src/wai/ma/algorithm/pls/_PLS1.py:PLS1.do_perform_predictions", "src/wai/ma/algorithm/pls/_AbstractSingleResponsePLS.py:AbstractSingleResponsePLS.do_initialize", "src/wai/ma/algorithm/pls/_AbstractSingleResponsePLS.py:AbstractSingleResponsePLS.do_predict"]}
{"id": "C147", "title": "Data that do not fit the model are refused, not silently used", "statement": "Once a model is trained on predictors with p columns, predict and transform raise for every non-empty data set whose number of columns is not p; and training on predictors and responses with different numbers of rows raises (or answers with a message) and leaves no trained model. This holds for PLS1, VCPLS, SIMPLS, OPLS, SparsePLS, KernelPLS, CCAFilter, PRM, GLSW, EPO, YGradientGLSW/EPO, Center and Standardize. It fails in three places: a trained PCA accepts wider data and ignores the further columns; NIPALS trains on any number of samples and any other number of responses if the responses are constant; DIPLS.initialize_supervised accepts 2 responses for the source and 4 for the target of two domains with 3 samples each, and answers with the model of the right split.", "quantifier": "for all training data, all options (at least one component), all scalars, and all data sets of another width or another number of rows", "why_tests_cant": "the code has almost no explicit shape checks: refusal comes out of the shapes of intermediate products many steps later, and a test can only try a few wrong shapes on one configuration", "anchors": ["src/wai/ma/algorithm/pls/_PLS1.py:PLS1.do_perform_predictions", "src/wai/ma/algorithm/pls/_SIMPLS.py:SIMPLS.do_transform", "src/wai/ma/algorithm/pls/_NIPALS.py:NIPALS.do_perform_initialization", "src/wai/ma/algorithm/pls/_DIPLS.py:DIPLS.initialize_supervised", "src/wai/ma/algorithm/pls/_PRM.py:PRM.do_perform_predictions", "src/wai/ma/algorithm/_PCA.py:PCA.do_transform", "src/wai/ma/algorithm/_CCAFilter.py:CCAFilter.do_transform"]}
{"id": "C148", "title": "Rounding: results in floating-point arithmetic are those of exact arithmetic up to an error that vanishes with the unit roundoff", "statement": "The other properties are proved for exact arithmetic (or for arbitrary scalars). On a machine that meets the standard model of floating-point arithmetic (every operation has relative error at most u, products and quotients in addition an underflow error of at most eta) the results should be close to those of exact arithmetic. For PLS1 with every preprocessing option: if the (preprocessed) data have the requested components and the columns to be standardized are not constant, then for every eps there is a delta such that on every machine with u, eta <= delta, for data stored with errors at most delta, every model training returns predicts within eps of exact arithmetic; the same for the preprocessing options themselves. A sum of N additions in any order and bracketing has error at most ((1+u)^N - 1) times the sum of magnitudes; an entry of a matrix product of inner dimension p at most ((1+u)^(p+1) - 1) sum |a_k b_k| + p (1+u)^p eta; Center and Standardize followed by their inverse return the data up to explicit bounds of order u. It is false for Standardize on a constant column: exact arithmetic gives zeros (the guard replaces the deviation 0 by 1), but with rounding errors the computed deviation is not zero, the guard `== 0` does nothing, and the result has magnitude at least sqrt(2/3), however small u is.", "quantifier": "for all machines meeting the standard model, all unit roundoffs and underflow thresholds, all data, sizes and numbers of components, all preprocessing options, all summation orders (sums)", "why_tests_cant": "A test runs on one machine with one rounding; it cannot show that the error vanishes for every data set, size and rounding behaviour, nor that a tolerance in a regression test is large enough in general.", "anchors": ["src/wai/ma/algorithm/pls/_PLS1.py:PLS1.do_perform_initialization", "src/wai/ma/algorithm/pls/_PLS1.py:PLS1.do_perform_predictions", "src/wai/ma/algorithm/pls/_AbstractSingleResponsePLS.py:AbstractSingleResponsePLS.do_initialize", "src/wai/ma/transformation/_Standardize.py:Standardize.configure", "src/wai/ma/transformation/_Center.py:Center.do_transform", "src/wai/ma/core/matrix/_Matrix.py:Matrix.mul"]}
{"id": "C149", "title": "Constant predictors have no influence", "statement": "Adding columns to the training predictors that have the same value for every training sample, in any places and any number, does not change any prediction of PLS1 or SIMPLS with CENTER, nor of KernelPLS with the linear kernel, whatever values these columns have in the samples to predict. Without preprocessing this holds for columns of zeros. For KernelPLS with the RBF kernel and a given gamma it holds for new samples that have the same constants; the default gamma counts the constant columns, so the kernel changes. With STANDARDIZE it holds for PLS1 if only the first column is constant. It is false with STANDARDIZE for a constant column behind the first: then every prediction is NaN.", "quantifier": "for all training matrices, all ways of inserting constant columns, all constants, all responses, all numbers of components for which training is regular, and all samples to predict", "why_tests_cant": "Tests use a fixed data set without dead channels; the claim compares two models of different width over all places, constants and new samples.", "anchors": ["src/wai/ma/algorithm/pls/_PLS1.py:PLS1.do_perform_initialization", "src/wai/ma/algorithm/pls/_PLS1.py:PLS1.do_perform_predictions", "src/wai/ma/algorithm/pls/_SIMPLS.py:SIMPLS.do_perform_initialization", "src/wai/ma/algorithm/pls/_KernelPLS.py:KernelPLS.do_perform_initialization", "src/wai/ma/transformation/_Standardize.py:Standardize.configure", "src/wai/ma/transformation/_Center.py:Center.configure", "src/wai/ma/transformation/kernel/_RBFKernel.py:RBFKernel.apply_vector"]}
{"id": "C150", "title": "Center, Standardize and Log work on every column on its own", "statement": "A Center or Log object, fitted on one data set and applied to another (or inverted), gives the same values whether columns are chosen, reordered or repeated before or after. A column of the result of Center or Standardize depends only on that column of the two data sets, so a NaN or an outlier stays in its column. Log refuses data exactly if it refuses one of their columns alone. For Standardize, choosing before or after makes no difference as long as no column with deviation zero moves into or out of the first place; otherwise it does: a constant column behind the first becomes NaN, but zero if it is standardised alone.", "quantifier": "for all data sets of any size over any scalars (with any rounding, NaN, infinities), all choices of columns, all bases and offsets", "why_tests_cant": "The claim is about every pair of data sets and every choice of columns, including those with NaN; tests compare fixed matrices with all columns present.", "anchors": ["src/wai/ma/transformation/_Center.py:Center.do_transform", "src/wai/ma/transformation/_Standardize.py:Standardize.configure", "src/wai/ma/transformation/_Standardize.py:Standardize.do_transform", "src/wai/ma/transformation/_Log.py:Log.do_transform", "src/wai/ma/transformation/_Log.py:Log.do_inverse_transform"]}
{"id": "C151", "title": "A predictor given several times counts like one in a smaller unit", "statement": "Training PLS1 (no preprocessing or CENTER) or SIMPLS (one response, not slimmed) on data in which predictor l is given k_l times, in any arrangement, gives the predictions obtained with every predictor given once and multiplied by the square root of k_l. If all predictors are given equally often, PLS1 predicts exactly as without repetition.", "quantifier": "for all data sets, all arrangements of repeated and left-out predictors, all numbers of components for which training is regular, all samples to predict", "why_tests_cant": "It relates two models of different width for every arrangement; a test shows one pair of models on one data set up to rounding.", "anchors": ["src/wai/ma/algorithm/pls/_PLS1.py:PLS1.do_perform_initialization", "src/wai/ma/algorithm/pls/_PLS1.py:PLS1.do_perform_predictions", "src/wai/ma/algorithm/pls/_SIMPLS.py:SIMPLS.do_perform_initialization", "src/wai/ma/algorithm/pls/_SIMPLS.py:SIMPLS.do_perform_predictions"]}
{"id": "C152", "title": "The order of the responses does not matter", "statement": "Training a multi-response model on the same responses in another order gives the same predictions in that order (or the same exception), and the same scores. More generally, mixing the responses by an orthogonal matrix mixes the predictions by that matrix.", "quantifier": "for every kernel, configuration, start vector and scalar type, all predictors, all response matrices with at least one column, all permutations of the columns, all new data; mixing: over the reals, positive tolerance and at least one iteration, all orthogonal matrices", "why_tests_cant": "A test tries one data set in two orders; the claim is about all permutations, all configurations and the intermediate states of an iteration that stops on a tolerance.", "anchors": ["src/wai/ma/algorithm/pls/_KernelPLS.py:do_perform_initialization", "src/wai/ma/algorithm/pls/_KernelPLS.py:do_perform_predictions", "src/wai/ma/algorithm/pls/_AbstractMultiResponsePLS.py:do_initialize", "src/wai/ma/algorithm/pls/_AbstractMultiResponsePLS.py:do_predict"]}
{"id": "C153", "title": "Savitzky-Golay has no preferred direction, and smoothing never adds noise", "statement": "Filtering spectra read from right to left with the mirrored window gives the filtered spectra read from right to left, with the sign changed for odd derivatives. With as many points left as right, raising a polynomial order that differs from the derivative order by an even number by one changes nothing. Smoothing (derivative order 0) has a sum of squared coefficients of at most 1, so no smoothed value exceeds the length of its window, and with as many coefficients as points it returns the window centre.", "quantifier": "for all window sizes with at least two points, all polynomial and derivative orders, all data over the reals (rows, columns and values unrestricted, at least one full window)", "why_tests_cant": "A test checks tabulated coefficients of a few windows; the symmetries and the noise bound are about all window sizes and orders and all spectra.", "anchors": ["src/wai/ma/transformation/_SavitzkyGolay.py:determine_coefficients", "src/wai/ma/transformation/_SavitzkyGolay.py:SavitzkyGolay"]}
{"id": "C154", "title": "Chained linear preprocessing and a linear model act as one table of coefficients on the raw spectra", "statement": "Downsample (any start and step), Equidistance (at least two samples) and Savitzky-Golay smoothing or differentiation (any parameters it accepts) are affine: for each number of columns they either refuse every data set or multiply the rows by one fixed matrix and add one fixed row. A MultiFilter whose steps are affine is affine, however many steps it has, and an affine model behind such a chain is affine in the raw spectra. So for a derivative, thinning out, resampling, centring on the calibration data and SIMPLS (or PLS1) there is one table of coefficients over the raw wavelengths, it is the product of the filter's matrix and the model's coefficients, and the prediction for a mixture of raw spectra with weights adding up to one is the mixture of the predictions. RowNorm and Log are not affine, so no such table exists for chains that contain them.", "quantifier": "for all chain lengths, all filter parameters in the stated ranges, all models, all numbers of columns, all real data sets and all mixture weights", "why_tests_cant": "A test compares the answers for a few spectra. That one table of coefficients reproduces the chain on every spectrum, for every chain length and parameter choice, is a statement about infinitely many inputs.", "anchors": ["src/wai/ma/core/_MultiFilter.py:MultiFilter", "src/wai/ma/filter/_Downsample.py:Downsample", "src/wai/ma/filter/_Equidistance.py:Equidistance", "src/wai/ma/transformation/_SavitzkyGolay.py:SavitzkyGolay", "src/wai/ma/transformation/_RowNorm.py:RowNorm", "src/wai/ma/transformation/_Log.py:Log"]}
{"id": "C155", "title": "PRM depends neither on the orientation of the predictor axes nor on the unit of the response", "statement": "Training PRM on predictors expressed in rotated or mirrored axes gives the same number of passes, the same sample weights, and the same scores and predictions for new data in those axes. Measuring the response in another unit (factor c, possibly negative) changes the predictions by exactly that factor.", "quantifier": "for all training data with at least two samples, all orthogonal changes of axes, all non-zero factors, all new data, every eigensolver meeting its contract, every tuning constant, tolerance and iteration limit", "why_tests_cant": "a test compares a few rotations or factors on one data set; the claim is about all of them, and its failure (the absolute tolerance of the loop) only shows for units in which gamma is small", "anchors": ["src/wai/ma/algorithm/pls/_PRM.py:PRM", "src/wai/ma/algorithm/pls/_SIMPLS.py:SIMPLS"]}
{"id": "C156", "title": "The unit of the response does not matter in SIMPLS, OPLS and DIPLS, nor under CENTER and STANDARDIZE", "statement": "Measuring the response in another unit (factor c) multiplies the predictions of SIMPLS, slimmed or not, by c and changes its scores at most in sign. OPLS removes the same components and multiplies its predictions by c if its base algorithm does, in particular over PLS1. With CENTER the zero point of the response does not matter either, with STANDARDIZE neither unit nor zero point matters for any algorithm. DIPLS gives the predictions in the new unit and zero point when lambda_ is given in the square of the new unit, and not otherwise.", "quantifier": "for all real training data (SIMPLS without any condition, OPLS over PLS1 while the scores do not vanish, DIPLS while its penalty matrices are regular and no score vanishes), all non-zero factors (positive ones for STANDARDIZE and DIPLS), all zero points, all numbers of components, all slimming settings, all new data, every eigenvector routine meeting its contract", "why_tests_cant": "a test compares two units on one data set with a tolerance; the claim is exact for all factors and data, and the role of lambda_ shows only when the unit and lambda_ are varied together", "anchors": ["src/wai/ma/algorithm/pls/_SIMPLS.py:do_perform_initialization", "src/wai/ma/algorithm/pls/_SIMPLS.py:slim", "src/wai/ma/algorithm/pls/_OPLS.py:do_perform_initialization", "src/wai/ma/algorithm/pls/_OPLS.py:do_perform_predictions", "src/wai/ma/algorithm/pls/_DIPLS.py:do_perform_predictions", "src/wai/ma/algorithm/pls/_AbstractSingleResponsePLS.py:do_predict"]}
{"id": "C157", "title": "Tuning parameters act in the documented direction", "statement": "Comparing two objects that differ in one parameter on the same data: a larger alpha of GLSW, or a larger N of EPO, never shortens a filtered sample (nor, for GLSW, a difference of two) and never makes it longer than the unfiltered one; a larger C of PRM makes its first weights flatter and for C to infinity they tend to one; asking PCA for more variance or more components only appends columns to the scores; a larger gamma makes different samples less alike under the RBF kernel; a larger num_coefficients of SIMPLS keeps all coefficients kept before; a larger step or start of Downsample keeps at most as many columns; a higher polynomial order of Savitzky-Golay amplifies noise at least as much and a wider window at most as much; a smaller lambda_ of SparsePLS selects at least as many features, and a small enough one all of them.", "quantifier": "for all real data and all pairs of parameter values in the documented order (alpha, C positive, N at most the number of columns, variance and maximum in any combination, lambda_ below one, orders below the window length), every eigenvector routine meeting its contract", "why_tests_cant": "a test compares two values of a parameter on one data set; the direction of the effect is a claim about all pairs of values and all data, and the failures of lambda_ need data for which a threshold and a normalisation interact", "anchors": ["src/wai/ma/algorithm/glsw/_GLSW.py:get_weight_matrix", "src/wai/ma/algorithm/glsw/_EPO.py:get_eigenvector_matrix", "src/wai/ma/algorithm/pls/_PRM.py:fair_function", "src/wai/ma/algorithm/pls/_PRM.py:update_leverage_weights", "src/wai/ma/algorithm/pls/_PRM.py:update_residual_weights", "src/wai/ma/algorithm/_PCA.py:PCA", "src/wai/ma/transformation/kernel/_RBFKernel.py:RBFKernel", "src/wai/ma/algorithm/pls/_SIMPLS.py:slim", "src/wai/ma/filter/_Downsample.py:Downsample", "src/wai/ma/transformation/_SavitzkyGolay.py:determine_coefficients", "src/wai/ma/algorithm/pls/_SparsePLS.py:get_direction_vector", "src/wai/ma/algorithm/pls/_SparsePLS.py:collect_indices"]}
{"id": "C158", "title": "DIPLS is trained through its three methods only", "statement": "DIPLS must be trained with initialize_unsupervised, initialize_supervised or initialize_semisupervised: plain initialize(X, y) is refused with the message that names them, at any point in the life of the object. This holds for a new object and for one that has seen no source or no target samples; it fails for every object that was trained before, where plain initialize silently trains with the numbers of source and target samples and the mode remembered from the earlier training.", "quantifier": "for all real data, configurations and objects for the refusal; for all scalars, all source and target data and every successful supervised or unsupervised training for the violation", "why_tests_cant": "the check looks at two counters that survive reset and retraining, so the outcome depends on the history of the object; a unit test of the refusal uses a new object", "anchors": ["src/wai/ma/algorithm/pls/_DIPLS.py:do_perform_initialization", "src/wai/ma/algorithm/pls/_DIPLS.py:initialize", "src/wai/ma/algorithm/pls/_DIPLS.py:reset", "src/wai/ma/algorithm/pls/_DIPLS.py:initialize_supervised", "src/wai/ma/algorithm/pls/_DIPLS.py:initialize_unsupervised"]}
{"id": "C159", "title": "What the scores of PCA do not depend on", "statement": "PCA keeps the same number of components, and the scores of the training data and of new data are the same up to the sign of each component, whichever eigenvalue and sorting routine is used, in whatever order the columns are given, and, for standardised data, in whatever unit and from whatever zero each column is measured (even with its sign changed). For centred data zero points do not matter, a common factor multiplies the scores by it, and rotating or reflecting the axes of the predictor space leaves the scores unchanged up to sign.", "quantifier": "for all real training data whose used columns have a covariance matrix without repeated eigenvalues, all new data, all variance thresholds and maxima, all permutations, non-zero factors, offsets and orthogonal matrices (for rotation: no constant column before or after), every eigenvalue routine meeting its contract", "why_tests_cant": "a test compares two runs on one data set with one library; the claim is about all data and all routines meeting the contract, and a wrong pairing of eigenvalues and vectors or a division by the wrong deviation shows only on particular data", "anchors": ["src/wai/ma/algorithm/_PCA.py:fill_correlation", "src/wai/ma/algorithm/_PCA.py:remove_columns", "src/wai/ma/algorithm/_PCA.py:configure", "src/wai/ma/algorithm/_PCA.py:do_transform", "src/wai/ma/algorithm/_PCA.py:get_coefficients"]}
{"id": "C160", "title": "Units and zero points in KernelPLS", "statement": "KernelPLS, with any kernel, does not care in which common unit the responses are measured and where each response has its zero: multiplying all responses by a factor and adding a constant to each changes the predictions in the same way and leaves the scores alone. Multiplying the kernel by a positive factor and adding a constant to it changes no prediction. So a common unit and any zero points of the predictors do not matter to the linear kernel, nor to the polynomial kernel with coef0 = 0, nor to the RBF kernel if gamma is given in the inverse unit; and the polynomial kernel of degree one predicts what the linear kernel predicts.", "quantifier": "for all kernels, all training data with at least one sample and one response, all new data, every number of components, tolerance, iteration limit and start vector, all non-zero factors and all constants, also when the iteration stops before it has converged and (for the kernel part) when training fails", "why_tests_cant": "a test compares a few units on converged runs; the claim is about every pass of the inner loop with its absolute tolerance, about all kernels and all data", "anchors": ["src/wai/ma/algorithm/pls/_KernelPLS.py:do_perform_initialization", "src/wai/ma/algorithm/pls/_KernelPLS.py:centralize_train_in_kernel_space", "src/wai/ma/algorithm/pls/_KernelPLS.py:centralize_test_in_kernel_space", "src/wai/ma/algorithm/pls/_KernelPLS.py:do_perform_predictions", "src/wai/ma/algorithm/pls/_KernelPLS.py:do_transform", "src/wai/ma/transformation/kernel/_LinearKernel.py:LinearKernel", "src/wai/ma/transformation/kernel/_PolyKernel.py:PolyKernel", "src/wai/ma/transformation/kernel/_RBFKernel.py:RBFKernel"]}
{"id": "C161", "title": "The clutter filters depend on the clutter, not on the eigensolver, the unit or the coordinates", "statement": "The filters learned by GLSW, EPO, YGradientGLSW and YGradientEPO describe the clutter itself. Expressing the spectra in another unit or in rotated coordinates, or using a linear algebra library that returns other (equally valid) eigenvectors, gives the same filter in the new coordinates, so filtered spectra are the old ones re-expressed. For GLSW alpha has to be converted with the fourth power of the unit. The Y-gradient filters do not depend on the unit or zero point of the response nor on constant offsets of the predictors.", "quantifier": "for all paired data sets, all orthogonal coordinate changes, all non-zero unit factors, all positive response factors and offsets, and all eigensolvers returning orthonormal eigenvectors (GLSW: in descending order; EPO: any order, with a gap at the cut)", "why_tests_cant": "Eigenvectors are not unique; a test sees the one library it runs on and a few data sets. Independence quantifies over every valid eigensolver output and every rotation.", "anchors": ["src/wai/ma/algorithm/glsw/_GLSW.py:do_initialize", "src/wai/ma/algorithm/glsw/_GLSW.py:get_weight_matrix", "src/wai/ma/algorithm/glsw/_EPO.py:get_eigenvector_matrix", "src/wai/ma/algorithm/glsw/_YGradientGLSW.py:get_covariance_matrix"]}
{"id": "C162", "title": "Entering every sample the same number of times", "statement": "A data set in which every sample is entered m times describes the same population as the original. Center gives the same output for new data; Standardize gives the same output up to one factor common to all columns, which comes from dividing by the number of samples minus one. PCA keeps as many components and gives the same scores up to the sign of each component and, with standardised data, the factor of Standardize. The predictions of SIMPLS, of OPLS with PLS1 as base, of NIPALS with one response, of KernelPLS with the linear kernel and of PLS1 with preprocessing are the same, and so are the filter of OPLS, the filters of EPO and, with alpha multiplied by m squared, of GLSW, and the scores and predictions of unsupervised DIPLS with s source and s target samples and lambda_ multiplied by (m s - 1) / (s - 1). The median of a matrix and the geometric median of PRM are the same, and every copy of a sample gets the leverage weight and, in the first pass, the residual weight the sample gets without copies.", "quantifier": "for all data sets with at least two samples and no constant columns, all numbers of repetitions, all orders in which the repeated samples are listed, all new data, and for the filters all eigensolvers returning orthonormal eigenvectors (GLSW: in descending order; EPO: with a gap at the cut)", "why_tests_cant": "The claim compares runs on data sets of different sizes, for every data set, every number of repetitions and every order; with few repetitions of many samples the factor is too close to one to be noticed in a test.", "anchors": ["src/wai/ma/transformation/_Center.py:Center", "src/wai/ma/transformation/_Standardize.py:Standardize", "src/wai/ma/algorithm/pls/_AbstractSingleResponsePLS.py:AbstractSingleResponsePLS.do_initialize", "src/wai/ma/algorithm/pls/_SIMPLS.py:SIMPLS.do_perform_initialization", "src/wai/ma/algorithm/glsw/_GLSW.py:do_initialize", "src/wai/ma/algorithm/glsw/_EPO.py:get_eigenvector_matrix", "src/wai/ma/algorithm/_PCA.py:fill_correlation", "src/wai/ma/algorithm/pls/_NIPALS.py:NIPALS.do_perform_initialization", "src/wai/ma/algorithm/pls/_KernelPLS.py:KernelPLS.do_perform_initialization", "src/wai/ma/algorithm/pls/_OPLS.py:OPLS.do_perform_initialization", "src/wai/ma/algorithm/pls/_DIPLS.py:DIPLS.initialize_unsupervised", "src/wai/ma/algorithm/pls/_PRM.py:PRM.geometric_median", "src/wai/ma/algorithm/pls/_PRM.py:PRM.update_leverage_weights", "src/wai/ma/core/matrix/_Matrix.py:Matrix.median"]}
{"id": "C163", "title": "The order of the values survives the transformations", "statement": "Center and Standardize keep the order of the values in every column (Standardize: in every column that is not constant in the data it was fitted on, and in the first column in any case), so the largest and smallest samples and all ranks stay what they were, also for data it was not fitted on. RowNorm keeps the order within every row, whatever was transformed before. Log and its inverse keep the order of all entries for a base larger than one and reverse it for a base smaller than one. Equidistance keeps the order of the spectra: a spectrum that lies below another one does so after resampling, and a spectrum that never falls, or never rises, from one column to the next does not do so after resampling.", "quantifier": "for all fitted data with at least two samples (Center: one), all further data, all rows with at least two entries, all bases and offsets accepted by Log and all data in its domain", "why_tests_cant": "The claim is about every pair of values in every data set, including values that are equal or arbitrarily close; a test compares finitely many.", "anchors": ["src/wai/ma/transformation/_Center.py:Center", "src/wai/ma/transformation/_Standardize.py:Standardize", "src/wai/ma/transformation/_RowNorm.py:RowNorm", "src/wai/ma/transformation/_Log.py:Log", "src/wai/ma/filter/_Equidistance.py:Equidistance"]}
