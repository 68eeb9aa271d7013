# Design

Formal model of `waikato-datamining/py-matrix-algorithms` (read as text from `/repo/src/wai/ma`) in Lean 4 with
Mathlib.  The Lean project is `lean/`; `cd lean && lake build` checks everything.

* `lean/Verif/Core` models `wai.ma.core`: matrices, factory, helper (CSV), utilities, serialisation, the object heap.
* `lean/Verif/Transf` models `wai.ma.transformation` (with kernels) and `wai.ma.filter`.
* `lean/Verif/Alg` models `wai.ma.algorithm`.
* `lean/Verif/Props` holds the specifications and the theorems.  A theorem `Cnn_…` belongs to property `Cnn` of
  `properties.jsonl`.

## Names

* `Cnn_name`: the claim, or a part of it, holds.
* `Cnn_name_partial`: it holds under a restriction that the English claim does not have.  The docstring says which.
* `Cnn_name_violation`: the code does not satisfy the claim.  The theorem proves the negation, for all inputs of a
  class where possible and for a concrete witness otherwise.

A property has status `partial` in `MANIFEST.json` as soon as one of its theorems is a partial one or a violation.

## Approach

* Every modelled Python function is a Lean function with a comment citing file and lines.  Exceptions are values:
  `Except PyErr`.  Mutating methods return the new value.  Aliasing and caching (C13, C14) have a separate heap model
  with explicit array buffers and objects.
* A matrix is `Mat α` = rows, cols, `Matrix (Fin rows) (Fin cols) α`.  Dimension checks are the code's run-time checks,
  so that wrong shapes are part of the model.  Integer arguments are `Int` with Python's negative-index rule.
* Scalars are a type parameter with the operations the code uses.  Structural theorems hold for every scalar type, so
  also for float64.  Numeric theorems are over the reals (exact arithmetic) and carry an explicit guard for every
  division, because `x / 0 = 0` in Mathlib.  Division by zero and NaN questions use the extended scalars `X K`
  (finite, +inf, -inf, nan) with IEEE rules for the special values.
* Loops are folds over `range`, or well-founded recursion for `while`.  Theorems about loops are proved by induction over
  the passes, so there is no bound on sizes, components or iterations.
* Objects with parameters and training (`Alg/Lifecycle`, `Alg/Classes`) are state machines over attribute tables.  C45 to
  C48 are invariants and bisimulations over all call histories.
* Specifications use Mathlib notions (matrix product, `Finset.sum`, `List.Perm`, `HasDerivAt`, …) and small definitions in
  a section "Specification" of the module, not the model's helpers.
* Beside a theorem with non-trivial hypotheses there is an `example`, or an existence theorem, that meets them.

## Trusted base

* The Lean 4.33.0 kernel, and Mathlib's definitions as far as they occur in statements.
* Axioms: at most `propext`, `Classical.choice` and `Quot.sound`.  The list per property is below; it is generated by
  `tools/axioms.lean.txt`.  There are no own axioms, no `sorry`, no `native_decide`, no `bv_decide`.
* The translation of Python to Lean is by hand.  It is the part that no proof covers; the citations in the comments are
  there to check it by reading.
* Behaviour of Python and NumPy as modelled: negative indices, slices, broadcasting as far as used, `sort` stability,
  `str.split`, universal newlines, `int.to_bytes`, `struct` layouts, file opening and truncation.

### Contracts of external routines

They are parameters of the model.  Theorems quantify over every routine that meets the contract, and routines meeting
it are shown to exist where the contract is not obviously satisfiable.

| Routine | Contract | Where |
| --- | --- | --- |
| `np.linalg.inv`, `solve` | exact; LinAlgError iff singular (not a parameter) | `Core/LinAlg` |
| `np.linalg.lstsq` (fallback of `inverse`) | none; in C96 a least-squares solution of smallest length | `Core/LinAlg`, `MinNormLS` |
| `np.linalg.svd` | factors with orthonormal columns/rows, non-negative decreasing values | `IsSVD`, `IsTallSVD`, `IsSingular` |
| `np.linalg.eig` | eigenvectors for the eigenvalues, in any order; real spectrum | `IsEig`, `EigPair`, `EigRoutine`, `VcEig` |
| `np.linalg.eig` in C63, C65, C87, C88 | orthonormal eigenvectors of symmetric matrices | `OrthoEig`, `EigOk`, `OrthoRoutine` |
| `np.linalg.pinv` | shape only (`PinvTotal`), or the inverse of regular matrices (`PinvRegular`) | `NipalsProps` |
| `np.argsort`, `np.median`, `np.amax` | as documented by NumPy | `ArgsortRoutine`, `IsMedian`, `IsAmax`, `IsAmaxX` |
| `np.random` | `seed` determines the stream, `rand` draws row by row | `Core/Random` |
| number formatting and `real(str)` | reading back what was written gives `q x` for some rounding `q` | `CsvProps` |
| scikit-learn transformers | none: fit and apply are opaque | `Transf/Wrappers` |

## What is not modelled

* Rounding, overflow and underflow of float64; NumPy's order of summation.
* Complex eigenvalues: where the code calls `eig` on a matrix with complex spectrum nothing is claimed.
* dtypes other than float64 (integer matrices, whose in-place operations truncate).
* The insides of scikit-learn, NumPy and the pseudo-random generator.
* Python's recursion limit, memory limits, permissions and links of the file system, concurrency.
* State that a failing `initialize` leaves behind inside CCAFilter, FastICA and KernelPLS (their life cycle is covered by
  C45 to C48 on the level of attributes).
* Logging and debug output, `__str__`, `row_str`, `shape_string`, `print_stack_trace`, the abstract base classes,
  and the methods that only raise `NotImplementedError` (QR decomposition, `reduce_*`,
  `__hash__`).  They carry no property worth a theorem.

## Tests of the theorems

`seeded/LOG.jsonl` records wrong programs: one edit of a model definition per line, the claim it breaks, the theorems that
no longer compile, and theorems that were tightened because they still did.  The edits are made in a scratch copy.

<!-- properties: generated by tools/design.py -->

## Properties

### C01 Factory functions build exactly the matrix they describe: partial

* Model: `Factory` model over `Mat`; entries and shapes stated with Mathlib matrices. `zeros(0,c)` really gives 1x0, so that case is a negation.
* Result: Holds for every shape and fill value except zeros(0,c), from_column of an empty list, range with no columns and diag() of an empty vector, where the 1-d wrapping of the constructor or numpy's reshape gets in the way; those are proved as violations.
* Theorems (Props/Factory.lean): `C01_zeros_partial`, `C01_zeros_square`, `C01_zeros_no_rows_violation`, `C01_eye`, `C01_eye_square`, `C01_eye_negative`, `C01_filled`, `C01_filled_negative`, `C01_like`, `C01_fromRow`, `C01_fromColumn_partial`, `C01_fromColumn_empty_violation`, `C01_create`, `C01_create_toRaw_partial`, `C01_range_partial`, `C01_range_empty_violation`, `C01_diag_partial`, `C01_createSpectrum`
* Axioms: Classical.choice, Quot.sound, propext

### C02 Element read-over-write: proved

* Model: `Mat.get/set` with Python index normalisation; read-over-write and frame theorems for every integer index.
* Result: Proved for all matrices, integer indices and values, error branches included.
* Theorems (Props/MatrixAccess.lean): `C02_get`, `C02_set`, `C02_set_error`, `C02_set_set`
* Axioms: Classical.choice, Quot.sound, propext

### C03 Row and column writes change exactly the addressed cells: proved

* Model: `setRow/setColumn`, entrywise characterisation.
* Result: Proved; entries past the shorter length keep their old value.
* Theorems (Props/MatrixAccess.lean): `C03_setRow`, `C03_setRow_error`, `C03_setColumn`, `C03_setColumn_error`
* Axioms: Classical.choice, Quot.sound, propext

### C04 Row/column/sub-matrix selection is positional: proved

* Model: `getSubMatrix` over lists of integer positions; entrywise characterisation, IndexError iff.
* Result: Proved for lists and (start, stop) tuples; out-of-range claims are stated for two non-empty index lists.
* Theorems (Props/MatrixSelect.lean): `C04_getSubMatrix`, `C04_getSubMatrix_error`, `C04_getRow_getColumn`, `C04_select_all`, `C04_deleteCols`
* Axioms: Classical.choice, Quot.sound, propext

### C05 Transpose and copy laws: proved

* Model: algebraic laws on `Mat`.
* Result: Proved.
* Theorems (Props/MatrixSelect.lean): `C05_transpose`, `C05_transpose_mul`, `C05_copy`, `C05_raw_copies`, `C05_asReal`
* Axioms: Classical.choice, Quot.sound, propext

### C06 Concatenation places blocks side by side: proved

* Model: block placement, associativity, projection back.
* Result: Proved.
* Theorems (Props/MatrixSelect.lean, Props/Tighten.lean): `C06_concatRows`, `C06_concatColumns`, `C06_concatRows_assoc`, `C06_concatRows_split`, `C06_concat_axis`, `C06_multiConcat_columns`, `C06_multiConcat_axis`
* Axioms: Classical.choice, Quot.sound, propext

### C07 Arithmetic agrees with linear algebra: proved

* Model: `add/sub/mul` equal Mathlib's `+,-,*`; shape errors iff.
* Result: Proved; the algebraic laws over any ring, floating-point rounding is not modelled.
* Theorems (Props/MatrixArith.lean): `C07_entrywise`, `C07_scalar`, `C07_mul`, `C07_mul_assoc`, `C07_mul_add`
* Axioms: Classical.choice, Quot.sound, propext

### C08 Row/column vector broadcasting: partial

* Model: `vectorOp`; entrywise characterisation and rejection iff.
* Result: scale_by_column_vector rejects its documented argument for one-row matrices with several columns (violation).
* Theorems (Props/MatrixArith.lean): `C08_vectorOp`, `C08_named_ops`, `C08_scaleByRowVector`, `C08_scaleByColumnVector_partial`, `C08_scaleByColumnVector_violation`
* Axioms: Classical.choice, Quot.sound, propext

### C09 Sums and means along an axis: proved

* Model: sum/mean vs `Finset.sum`.
* Result: Proved over fields; the mean of an empty axis is covered in the extended reals.
* Theorems (Props/MatrixArith.lean): `C09_sum`, `C09_mean`
* Axioms: Classical.choice, Quot.sound, propext

### C10 Clipping, sign and absolute value: proved

* Model: entrywise, over a linear order.
* Result: Proved, including NaN and infinities.
* Theorems (Props/MatrixPred.lean): `C10_clip`, `C10_clip_idem`, `C10_clip_one_sided`, `C10_sign_abs`, `C10_sign_abs_ext`
* Axioms: Classical.choice, Quot.sound, propext

### C11 Predicates and searches over entries: partial

* Model: list-of-positions characterisation; NaN part is false of the code: negation over the extended scalar type.
* Result: contains_NaN is always False (violation); everything else proved.
* Theorems (Props/MatrixPred.lean): `C11_which`, `C11_which_sorted`, `C11_any_all`, `C11_whereVector`, `C11_containsNaN_violation`, `C11_containsNaN_partial`
* Axioms: Quot.sound, propext

### C12 Matrix equality: partial

* Model: `==` and helper.equal; NaN part false of the code.
* Result: == is False for a matrix with an infinite entry compared to its copy, and helper.equal is True on NaN (violations).
* Theorems (Props/MatrixPred.lean, Props/Tighten.lean): `C12_eq_partial`, `C12_eq_shape`, `C12_eq_nan`, `C12_eq_inf_violation`, `C12_helperEqual_partial`, `C12_helperEqual_nan_violation`, `C12_helperEqual_ext`
* Axioms: Classical.choice, Quot.sound, propext

### C13 Eigen/SVD results always describe the current contents: partial

* Model: object model with cache slot and a history of operations; false (in-place vector ops), partial for the remaining operations.
* Result: Proved for all call histories without the leaking accessor and without the two in-place operations that forget the cache; the exclusions are proved necessary (violations). The SVD accessors are coherent for all histories.
* Theorems (Props/HeapProps.lean): `C13_eigenpairs_partial`, `C13_sorted_partial`, `C13_svd`, `C13_singular_values_partial`, `C13_stale_cache_violation`, `C13_singular_values_violation`
* Axioms: Classical.choice, Quot.sound, propext

### C14 Non-mutating operations do not alias their arguments: partial

* Model: heap of arrays with explicit allocation; non-interference over histories.
* Result: Proved for all call histories; get_eigenvalue_decomposition_V hands out its cached object (violation).
* Theorems (Props/HeapProps.lean): `C14_no_side_effects`, `C14_inplace_local`, `C14_distinct_partial`, `C14_independent_partial`, `C14_set_effect`, `C14_shared_violation`
* Axioms: Classical.choice, Quot.sound, propext

### C15 SVD accessors reconstruct the matrix: partial

* Model: SVD as a parameter with a spec; product law really satisfied is U*S*V, the documented V^T form is refuted.
* Result: U*S*V = A holds (V is the transposed factor), U*S*V^T raises for wide matrices (violation).
* Theorems (Props/Decomp.lean): `C15_svd_partial`, `C15_svd_violation`
* Axioms: Classical.choice, Quot.sound, propext

### C16 Sorted eigenpairs stay paired: proved

* Model: stable sort of eigenpairs for any solver output.
* Result: Proved for every solver meeting the stated contract.
* Theorems (Props/Decomp.lean): `C16_sorted_pairs`, `C16_dominant`
* Axioms: Classical.choice, Quot.sound, propext

### C17 Scalar serialisation is exact and self-delimiting: proved

* Model: byte lists; decoder in the specification; round trip.
* Result: Reader specification (little-endian, two's complement, UTF-8) is independent of the encoder; range, type and surrogate errors covered. A bool is encoded as the int it is. The string size condition is stated as 4*length < 2^31.
* Theorems (Props/SerialProps.lean): `C17_round_trip`, `C17_int_range`, `C17_float_and_other`, `C17_str_ok`, `C17_str_surrogate`
* Axioms: Classical.choice, Quot.sound, propext

### C18 Matrix serialisation is exact: proved

* Model: same, matrices.
* Result: Float64 matrices with dimensions below 2^31 (beyond: OverflowError, proved).
* Theorems (Props/SerialProps.lean): `C18_layout`, `C18_decode`, `C18_injective`, `C18_overflow`
* Axioms: Classical.choice, Quot.sound, propext

### C19 get_serialised_state returns the serialised state: partial

* Model: stream with position; always returns empty: negation.
* Result: False: the stream is read at its end, so the result is b'' for every object that serialises without error (proved for all). Partial: correct only for an empty state.
* Theorems (Props/SerialProps.lean): `C19_always_empty_violation`, `C19_state_partial`, `C19_matrix_violation`
* Axioms: Classical.choice, Quot.sound, propext

### C20 Arbitrary-size integer serialisation: partial

* Model: two's complement bytes; exact set of accepted integers, negation for 128.
* Result: False for every integer with a full top byte (e.g. 128..255): OverflowError. Proved for all other integers with fewer than 8*(2^31-1) bits.
* Theorems (Props/SerialProps.lean): `C20_big_int_partial`, `C20_full_top_byte_violation`, `C20_one_byte_violation`
* Axioms: Classical.choice, Quot.sound, propext

### C21 save_state writes to any writable path: partial

* Model: path/dirname model with an abstract filesystem; negation for bare names.
* Result: False for every filename without a slash (FileNotFoundError). Proved for all filenames with a directory part; file system model without permissions, links, '.' and '..'.
* Theorems (Props/SerialProps.lean, Props/Tighten.lean): `C21_save_partial`, `C21_no_directory_violation`, `C21_file_in_the_way`
* Axioms: Classical.choice, Quot.sound, propext

### C22 sort returns a permutation: partial

* Model: quicksort on index list, permutation invariant, any comparison.
* Result: Proved for every list of np.float64 (NaN, infinities, ties). For plain Python numbers any successful run is a permutation, but the call can raise IndexError (violation). Python's recursion limit is not modelled.
* Theorems (Props/UtilsProps.lean): `C22_sort_perm`, `C22_plain_partial`, `C22_plain_violation`
* Axioms: Classical.choice, Quot.sound, propext

### C23 sort orders the array: partial

* Model: sortedness for linear orders on the float path; the integer path is refuted by a witness.
* Result: Proved for every NaN-free list of np.float64. With NaN, or with plain ints/floats, the result can be unsorted (violations).
* Theorems (Props/UtilsProps.lean): `C23_sort_sorted_partial`, `C23_nan_violation`, `C23_plain_violation`
* Axioms: Classical.choice, Quot.sound, propext

### C24 Simple linear regression is least squares: proved

* Model: over fields; optimality over the reals.
* Result: Over exact reals; a constant predictor gives (nan, nan). Rounding is not modelled.
* Theorems (Props/UtilsProps.lean): `C24_least_squares`, `C24_constant_nan`
* Axioms: Classical.choice, Quot.sound, propext

### C25 max_index returns the index of a maximum: partial

* Model: negation plus exact value.
* Result: False: max_index returns 1 for every non-empty list (proved for all lists); partial theorem says when this happens to be right.
* Theorems (Props/UtilsProps.lean): `C25_max_index_violation`, `C25_max_index_partial`
* Axioms: Quot.sound, propext

### C26 Transformation lifecycle: partial

* Model: state machine; induction over histories.
* Result: Simulation of every call history (transform, inverse, configure, reset, assignments) against a two-component specification for Center, Standardize, Log, PassThrough. Standardize needs explicit configure data to have columns (violation shown); RowNorm does not follow the life cycle (violation).
* Theorems (Props/TransfProps.lean): `C26_center`, `C26_passThrough`, `C26_standardize`, `C26_standardize_violation`, `C26_log`, `C26_rowNorm_violation`
* Axioms: Classical.choice, Quot.sound, propext

### C27 Center removes column means and inverts: proved

* Model: reals.
* Result: Over the reals.
* Theorems (Props/TransfProps.lean): `C27_center`, `C27_center_zero_means`, `C27_center_width`
* Axioms: Classical.choice, Quot.sound, propext

### C28 Standardize yields unit variance and inverts: partial

* Model: reals with extended scalar for x/0; guard only covers column 0: negation and partial.
* Result: Over the reals with at least two rows; the zero-deviation guard only covers column 0, so other constant columns give NaN (violation over extended reals), as does a single row.
* Theorems (Props/TransfProps.lean): `C28_standardize`, `C28_unit_variance`, `C28_inverse_partial`, `C28_constant_column_violation`, `C28_single_row_violation`
* Axioms: Classical.choice, Quot.sound, propext

### C29 RowNorm normalises each row and inverts: partial

* Model: reals; inverse refuted.
* Result: Histories without inverse_transform proved. inverse_transform never restores the data, and leaves stale statistics behind (violations).
* Theorems (Props/TransfProps.lean): `C29_transform_partial`, `C29_rowStd`, `C29_inverse_violation`, `C29_roundtrip_violation`, `C29_stale_violation`
* Axioms: Classical.choice, Quot.sound, propext

### C30 Log transform domain and round trip: proved

* Model: reals.
* Result: Over the reals.
* Theorems (Props/TransfProps.lean): `C30_domain`, `C30_values`, `C30_inverse_first`, `C30_base`
* Axioms: Classical.choice, Quot.sound, propext

### C31 Savitzky-Golay coefficients reproduce polynomial derivatives: partial

* Model: normal equations solved exactly.
* Result: Exact real arithmetic. Coefficients yield f^(d)(0)/d!, so derivative orders >= 2 lack the factor d! (violation); single-point window returns [1] for any order (violation).
* Theorems (Props/SavGolProps.lean): `C31_coefficients`, `C31_too_few_points`, `C31_derivative_too_high`, `C31_scale_violation`, `C31_single_point_violation`, `C31_exact_on_polynomials`
* Axioms: Classical.choice, Quot.sound, propext

### C32 Savitzky-Golay transform shape and locality: proved

* Model: structural.
* Result: Over the reals; all sizes.
* Theorems (Props/SavGolProps.lean): `C32_values`, `C32_too_narrow`, `C32_linear`
* Axioms: Classical.choice, Quot.sound, propext

### C33 Savitzky-Golay never uses stale coefficients: partial

* Model: state machine invariant.
* Result: All histories, SavitzkyGolay and SavitzkyGolay2; assignments to num_points_left/right of SavitzkyGolay2 are accepted but ignored (violation).
* Theorems (Props/SavGolProps.lean): `C33_savitzkyGolay`, `C33_savitzkyGolay2_partial`, `C33_left_ignored_violation`
* Axioms: Classical.choice, Quot.sound, propext

### C34 Multiplicative scatter correction: partial

* Model: reals.
* Result: Proved: columns outside the ranges are untouched for any prefilter and reference; corrected rows equal (x-a)/b for the least-squares fit to the reference; the reference is the column mean or the configured average. Violations proved: overlapping ranges correct the shared columns twice, and a constant reference gives non-numbers. The corrected-value theorem is partial because it needs disjoint ranges and a non-constant reference.
* Theorems (Props/ScatterProps.lean, Props/Tighten.lean): `C34_untouched`, `C34_total`, `C34_corrected_partial`, `C34_reference`, `C34_no_inverse`, `C34_overlap_violation`, `C34_constant_reference_violation`, `C34_configuration_matrix`, `C34_short_spectrum`, `C34_inverse_configures`, `C34_no_reference`
* Axioms: Classical.choice, Quot.sound, propext

### C35 Y-gradient filter: partial

* Model: structural + reals.
* Result: Formula, linearity, constants to zero proved; the documented gradient sign is refuted (a ramp of slope s gives -s).
* Theorems (Props/ScatterProps.lean): `C35_formula`, `C35_linear`, `C35_constants`, `C35_ramp`, `C35_gradient_sign_violation`, `C35_rejected`
* Axioms: Classical.choice, Quot.sound, propext

### C36 FFT round trip: proved

* Model: complex numbers, DFT from Mathlib ZMod or finite sums.
* Result: Round trip for invertible modes, failure for the others; over exact complex arithmetic.
* Theorems (Props/FFTProps.lean): `C36_round_trip`, `C36_not_invertible`, `C36_empty`, `C36_mode_by_int`
* Axioms: Classical.choice, Quot.sound, propext

### C37 FFT output row alignment: partial

* Model: negation with witness, and exact statement of the row shift.
* Result: Holds for one row (partial); refuted for every matrix with two or more rows because fftshift also shifts rows.
* Theorems (Props/FFTProps.lean): `C37_single_row_partial`, `C37_misaligned_violation`
* Axioms: Classical.choice, Quot.sound, propext

### C38 Wrapper transformers never use a stale fit: partial

* Model: state machine; negation and partial.
* Result: Refuted: parameters assigned outside the validated set leave the fitted transformer stale, and a failed configure leaves it unfitted but configured. Partial: the wrappers equal a fresh fit when parameters are only changed before configuring. scikit-learn itself is an opaque parameter.
* Theorems (Props/Tighten.lean, Props/WrapperProps.lean): `C38_assignments`, `C38_defaults`, `C38_fresh_partial`, `C38_power_violation`, `C38_quantile_violation`, `C38_robust_violation`, `C38_failed_configure_violation`, `C38_validation`, `C38_accepted`
* Axioms: Classical.choice, Quot.sound, propext

### C39 Kernel matrices: proved

* Model: structural.
* Result: Generic loops for any kernel function; one-argument form equals the two-argument form exactly when the kernel is symmetric; linear, polynomial and RBF kernels instantiated.
* Theorems (Props/KernelProps.lean): `C39_entries`, `C39_single`, `C39_symmetric`, `C39_agree`, `C39_errors`, `C39_linear`, `C39_mismatch`, `C39_rbf`
* Axioms: Classical.choice, Quot.sound, propext

### C40 RBF kernel: partial

* Model: reals; documented square refuted.
* Result: Self value, symmetry, range and monotonicity proved; the documented squared distance is refuted (the norm is not squared): equality holds only for gamma 0 or distance 0 or 1.
* Theorems (Props/KernelProps.lean): `C40_value`, `C40_mismatch`, `C40_self`, `C40_symmetric`, `C40_range`, `C40_decreasing`, `C40_documented_partial`, `C40_documented_violation`
* Axioms: Classical.choice, Quot.sound, propext

### C41 Polynomial kernel parameters: partial

* Model: state machine.
* Result: Refuted: gamma, once filled in, keeps the value of the first data set. Partial: right in every history whose data have the same width, or once gamma is set explicitly.
* Theorems (Props/KernelProps.lean): `C41_same_width_partial`, `C41_explicit_gamma_partial`, `C41_violation`, `C41_forms_agree`
* Axioms: Classical.choice, Quot.sound, propext

### C42 Downsample: proved

* Model: structural.
* Result: All starts and steps, including negative ones.
* Theorems (Props/FilterProps.lean): `C42_columns`, `C42_exactly`, `C42_zero_step`, `C42_negative_step`, `C42_start_too_small`
* Axioms: Classical.choice, Quot.sound, propext

### C43 Equidistance resampling: proved

* Model: over fields.
* Result: Exact real arithmetic; matrices with at least one row.
* Theorems (Props/FilterProps.lean): `C43_interpolation`, `C43_endpoints`, `C43_identity`, `C43_between`, `C43_linear`, `C43_validation`, `C43_no_columns`
* Axioms: Classical.choice, Quot.sound, propext

### C44 MultiFilter composes: proved

* Model: fold laws.
* Result: Any filters, any list.
* Theorems (Props/FilterProps.lean): `C44_empty`, `C44_append`, `C44_order`, `C44_first_error`
* Axioms: Classical.choice, Quot.sound, propext

### C45 Parameter validation protects state: partial

* Model: state machine, induction over histories.
* Result: For all 17 classes and all histories: an accepted assignment stores the value, resets the object and changes nothing else; a rejected one raises ValueError (TypeError if the comparison is impossible) and changes nothing; parameters are legal at all times. Parameters without a validate_ method (norm_Y_weights, deflation_mode, ns, nt, ...) do not reset: C45_unvalidated_violation.
* Theorems (Props/LifecycleProps.lean): `C45_constructible`, `C45_invalid`, `C45_raises`, `C45_valid`, `C45_always_legal`, `C45_accepts`, `C45_nan`, `C45_int`, `C45_ranges`, `C45_ranges_all`, `C45_any_value`, `C45_unvalidated_violation`, `C45_deflation_mode`
* Axioms: Classical.choice, Quot.sound, propext

### C46 No results from an untrained model: partial

* Model: state machine.
* Result: Flag characterised by the observable history (C46_status); untrained use raises RuntimeError. get_matrix: names match, unknown gives None, None after a parameter change except PRM (AttributeError for W) and SIMPLS (stale Q), both proved as violations.
* Theorems (Props/LifecycleProps.lean, Props/Tighten.lean): `C46_status`, `C46_new`, `C46_refuses`, `C46_works`, `C46_names`, `C46_unknown_name`, `C46_known_name`, `C46_names_reset_partial`, `C46_prm_violation`, `C46_simpls_violation`, `C46_fastica`, `C46_pca`, `C46_constructor`, `C46_debug`, `C46_statistics`
* Axioms: Classical.choice, Quot.sound, propext

### C47 Failed training leaves the model untrained: partial

* Model: state machine.
* Result: Holds when both arguments are given. With one argument missing: AttributeError and the old model stays usable (PLS, GLSW classes), or silent reset to the defaults reported as success (CCAFilter).
* Theorems (Props/LifecycleProps.lean): `C47_flag`, `C47_refuses`, `C47_check_message`, `C47_refit`, `C47_missing_violation`, `C47_ccafilter_violation`, `C47_pls1_response`
* Axioms: Classical.choice, Quot.sound, propext

### C48 Retraining forgets the past: partial

* Model: state machine with carried fields, per algorithm; refuted for three.
* Result: Bisimulation: for every class except CCAFilter, DIPLS, FastICA a retrained object answers every later history like a new object with the same parameters; PCA likewise; PLS1 instantiated in full. CCAFilter, DIPLS and FastICA keep state across training (violations in their own files). KernelPLS keeps its kernel object, and PolyKernel fills in its default gamma on first use: retraining on data of another width predicts differently from a new object (C48_kernel_violation); with the same width, or with gamma set, it does not (C48_kernel_partial).
* Theorems (Props/CcaProps.lean, Props/DiplsProps.lean, Props/IcaProps.lean, Props/KernelStale.lean, Props/LifecycleProps.lean): `C48_cca_stale`, `C48_cca_violation`, `C48_dipls_stale`, `C48_dipls_violation`, `C48_ica_components_violation`, `C48_ica_violation`, `C48_kernel_partial`, `C48_kernel_violation`, `C48_retrain_partial`, `C48_pca`, `C48_pls1_object`
* Axioms: Classical.choice, Quot.sound, propext

### C49 PLS1 scores are orthogonal and reproduced by transform: proved

* Model: reals; any weight rule; induction over components.
* Result: Proved for any weight rule (PLS1, and VCPLS which only overrides it) and any number of components; exact reals; hypothesis Regular = no score has zero length (no division by zero).
* Theorems (Props/PLS1Props.lean): `C49_scores`, `C49_transform`, `C49_pls1`
* Axioms: Classical.choice, Quot.sound, propext

### C50 PLS1 predictions: proved

* Model: reals.
* Result: Linear predictions by r_hat, least-squares fit on the scores, residual monotone in the number of components, wrong width rejected. Exact reals, Regular data.
* Theorems (Props/PLS1Props.lean): `C50_linear`, `C50_least_squares`, `C50_monotone`, `C50_width`, `C50_pls1`, `C50_pls1_monotone`
* Axioms: Classical.choice, Quot.sound, propext

### C51 Preprocessing is applied consistently at prediction time: partial

* Model: refuted with witness; partial for NONE.
* Result: Violated: do_predict never applies trans_predictors. Exact characterisation of when predictions are right for CENTER and STANDARDIZE (iff theorems, _partial), concrete PLS1 witness (_violation); NONE is right.
* Theorems (Props/PlsPrepProps.lean): `C51_none`, `C51_unknown`, `C51_center_value`, `C51_standardize_value`, `C51_center_partial`, `C51_standardize_partial`, `C51_center_violation`
* Axioms: Classical.choice, Quot.sound, propext

### C52 Multi-response preprocessing is per response: partial

* Model: refuted; partial for one response.
* Result: Violated: class_mean/class_std_dev always use response column 0. Predictions are right iff all response means agree (CENTER); the violation theorem gives the exact shift for any data with differing means.
* Theorems (Props/PlsPrepProps.lean): `C52_center_value`, `C52_standardize_value`, `C52_center_partial`, `C52_standardize_partial`, `C52_center_violation`, `C52_none`
* Axioms: Classical.choice, Quot.sound, propext

### C53 NIPALS handles several responses: partial

* Model: refuted for every q>=2.
* Result: Violated: training with two or more responses never succeeds, over any scalars and in both modes (C53_never_violation); in PLS mode over the reals it raises ValueError because the row of standard deviations is passed to scale_by_row_vector, which demands a column vector. Proved: one response always works.
* Theorems (Props/NipalsProps.lean): `C53_never_violation`, `C53_multi_violation`, `C53_single_partial`
* Axioms: Classical.choice, Quot.sound, propext

### C54 NIPALS iteration reaches a fixed point: partial

* Model: loop never updates: refuted; partial.
* Result: Violated: the Y score is never updated inside the loop, so the result depends only on the first response column and not on tol or max_iter; concrete data on which the loop reports convergence far from any fixed point. Proved: for one response the result is a fixed point; the loop always terminates.
* Theorems (Props/NipalsProps.lean): `C54_result`, `C54_fixed_point_violation`, `C54_single_partial`
* Axioms: Classical.choice, Quot.sound, propext

### C55 SIMPLS scores are orthonormal: partial

* Model: reals, induction over components.
* Result: Orthonormal scores, B, predictions, transformation and state proved without slimming, for every data set whose PLS1 scores do not vanish; with slimming (num_coefficients > 0) the claim is false (C55_slim_violation).
* Theorems (Props/SimplsProps.lean): `C55_scores_partial`, `C55_least_squares`, `C55_width`, `C55_slim_violation`
* Axioms: Classical.choice, Quot.sound, propext

### C56 SIMPLS slimming keeps the requested number of coefficients: partial

* Model: exact count k+1; refuted.
* Result: C56_slim characterises the result for every matrix and count. One more entry than requested is kept (C56_count_violation); C56_kept_partial states what holds instead.
* Theorems (Props/SimplsProps.lean): `C56_slim`, `C56_kept_partial`, `C56_count_violation`
* Axioms: Classical.choice, Quot.sound, propext

### C57 OPLS removes orthogonal variation: partial

* Model: reals.
* Result: Orthogonality of the removed scores, X_osc and the data given to the base model proved for all data with orthogonal variation left. Violated: for two or more components transform(training data) differs from X_osc; messages of the base model are dropped (exceptions are not).
* Theorems (Props/OplsProps.lean): `C57_orthogonal`, `C57_base_data`, `C57_filtered_partial`, `C57_filtered_violation`, `C57_base_error_violation`, `C57_base_exception`
* Axioms: Classical.choice, Quot.sound, propext

### C58 KernelPLS centering and prediction: proved

* Model: reals.
* Result: Proved for every kernel, start vectors, tolerance and iteration limit; orthonormality assumes that no score vanishes (0/0 otherwise).
* Theorems (Props/KernelPlsProps.lean): `C58_centred`, `C58_library_kernels`, `C58_scores`
* Axioms: Classical.choice, Quot.sound, propext

### C59 DIPLS source/target handling: partial

* Model: decision logic.
* Result: Messages, rows and success proved for unsupervised and supervised; semi-supervised mode raises for all data whenever ns != nt (violation), and is proved for ns = nt only.
* Theorems (Props/DiplsProps.lean): `C59_messages`, `C59_rows`, `C59_unsupervised`, `C59_supervised`, `C59_semisupervised_violation`, `C59_semisupervised_partial`
* Axioms: Classical.choice, Quot.sound, propext

### C60 PRM iterates to convergence: partial

* Model: loop condition inverted; refuted; weights in range.
* Result: Violated: line 237 continues while the change is BELOW tol, so training normally stops after one pass (and at a fixed point runs to max_iter); with a zero MAD (majority response value) all first weights are NaN or 0; later residuals mix re-weighted response and un-weighted scores. Proved: pass bound, weights in (0,1] for non-zero scales, predictions.
* Theorems (Props/PrmProps.lean): `C60_weights_partial`, `C60_leverage_partial`, `C60_weights_violation`, `C60_bound`, `C60_loop_violation`, `C60_converged_violation`, `C60_single_pass_violation`, `C60_residuals_violation`, `C60_predict`, `C60_case_weights`
* Axioms: Classical.choice, Quot.sound, propext

### C61 SparsePLS sparsity: partial

* Model: reals.
* Result: The direction is a positive multiple of the soft-thresholded z for lambda<1 and a positive median (C61_direction_partial); it is not of unit norm, because the code divides by the squared norm (C61_norm_violation). lambda>=1 or a zero median gives NaN (C61_lambda_violation, C61_median_violation). Selection and dependence hold for every successful training run with at least one component.
* Theorems (Props/SparseProps.lean): `C61_direction_partial`, `C61_norm_violation`, `C61_lambda_violation`, `C61_median_violation`, `C61_support`, `C61_dependence`, `C61_predict`
* Axioms: Classical.choice, Quot.sound, propext

### C62 PCA component selection: partial

* Model: decision logic.
* Result: Component choice, order, number and scores hold for all data with a non-constant column and any eig/argsort meeting their contracts; eigenvalues taken as real. Loadings: one correct row per attribute when no column is constant; if a constant column precedes a non-constant one, an attribute loses its row (C62_loadings_violation). All-constant data with standardisation raises IndexError (C62_constant_violation).
* Theorems (Props/PcaProps.lean): `C62_components_partial`, `C62_loadings_partial`, `C62_loadings_violation`, `C62_constant_violation`
* Axioms: Classical.choice, Quot.sound, propext

### C63 CCA filter validates and whitens: partial

* Model: reals with solver specs.
* Result: C^(-1/2) proved for every positive lambda under the eigensolver contract; transform proved for every successful training. Violated part: validate_lambda_X/Y accept every value, and for a negative lambda on constant data no real C^(-1/2) exists (C63_lambda_violation).
* Theorems (Props/CcaProps.lean): `C63_half_partial`, `C63_lambda_violation`, `C63_validation`, `C63_transform_partial`
* Axioms: Classical.choice, Quot.sound, propext

### C64 GLSW down-weights clutter directions: partial

* Model: reals with solver specs; pairing refuted.
* Result: Symmetric for every solver output. The weights are taken from the sorted singular values and the directions from the unsorted eig output: each direction gets its own weight exactly when eig lists the eigenvalues in decreasing order (C64_downweights_partial); otherwise some direction gets the weight of another (C64_pairing_violation). For repeated eigenvalues a non-orthogonal basis, which the eig contract allows, makes G differ from the identity without clutter (C64_nonorthogonal_violation). The limit is quantified by an explicit bound.
* Theorems (Props/GlswProps.lean): `C64_symmetric`, `C64_downweights_partial`, `C64_weights_partial`, `C64_pairing_violation`, `C64_identity_partial`, `C64_nonorthogonal_violation`, `C64_errors`
* Axioms: Classical.choice, Quot.sound, propext

### C65 EPO projects clutter away: partial

* Model: reals with solver specs.
* Result: I - G is the stated projection for N up to the number of columns, but the filter multiplies by G itself, which keeps the clutter and removes the rest (C65_keeps_clutter_violation); N larger than the number of columns raises ValueError (C65_N_violation). Orthonormal eigenvectors are assumed of the eigensolver (automatic up to sign for distinct eigenvalues, EigPair.orthoEig).
* Theorems (Props/GlswProps.lean): `C65_projection_partial`, `C65_keeps_clutter_violation`, `C65_N_violation`
* Axioms: Classical.choice, Quot.sound, propext

### C66 FastICA round trip: partial

* Model: reals; lstsq as a parameter; shapes of mixing matrix and means.
* Result: sources * mixing^T equals the centred data whenever all components are kept. Violated part: reconstruct() then always raises ValueError (C66_reconstruct_violation); without whitening it adds the mean of each sample (C66_plain_partial). Fewer components than features: C125.
* Theorems (Props/IcaProps.lean): `C66_white_partial`, `C66_reconstruct_violation`, `C66_plain_partial`, `C66_untrained`
* Axioms: Classical.choice, Quot.sound, propext

### C67 CSV read/write round trip: partial

* Model: strings as character lists; Python's split, universal newlines and line iteration; number formatting as a parameter.
* Result: Proved for non-empty separators without line breaks whose first character does not occur in a cell; the number codec is a parameter, instantiated with exact decimals (C67_fixed_decimals). Violations: a separator that occurs in numbers is accepted and changes the shape; a matrix without columns comes back with one column.
* Theorems (Props/CsvProps.lean, Props/Tighten2.lean): `C67_table_partial`, `C67_to_string`, `C67_roundtrip_partial`, `C67_fixed_decimals`, `C67_separator_violation`, `C67_no_columns_violation`, `C67_errors`, `C67_padding`
* Axioms: Classical.choice, Quot.sound, propext

### C68 Random factories are reproducible and honour their parameters: partial

* Model: generator as an abstract state machine (seed, draw).
* Result: Reproducibility and shape proved; randn ignores mean and std (violation) and stays in [0,1).
* Theorems (Props/RandomProps.lean, Props/Tighten2.lean): `C68_rand_reproducible`, `C68_rand_errors`, `C68_randn_violation`, `C68_like_partial`, `C68_randn_range_violation`, `C68_randn_partial`, `C68_rand_consumes`
* Axioms: Classical.choice, Quot.sound, propext

### C69 A failed save keeps the old file: partial

* Model: abstract file system; truncation happens before serialising.
* Result: False: the target is truncated before serialising (violation); other files are kept.
* Theorems (Props/SerialProps.lean): `C69_failed_save_violation`, `C69_failed_save_partial`
* Axioms: Classical.choice, Quot.sound, propext

### C70 Log state has a fixed layout: partial

* Model: byte lists with an independent decoder.
* Result: False for int parameters (4 bytes instead of 8); proved for float parameters.
* Theorems (Props/SerialProps.lean): `C70_log_layout_violation`, `C70_log_float_partial`
* Axioms: Classical.choice, Quot.sound, propext

### C71 Model state serialisation: proved

* Model: state of a trained model as a list of tagged values.
* Result: Proved for float64 matrices with dimensions below 2^31.
* Theorems (Props/SerialProps.lean, Props/Tighten2.lean): `C71_standardize_state`, `C71_unconfigured`, `C71_standardize_overflow`
* Axioms: Classical.choice, Quot.sound, propext

### C72 FFT output modes: proved

* Model: complex numbers; output modes as functions of the DFT.
* Result: All modes and lengths, exact complex arithmetic.
* Theorems (Props/FFTProps.lean): `C72_modes`
* Axioms: Classical.choice, Quot.sound, propext

### C73 SIMPLS and PLS1 make the same predictions: proved

* Model: reals; both loops run side by side, induction over components.
* Result: Induction over components: the rotated PLS1 weights are multiples of the SIMPLS weights.
* Theorems (Props/SimplsProps.lean): `C73_same_predictions`, `C73_same_scores`
* Axioms: Classical.choice, Quot.sound, propext

### C74 NIPALS with one response is PLS1 on standardised data: proved

* Model: reals; NIPALS loop unfolded for one response and compared with PLS1.
* Result: Hypothesis NipRegular: along the textbook recursion none of the code's thresholds (1e-10 on the response, 1e-16 on the weights, 1e-10 on the score) is met. pinv enters only by pinv A = A^-1 for regular A.
* Theorems (Props/NipalsProps.lean): `C74_same_predictions`, `C74_response`, `C74_same_scores`
* Axioms: Classical.choice, Quot.sound, propext

### C75 KernelPLS predicts the fitted values for its training data: partial

* Model: reals; any kernel matrix.
* Result: Violated for a polynomial kernel (offset of the predictions); proved for the linear kernel. C75_transform gives the exact value for any kernel.
* Theorems (Props/KernelPlsProps.lean): `C75_transform`, `C75_linear_partial`, `C75_violation`
* Axioms: Classical.choice, Quot.sound, propext

### C76 KernelPLS exposes the loadings of the kernel: partial

* Model: reals.
* Result: Violated for all data: P is zero.
* Theorems (Props/KernelPlsProps.lean): `C76_loadings_violation`
* Axioms: Classical.choice, Quot.sound, propext

### C77 Options accepted by KernelPLS are usable: partial

* Model: error branches of the inner loop.
* Result: Violated: tol=0 and max_iter=0 pass validation but training raises for all data.
* Theorems (Props/KernelPlsProps.lean): `C77_violation`
* Axioms: Classical.choice, Quot.sound, propext

### C78 DIPLS regression is the least-squares fit on its scores: proved

* Model: reals; normal equations of the DIPLS recursion.
* Result: Over the reals, for the recursion the code is proved to run (C59 theorems), under the guards DReg (no division by zero, no singular inverse).
* Theorems (Props/DiplsProps.lean): `C78_weights`, `C78_scores`, `C78_fit`, `C78_predict`, `C78_predict_training`
* Axioms: Classical.choice, Quot.sound, propext

### C79 DIPLS transform returns the scores of the training data: partial

* Model: reals.
* Result: Violated: transform returns X W, not X W (P^T W)^-1; the first column agrees and T can be recovered.
* Theorems (Props/DiplsProps.lean): `C79_partial`, `C79_violation`
* Axioms: Classical.choice, Quot.sound, propext

### C80 The geometric median used for PRM leverage weights: partial

* Model: reals; one step of the Weiszfeld iteration as coded.
* Result: Proved for the iteration as coded, away from the eps-neighbourhood of the points; C80_violation shows that at a data point the constant weight 10 moves the iterate away from the true median.
* Theorems (Props/PrmProps.lean): `C80_hull`, `C80_bounds`, `C80_optimal`, `C80_descent`, `C80_violation`
* Axioms: Classical.choice, Quot.sound, propext

### C81 PRM on data with more columns than rows: partial

* Model: reals; SVD as a parameter with its contract.
* Result: Violated: svd_V holds Vh (not V), so the replaced matrix is X·U only when Vh·S = Vh^T·S; concrete 2x3 counterexample, and an exact characterisation as partial. C81_mixed_partial: for every wide X and every valid SVD the whole training equals training without the replacement (prmDirect) on Vh·Vh·X, same passes, weights and coefficients; C81_symmetric_partial: right when Vh·Vh = 1; C81_low: nothing is replaced otherwise. C81_order_violation: with valid decompositions, exchanging two columns in training and new data turns the predictions round.
* Theorems (Props/PrmProps.lean, Props/PrmWide.lean): `C81_partial`, `C81_violation`, `C81_low`, `C81_mixed_partial`, `C81_symmetric_partial`, `C81_order_violation`
* Axioms: Classical.choice, Quot.sound, propext

### C82 SparsePLS without sparsity is NIPALS: proved

* Model: reals; both loops run side by side.
* Result: Holds when all variables are selected in the last pass; regularity (NipRegular) keeps NIPALS away from its numeric thresholds.
* Theorems (Props/SparseProps.lean): `C82_all_selected`, `C82_nipals`, `C82_trained`
* Axioms: Classical.choice, Quot.sound, propext

### C83 SparsePLS transforms rows independently: partial

* Model: reals.
* Result: Holds for one component. With two or more it is violated: the loadings are recomputed from the batch being transformed, and the raw, un-standardised data is used.
* Theorems (Props/SparseProps.lean): `C83_one_component_partial`, `C83_single_row_violation`, `C83_batch_violation`
* Axioms: Classical.choice, Quot.sound, propext

### C84 PCA of further data: partial

* Model: reals; PCA object with refit.
* Result: Violated by transform, which resets and refits on every call (C84_refit_violation, C84_same_row_violation); holds for do_transform after a fit.
* Theorems (Props/PcaProps.lean): `C84_do_transform_partial`, `C84_refit_violation`, `C84_same_row_violation`
* Axioms: Classical.choice, Quot.sound, propext

### C85 Five-point Savitzky-Golay filter of the Y-gradient methods is a first derivative: partial

* Model: reals; the five coefficients applied as coded.
* Result: Violated in sign: the coefficients are applied in mirrored order, so the filter returns minus the first derivative (C85_sign_violation). Everything else holds for the negated filter.
* Theorems (Props/YGradProps.lean): `C85_values`, `C85_derivative_partial`, `C85_sign_violation`, `C85_errors`
* Axioms: Classical.choice, Quot.sound, propext

### C86 Y-gradient covariance: partial

* Model: reals and extended reals; sorting by response.
* Result: Because the smoothed response is the negated derivative the exponent has the wrong sign: weights are at least one and grow with the slope (C86_weights_violation). A constant response gives an all-NaN covariance (C86_constant_violation). Order independence is proved for pairwise different response values; the filter statement inherits the C64 condition on the order of the eigenvalues.
* Theorems (Props/Tighten.lean, Props/YGradProps.lean): `C86_epo_filter`, `C86_covariance_partial`, `C86_order_partial`, `C86_weights_violation`, `C86_errors`, `C86_constant_violation`, `C86_filter_partial`
* Axioms: Classical.choice, Quot.sound, propext

### C87 CCA projections are canonical: partial

* Model: reals; eig and SVD as parameters.
* Result: Orthonormality proved for at least as many features as targets. Violations: the code takes columns of Vh instead of rows, so the cross-covariance is S*Vh*Vh (concrete case C87_cross_violation), and with fewer features than targets training raises ValueError (C87_wide_violation).
* Theorems (Props/CcaProps.lean): `C87_white_partial`, `C87_wide_violation`, `C87_cross_violation`
* Axioms: Classical.choice, Quot.sound, propext

### C88 FastICA weights are orthonormal: partial

* Model: reals; induction over iterations and components.
* Result: Update formula and orthonormality proved for deflation (regular runs, at least one iteration) and orthonormality for parallel. Violations: max_iter=0 is accepted and returns normalised random rows (C88_maxIter_violation); parallel applies the non-linearity to the projections on the columns of W instead of its rows (C88_parallel_violation).
* Theorems (Props/IcaProps.lean): `C88_step_partial`, `C88_deflation_partial`, `C88_maxIter_violation`, `C88_symmetric`, `C88_parallel_partial`, `C88_parallel_violation`
* Axioms: Classical.choice, Quot.sound, propext

### C89 FastICA non-linearities and their derivatives: proved

* Model: reals; derivatives with Mathlib's HasDerivAt.
* Result: All three functions, exact real arithmetic.
* Theorems (Props/IcaFunProps.lean): `C89_cube`, `C89_exponential`, `C89_logCosH`
* Axioms: Classical.choice, Quot.sound, propext

### C90 norm1 and norm2 are norms: partial

* Model: reals; norm and product laws against finite sums.
* Result: All norm laws and Cauchy-Schwarz proved. norm2 is not submultiplicative on matrices that are not vectors (2 by 2 matrix of ones), proved as a violation.
* Theorems (Props/NormProps.lean): `C90_norm1`, `C90_norm2_value`, `C90_norm2`, `C90_norm2_eye`, `C90_cauchy_schwarz`, `C90_submultiplicative_violation`
* Axioms: Classical.choice, Quot.sound, propext

### C91 trace, max, head and shape predicates: proved

* Model: any scalars or a linear order.
* Result: Proved for all shapes, error branches included.
* Theorems (Props/NormProps.lean): `C91_trace_value`, `C91_trace`, `C91_max`, `C91_head`, `C91_shape_predicates`
* Axioms: Classical.choice, Quot.sound, propext

### C92 VCPLS weights maximise the penalised covariance criterion: partial

* Model: reals; simultaneous diagonalisation of two quadratic forms; rank argument for the training loop.
* Result: Proved for every eigensolver returning a real eigenbasis whenever there is one (that there is one is proved); training claims for lambda > 0. validate_lambda_ accepts negative values, for which the score can be zero although a component exists (violation).
* Theorems (Props/VcplsProps.lean): `C92_weights`, `C92_ridge`, `C92_train`, `C92_sign`, `C92_lambda_violation`
* Axioms: Classical.choice, Quot.sound, propext

### C93 normalized gives unit columns or rows: partial

* Model: reals; X for the zero column.
* Result: Proved over the reals for every column (row) that is not zero. A zero column becomes NaN (violation, proved for all matrices over the extended reals).
* Theorems (Props/MatrixMore.lean): `C93_columns`, `C93_rows`, `C93_axis`, `C93_invariant`, `C93_zero_column_violation`
* Axioms: Classical.choice, Quot.sound, propext

### C94 vector access and diagonals: proved

* Model: any scalars; the fill loop by induction.
* Result: Proved for all shapes, scalars and positions; vector_to_diagonal for non-empty vectors.
* Theorems (Props/MatrixMore.lean): `C94_get_from_vector`, `C94_num_elements`, `C94_fill_diagonal`, `C94_diag`, `C94_vector_to_diagonal`, `C94_diagonal_scales`
* Axioms: Classical.choice, Quot.sound, propext

### C95 element-wise functions: proved

* Model: reals.
* Result: Proved; exact real arithmetic, powers with natural exponents.
* Theorems (Props/MatrixMore.lean): `C95_apply`, `C95_sqrt`, `C95_sqrt_negative`, `C95_pow`, `C95_exp`, `C95_tanh`
* Axioms: Classical.choice, Quot.sound, propext

### C96 inverse and solve: proved

* Model: reals; lstsq by its variational contract, Penrose conditions derived.
* Result: Proved in exact arithmetic. For non-square matrices lstsq is a parameter that must return least-squares solutions of smallest length, as NumPy documents.
* Theorems (Props/MatrixMore.lean): `C96_square`, `C96_singular`, `C96_rectangular`, `C96_one_sided`, `C96_solve`, `C96_solve_errors`
* Axioms: Classical.choice, Quot.sound, propext

### C97 PLS1 reaches ordinary least squares: proved

* Model: reals; rank argument on the scores T = X R.
* Result: Proved in exact arithmetic; the closed form holds for every rule for the weights that never meets a zero score, the general statement for the weights of PLS1.
* Theorems (Props/PlsInvariance.lean): `C97_all_components`, `C97_exhausted`, `C97_reaches`
* Axioms: Classical.choice, Quot.sound, propext

### C98 PLS1 and SIMPLS do not depend on the order of samples or predictors: proved

* Model: reals; induction over the components relates the two runs.
* Result: Proved in exact arithmetic; SIMPLS without slimming, through C73.
* Theorems (Props/PlsInvariance.lean): `C98_rotation`, `C98_order`, `C98_simpls`
* Axioms: Classical.choice, Quot.sound, propext

### C99 PLS1 does not depend on the units of predictors and response: proved

* Model: reals; the same induction as C98 with scale factors.
* Result: Proved in exact arithmetic; C99_column_units_differ shows the limit.
* Theorems (Props/PlsInvariance.lean): `C99_units`, `C99_column_units_differ`
* Axioms: Classical.choice, Quot.sound, propext

### C100 DIPLS without a domain shift is PLS1: proved

* Model: reals; induction over the components relates the two runs; equality of the covariances is an invariant of the deflation.
* Result: Proved in exact arithmetic. lambda_ = 0 itself is refused by the setter (absolute value at least 1e-8), so equal covariances are the case that can occur; they are preserved by every deflation.
* Theorems (): `C100_supervised`, `C100_unsupervised`
* Axioms: Classical.choice, Quot.sound, propext

### C101 KernelPLS with the linear kernel is PLS1: proved

* Model: reals; the inner loop reaches the response up to sign after one pass; induction over the components relates kernel and response to the deflated data of PLS1.
* Result: Proved in exact arithmetic. The condition on the start vectors holds for almost all random vectors; it is stated in terms of PLS1 only.
* Theorems (): `C101_linear_kernel`
* Axioms: Classical.choice, Quot.sound, propext

### C102 OPLS is PLS1 with the orthogonal components added: partial

* Model: The second weights of PLS1 are the orthogonal weights with opposite sign; an identity between the first two deflations, then both recursions coincide.
* Result: Proved for one orthogonal component and any number of predictive components. Violated for two: do_transform subtracts X W P^T although W belongs to the deflated predictors; on a 3x3 example where PLS1 with three components reproduces the response exactly OPLS with 2+1 components does not.
* Theorems (): `C102_one_orthogonal_partial`, `C102_two_orthogonal_violation`
* Axioms: Classical.choice, Quot.sound, propext

### C103 A trained model treats every sample on its own: partial

* Model: A predicate RowWise closed under composition and entrywise combination; a loop lemma for row-by-row loops that may fail; each class reduced to its stored matrices.
* Result: Proved for Center, Standardize, RowNorm, LogTransform, PassThrough, SavitzkyGolay(2), Downsample, EquiDistance, MultiFilter, the three kernels, PLS1, VCPLS, SIMPLS, PRM, NIPALS, SparsePLS.predict, OPLS, KernelPLS, DIPLS, GLSW, EPO, CCAFilter, both prediction wrappers, and do_transform of PCA. Refuted for FFT (rows permuted), SparsePLS.transform (deflates with the new data), PCA.transform and FastICA.transform (both train on the data they are given; C103_fast_ica_violation: without whitening and with deflation every single sample is refused). The three wrappers of external scalers are not covered; MultiplicativeScatterCorrection works on columns by design.
* Theorems (): `C103_fast_ica_violation`, `C103_selection`, `C103_selected`, `C103_one_at_a_time`, `C103_stacked`, `C103_center`, `C103_center_inverse`, `C103_standardize`, `C103_standardize_inverse`, `C103_rowNorm`, `C103_log`, `C103_passThrough`, `C103_savitzkyGolay`, `C103_savitzkyGolay2`, `C103_fft_violation`, `C103_downsample`, `C103_equidistance`, `C103_multiFilter`, `C103_linear_kernel`, `C103_poly_kernel`, `C103_rbf_kernel`, `C103_pls1_transform`, `C103_pls1_predict`, `C103_single_predict`, `C103_multi_predict`, `C103_simpls_transform`, `C103_simpls_predict`, `C103_glsw`, `C103_opls_transform`, `C103_opls_predict`, `C103_prm_predict`, `C103_nipals_predict`, `C103_nipals_transform`, `C103_nipals_transform_response`, `C103_sparse_predict`, `C103_kernel_transform`, `C103_kernel_predict`, `C103_dipls_transform`, `C103_dipls_predict`, `C103_cca_transform`, `C103_cca_transform_response`, `C103_pca`, `C103_sparse_transform_violation`, `C103_pca_transform_violation`
* Axioms: Classical.choice, Quot.sound, propext

### C104 PRM: transform gives the scores behind predict when samples are at least as many as variables, and raises otherwise: partial

* Model: Loop invariant over the reweighting loop: every accepted pass leaves the inner SIMPLS model trained on matrices of the working shape.
* Result: Refuted for n < p (`C104_violation`): do_transform multiplies the original variables by weights of the reduced problem, so transform raises. The positive half (p ≤ n) is proved for all inputs.
* Theorems (): `C104_partial`, `C104_violation`
* Axioms: Classical.choice, Quot.sound, propext

### C105 PRM with C = infinity is SIMPLS, as documented, unless the median absolute residual is zero: partial

* Model: IEEE-style arithmetic: x/(c·inf) = 0 for finite x, 1/(1+0)² = 1; the weighted matrices equal the original ones, the loop then stops or repeats the same model.
* Result: Stated over numbers extended by NaN and infinities. Refuted when the median absolute residual is zero (`C105_violation`); proved otherwise.
* Theorems (): `C105_partial`, `C105_violation`
* Axioms: Classical.choice, Quot.sound, propext

### C106 The kernel matrices of all three kernels are positive semidefinite for non-negative parameters: proved

* Model: Gram matrices, Schur products and power series for the polynomial and the Gaussian kernel; the distance is an integral of inverse quadratics, hence conditionally negative definite, hence exp(-gamma·distance) is positive semidefinite (Schoenberg).
* Result: `C106_limits` shows that the sign conditions are needed.
* Theorems (): `C106_linear`, `C106_poly`, `C106_rbf`, `C106_limits`
* Axioms: Classical.choice, Quot.sound, propext

### C107 The normalisations remove exactly the offset and gain they are meant to remove, and applying them twice changes nothing: proved

* Model: Affine equivariance of mean, standard deviation and least-squares line (`mu_affine`, `sd_affine`, `linearRegression_affine`); C31 for the polynomial exactness of the Savitzky-Golay coefficients.
* Result: Over the reals. Standardize needs columns that are not constant, the scatter correction a non-constant reference and a non-zero slope in every range that contains a wavelength of the sample.
* Theorems (): `C107_rowNorm`, `C107_rowNorm_idempotent`, `C107_center`, `C107_standardize`, `C107_column_idempotent`, `C107_msc`, `C107_msc_idempotent`, `C107_savitzkyGolay`
* Axioms: Classical.choice, Quot.sound, propext

### C108 Training does not depend on the order of the samples: proved

* Model: relational invariant by induction over the training loops (Core/Shuffle.lean)
* Result: Exact arithmetic. Proved as a relation between two runs: every intermediate matrix is either equal or has its rows reordered, and both runs raise the same exception. C108_kernel covers KernelPLS with one response; with several responses its random start vector, which is indexed by samples, enters the result. FastICA and PRM with more predictors than samples (it takes an SVD of the transposed data) are not covered: there too the order enters an external routine. Semi-supervised DIPLS is covered for as many labelled target samples as source samples, which the code assumes.
* Theorems (): `C108_kernel`, `C108_single`, `C108_multi`, `C108_pls`, `C108_pls1`, `C108_vcpls`, `C108_simpls`, `C108_nipals`, `C108_opls`, `C108_glsw`, `C108_cca`, `C108_sparse`, `C108_sparse_nipals`, `C108_dipls`, `C108_pca`, `C108_prm`
* Axioms: Classical.choice, Quot.sound, propext

### C109 SparsePLS is NIPALS on the selected variables: proved

* Model: The last pass of the loop determines the coefficients (spTrain_last, spStep_out); the gathered columns are a column choice f; standardising commutes with choosing columns and is idempotent; scattering the coefficients and multiplying equals multiplying the chosen columns.
* Result: The inner NIPALS model must be regular for the selected columns (same condition as in C82: no pass meets a zero weight or score). NIPALS is taken with the default deflation mode and without the CCA norm, the way SparsePLS configures it.
* Theorems (): `C109_coefficients`, `C109_predictions`, `C109_selected`, `C109_trained`, `C109_example`
* Axioms: Classical.choice, Quot.sound, propext

### C110 NaN and infinities in text: partial

* Model: Texts over exact rationals extended by infinities and NaN; Python's reading of the words inf, infinity and nan is modelled; the generic CSV round trip of C67 is instantiated.
* Result: NaN violates the claim: the branch compares with == and is never taken, so NaN is written as nan. The round trip still restores it.
* Theorems (): `C110_infinities`, `C110_nan_violation`, `C110_roundtrip`, `C110_to_string_defaults`
* Axioms: Classical.choice, Quot.sound, propext

### C111 Default parameters: proved

* Model: Invariant over assignments: a key once set keeps its value through later assignments and resets, because the reset tables agree with the default tables (checked for every class by evaluation of a Boolean function over the tables).
* Result: Limits (C111_limits): initialize() does not touch ns and nt of DIPLS. CCARegression ignores every assignment to deflation_mode (C45).
* Theorems (): `C111_initialize`, `C111_construct`, `C111_documented`, `C111_limits`
* Axioms: Classical.choice, Quot.sound, propext

### C112 NIPALS, CCARegression and SparsePLS do not depend on the units of the data: proved

* Model: Standardising in other units gives the same standardised data (mu_affine, sd_affine); training is a function of the standardised data up to the last scaling with the divisor of the response.
* Result: Exact arithmetic; one response column (the code accepts no other, C82). Constant columns are excluded: Standardize then divides by one only in column 0.
* Theorems (): `C112_nipals`, `C112_sparse`
* Axioms: Classical.choice, Quot.sound, propext

### C113 Training and prediction leave the caller's matrices alone and the model shares none of them: proved

* Model: Simulation between heap programs and value functions with a frame condition (Core/HeapSim): each rule says which objects may change; composed statement by statement along the code, loops by an invariant.
* Result: Programs on a heap of matrix objects (Alg/Pls1Heap, PlsHeap, WrapHeap, NipalsHeap, SparseHeap, KernelHeap, PrmHeap, DiplsHeap) are shown to refine the functions on values; C113_get_matrix_limits proves that get_matrix shares the model's matrix. DIPLS is covered for new objects without preprocessing; its statements within one component are in the order of the function model. FastICA is in C140.
* Theorems (): `C113_overwritten`, `C113_two_models`, `C113_pls1`, `C113_pls1_transform`, `C113_vcpls`, `C113_simpls`, `C113_simpls_transform`, `C113_opls_base`, `C113_opls`, `C113_get_matrix_limits`, `C113_nipals`, `C113_nipals_transform`, `C113_nipals_transform_response`, `C113_sparse`, `C113_sparse_transform`, `C113_kernel_base`, `C113_kernel_base_transform`, `C113_kernel_linear`, `C113_kernel_poly`, `C113_kernel_rbf`, `C113_prm`, `C113_prm_transform`, `C113_dipls_unsupervised`, `C113_dipls_supervised`, `C113_dipls_semisupervised`
* Axioms: Classical.choice, Quot.sound, propext

### C114 PLS1 is least squares over a Krylov space: proved

* Model: Weights are orthonormal and loadings bidiagonal in them (Lanczos recurrence), hence the directions span the Krylov space by induction; least squares from the orthogonality of residual and scores.
* Result: Over the reals, for data on which every score used is nonzero (otherwise the code divides by zero, C97). C114_simpls, C114_nipals, C114_kernel follow from C73, C74, C101 and inherit their hypotheses.
* Theorems (): `C114_simpls`, `C114_nipals`, `C114_kernel`, `C114_krylov`
* Axioms: Classical.choice, Quot.sound, propext

### C115 PLS1 shrinks: the regression vector grows with the number of components and stays below least squares: proved

* Model: Increments of the regression vector have nonnegative inner products with each other (positive entries of the recurrence); at the last regular number of components the vector is the minimum-norm solution.
* Result: Over the reals, for data on which the scores used are nonzero.
* Theorems (): `C115_growth`, `C115_shrinks`
* Axioms: Classical.choice, Quot.sound, propext

### C116 PLS1 fits at least as well as principal component regression with as many components: proved

* Model: A vector of the Krylov space that filters the eigen-directions with the polynomial 1 - prod(1 - x/lambda_j) reproduces the chosen components exactly and shrinks the others (De Jong's argument).
* Result: Stated for the uncentred X handed to PLS1; with centred X the eigenbasis is that of the covariance matrix.
* Theorems (): `C116_principal_components`
* Axioms: Classical.choice, Quot.sound, propext

### C117 Each PLS1 component maximises the covariance with the response: proved

* Model: Cauchy-Schwarz on the deflated cross product; score-response inner product equals the norm of the cross product.
* Result: Over the reals, for data on which the scores used are nonzero.
* Theorems (): `C117_covariance`
* Axioms: Classical.choice, Quot.sound, propext

### C118 Savitzky-Golay output is the derivative of the best-fitting polynomial, with the least noise: proved

* Model: The coefficients are the values of a polynomial of degree at most p, so they lie in the space that the residual of the fit is orthogonal to; Pythagoras for both minimality claims; Taylor shift to the position of the window.
* Result: Over the reals. The factor d! is the one the code leaves out, see C31.
* Theorems (): `C118_least_squares`, `C118_least_noise`
* Axioms: Classical.choice, Quot.sound, propext

### C119 PCA scores are uncorrelated and no other directions keep more variance: proved

* Model: Ky Fan: a matrix with orthonormal columns has row sums of squares at most one and total K, so the weighted sum of eigenvalues is at most the sum of the K largest; residual by Pythagoras.
* Result: Over the reals. The hypothesis on the eigenvectors is needed because the general (not symmetric) eigenvalue routine is called, which promises only unit eigenvectors.
* Theorems (): `C119_optimal`
* Axioms: Classical.choice, Quot.sound, propext

### C120 get_loadings returns the loadings: partial

* Model: Tables of the attribute behind get_loadings on top of the lifecycle model; least-squares characterisation from orthogonality of scores and residual.
* Result: Lifecycle part proved for all PLS classes. The loadings are right for PLS1/VCPLS (C120_pls1_partial), OPLS and NIPALS. Violated: SIMPLS returns its weights W, KernelPLS and DIPLS return the scores T (one row per sample). SparsePLS also returns W, which for one component are loadings of its scores only if they have length one (C120_sparse_violation; C120_sparse_example has length two).
* Theorems (): `C120_supported`, `C120_answers`, `C120_forgotten`, `C120_pls1_partial`, `C120_opls_partial`, `C120_nipals_partial`, `C120_simpls_violation`, `C120_kernel_violation`, `C120_dipls_violation`, `C120_sparse_violation`, `C120_sparse_example`
* Axioms: Classical.choice, Quot.sound, propext

### C121 Models with fewer components are part of models with more: proved

* Model: Closed forms of the trained models whose columns do not mention the number of components; for NIPALS a simulation of the two training loops over Mat in any arithmetic; for PCA monotonicity of the stopping rule.
* Result: NIPALS is shown for any arithmetic including rounding; the other classes for exact real arithmetic (PLS1 and DIPLS on runs where no score vanishes). KernelPLS draws a new random start per component; the nested run is given the same draws.
* Theorems (): `C121_pls1`, `C121_simpls`, `C121_kernel`, `C121_opls`, `C121_dipls`, `C121_pca`, `C121_nipals`
* Axioms: Classical.choice, Quot.sound, propext

### C122 Predictions for the training data explain a fraction of the response: analysis of variance and R² of the PLS regressors: proved

* Model: Least-squares characterisation of PLS1 predictions (C50), transferred to the other classes through the equality of their predictions with those of PLS1 (C73, C74, C101).
* Result: PLS1, VCPLS and SIMPLS are stated for centred data without preprocessing, because predict does not preprocess the predictors (C51).
* Theorems (): `C122_pls1`, `C122_simpls`, `C122_nipals`, `C122_kernel`
* Axioms: Classical.choice, Quot.sound, propext

### C123 The inner iteration of KernelPLS converges and ends by its tolerance: proved

* Model: Spectral theorem for Y^T K Y, the power method in the eigenbasis, then stabilisation of the component loop by induction on the components.
* Result: Exact real arithmetic. The hypothesis that no second pass is zero is explicit; with a zero K u the code divides by zero (C50).
* Theorems (): `C123_pass`, `C123_limit`, `C123_loop`, `C123_training`
* Axioms: Classical.choice, Quot.sound, propext

### C124 What CCARegression fits for one response: partial

* Model: Symbolic execution of the first component and of the early stop at the second; Moore-Penrose inverse via the eigendecomposition; Cauchy-Schwarz
* Result: C124_violation: with X = [[-1,-1],[0,0],[1,1]], y = [-1,0,1] the predictions are about 2*y although y is a combination of the predictors. C124_square_violation: with n = p training raises LinAlgError in exact arithmetic (with floats the determinant may be a rounding error instead of 0 and the weights are then meaningless). Positive part: C124_predictions, C124_correlation, C124_uncorrelated. np.linalg.lstsq and np.linalg.pinv are assumed to return Moore-Penrose inverses (PinvRoutine; existence and uniqueness are proved).
* Theorems (): `C124_predictions`, `C124_correlation`, `C124_uncorrelated`, `C124_violation`, `C124_square_violation`
* Axioms: Classical.choice, Quot.sound, propext

### C125 FastICA with fewer components keeps the best approximation of the data: proved

* Model: The Moore-Penrose inverse of W diag(1/s) U_K' is exhibited, which makes mixing * components = U_K U_K'; optimality by the weighted-sum argument over the singular values with Bessel's inequality.
* Result: For a new object. svd is an oracle required to return a thin singular value decomposition, lstsq one required to return the Moore-Penrose inverse.
* Theorems (): `C125_approximation`
* Axioms: Classical.choice, Quot.sound, propext

### C126 The geometric median of PRM ends by its tolerance near the minimum: proved

* Model: Weiszfeld majorisation with the discarded square kept, harmonic-arithmetic mean, potential argument over the passes; subgradient inequality for the last step.
* Result: Exact real arithmetic. The distance condition is an explicit hypothesis on the iterates; what goes wrong without it is C80_violation. The default max_iter of 500 is below the bound for small tolerances, so for it the theorem gives no guarantee.
* Theorems (): `C126_terminates`
* Axioms: Classical.choice, Quot.sound, propext

### C127 GLSW and EPO learn only from differences between paired samples and never lengthen a sample: proved

* Model: The fit factors through the clutter covariance, which is shown invariant; lengths are computed in the eigenbasis.
* Result: Exact real arithmetic. The contraction part assumes orthonormal eigenvectors from np.linalg.eig (what happens otherwise: C64_nonorthogonal_violation).
* Theorems (): `C127_differences`, `C127_order`, `C127_contracts`, `C127_epo`
* Axioms: Classical.choice, Quot.sound, propext

### C128 PLS1 and SIMPLS see the training data only through XᵀX and Xᵀy: proved

* Model: induction over components: deflation multiplies X on the right by a p×p matrix that depends only on the moments, so proportional moments stay proportional; weights are normalised so the factor cancels
* Result: Standardizing is left out on purpose: the divisor n-1 makes the stored deviation of the response depend on how often samples are entered, and predictions take unstandardized data (C51).
* Theorems (): `C128_pls1`, `C128_simpls`, `C128_simpls_scaled`, `C128_repeat`, `C128_repeat_center`
* Axioms: Classical.choice, Quot.sound, propext

### C129 Printing a matrix gives its comma-separated text; files need no final line break: partial

* Model: the two loops of __str__ are the joins of to_lines by induction; appending a line feed changes only the last piece of the last line, which the number parser ignores
* Result: Violated for matrices without rows or columns: printing them raises an IndexError (C129_empty_violation).
* Theorems (): `C129_final_newline`, `C129_str`, `C129_roundtrip`, `C129_shape`, `C129_empty_violation`
* Axioms: Classical.choice, Quot.sound, propext

### C130 FFT amplitudes carry the energy of the rows and ignore cyclic shifts: proved

* Model: orthogonality of the roots of unity through the inversion formula, folding of the conjugate symmetric half, and a reindexing of the sum for shifts
* Result: Rows are matched up to a permutation because np.fft.fftshift also shifts rows (C37).
* Theorems (): `C130_energy`, `C130_shift`, `C130_linear`, `C130_gain`
* Axioms: Classical.choice, Quot.sound, propext

### C131 Only the geometry of the samples matters: KernelPLS under rotations and shifts, PLS1 and SIMPLS when the samples are placed in a larger space: proved

* Model: Induction over the components: weights and loadings of the rotated data are the rotated ones, scores agree; SIMPLS through C73. KernelPLS: centring removes the shift and the kernel matrices coincide.
* Result: PLS1 predictions of new samples are not centred by the code (C51), so the centred version shifts training samples only. Standardizing is left out: it depends on the coordinates. For square Q the PLS1 and SIMPLS parts are C98; new are rectangular Q, the shift under centring, and KernelPLS.
* Theorems (): `C131_pls1`, `C131_simpls`, `C131_pls1_center`, `C131_kernel`, `C131_kernel_linear`, `C131_kernel_poly`, `C131_kernel_rbf`
* Axioms: Classical.choice, Quot.sound, propext

### C132 A larger lambda_ makes the DIPLS scores of the two domains more alike: partial

* Model: Spectral theorem for the difference of the covariances, then Chebyshev's sum inequality on the eigenbasis coefficients of the two weight vectors.
* Result: False as stated: the penalty uses the signed difference of the covariances, not its absolute value as in the published method. C132_violation gives samples for which every increase of lambda_ below 4 makes the variances less alike. What holds for all data while the penalised criterion is bounded below: the signed difference (source minus target) never grows with lambda_ (C132_unsupervised_partial, C132_supervised_partial); so the claim holds when the source varies at least as much as the target in every direction (C132_alike_partial).
* Theorems (): `C132_unsupervised_partial`, `C132_supervised_partial`, `C132_alike_partial`, `C132_violation`
* Axioms: Classical.choice, Quot.sound, propext

### C133 However wrong a minority of the responses are, the first pass of PRM stays bounded: proved

* Model: sorting lemma for the median of a majority, then the fair weight in closed form
* Result: About the first pass and models that stop after it. Later passes compute their residuals from the already weighted responses (C60). C133_half_limits shows that a majority is needed.
* Theorems (): `C133_bounded`, `C133_model`, `C133_half_limits`
* Axioms: Classical.choice, Quot.sound, propext

### C134 Whatever was done with an algorithm object before, training it and asking any questions gives what its formulas give for the current parameters: proved

* Model: A trained class is a Code: a fit from the attributes, the attributes it assigns, and an answer from the attributes, with the proof obligations that it reads and writes only what the class table declares. Code.history runs the life-cycle model on it: reset, assignments, initialised flag, then induction over the queries, each of which leaves the state as it was (the Standardize object is configured after training, so re-using it changes nothing).
* Result: Proved for twelve classes over any field of scalars with a square root (PLS1 is C48_pls1_object). The attributes the object holds after training are those the training code assigns, and the answers are computed from the attributes only. For KernelPLS the state of the kernel object is a parameter (training may fill in its gamma: C48_kernel_violation); for OPLS the base algorithm is an object that is initialised anew, and C134_opls_pls1 puts a whole PLS1 object there.
* Theorems (): `C134_kernel`, `C134_opls`, `C134_opls_pls1`, `C134_kernel_example`, `C134_opls_example`, `C134_vcpls`, `C134_simpls`, `C134_prm`, `C134_sparse`, `C134_glsw`, `C134_epo`, `C134_yGlsw`, `C134_yEpo`, `C134_nipals`, `C134_cca`, `C134_sparse_example`, `C134_nipals_example`, `C134_vcpls_example`, `C134_nipals_options`, `C134_cca_options`
* Axioms: Classical.choice, Quot.sound, propext

### C135 Small changes of the data change the predictions of PLS1, SIMPLS, OPLS, linear KernelPLS and NIPALS by little: proved

* Model: Continuity of every step of the recursion at data where the denominators are not zero (products, loadings, normalised weights, deflation), by induction over the components; the set of regular data is open; centering and scaling are continuous where the standard deviations are not zero; entrywise distances via the metric of finite products. SIMPLS through C73.
* Result: Over the reals. Proved for the three documented preprocessing types; C135_limits shows that the hypothesis cannot be dropped (predictions of two arbitrarily close training sets differ by any amount).
* Theorems (): `C135_pls1`, `C135_simpls`, `C135_scores`, `C135_limits`, `C135_opls`, `C135_kernel`, `C135_nipals`
* Axioms: Classical.choice, Quot.sound, propext

### C136 PLS1 and SIMPLS see the samples only through their inner products: proved

* Model: Induction over the components: the products of deflated predictors with deflated predictors, and of deflated new samples with deflated predictors, are functions of the inner products and the response alone. SIMPLS through C73.
* Result: Scores and predictions for PLS1, predictions for SIMPLS with one response and no slimming, without preprocessing (centred data are the case of centred rows); exact arithmetic. Generalises C131 (rotations).
* Theorems (): `C136_pls1`, `C136_simpls`
* Axioms: Classical.choice, Quot.sound, propext

### C137 KernelPLS with a positive semidefinite kernel is PLS1 on features, up to one constant: proved

* Model: C136 shows that the run of PLS1 depends on the Gram matrix only, so the lemmas behind C101 apply to any matrix with the centred kernel as Gram matrix. Features of training and new samples in a common space come from the square root of the joint kernel matrix. The constant is the prediction for the mean feature. With n - 1 components the scores and the constant vector are an orthogonal basis, so the residual vanishes.
* Result: C101 is the case of the linear kernel, where the constant is zero; C75_violation is a case where it is two. One response; exact arithmetic; the matrix inverse is NumPy's for non-singular input.
* Theorems (): `C137_features`, `C137_kernel`, `C137_interpolates`
* Axioms: Classical.choice, Quot.sound, propext

### C138 Resampling composes, loses nothing on a finer grid, and commutes with centring and mixing: proved

* Model: interpolation is affine on every cell of the finer grid; selection by entries; each filter as right multiplication by an explicit matrix, centring commutes with right multiplication
* Result: Exact arithmetic; SavitzkyGolay through its coefficient application (sgApply).
* Theorems (): `C138_downsample`, `C138_refine`, `C138_back`, `C138_back_downsample`, `C138_equidistance`, `C138_downsample_linear`, `C138_savgol`, `C138_center`, `C138_mix`
* Axioms: Classical.choice, Quot.sound, propext

### C139 Scatter correction with a prefilter: partial

* Model: The prefilter object's state is threaded through the corrector; run lemma by induction over the list of spectra for any transformation object; violations with Center and SavitzkyGolay.
* Result: Holds for prefilters without memory (PassThrough, Log, RowNorm, Y-gradient). A prefilter that learns (Center, Standardize) is configured by the first spectrum it sees and keeps that for all later spectra, also after reset of the corrector. The prefilter is also applied to the wave number column, so a range can lose all its samples (NaN results), and a SavitzkyGolay prefilter always raises ValueError on a two-column spectrum.
* Theorems (): `C139_values`, `C139_error`, `C139_first_spectrum`, `C139_history_free_partial`, `C139_memoryless`, `C139_memoryless_log`, `C139_order_violation`, `C139_reset_violation`, `C139_no_samples_violation`, `C139_center_nan_violation`, `C139_savitzky_golay_violation`
* Axioms: Classical.choice, Quot.sound, propext

### C140 Transformations and filters leave the caller's matrices alone: partial

* Model: Simulation between heap programs and value functions with a frame condition, as for C113; MultiFilter by induction over the list of filters.
* Result: Programs on the heap of matrix objects (Transf/TransfHeap, Alg/FilterHeap, Alg/IcaHeap) refine the functions on values. C140_pass_through_violation: PassThrough and an empty MultiFilter return their argument. C140_getter_limits: get_means shares the mean matrix. PCA.transform keeps the returned scores and loadings as attributes. C140_fast_ica_sources_limits: the matrix FastICA.transform returns is its attribute sources.
* Theorems (): `C140_center`, `C140_standardize`, `C140_row_norm`, `C140_savitzky_golay`, `C140_scatter_correction`, `C140_scatter_correction_plain`, `C140_filters`, `C140_pass_through_weak`, `C140_multi_filter_weak`, `C140_multi_filter`, `C140_pass_through_violation`, `C140_pass_through_not_safe_violation`, `C140_getter_limits`, `C140_glsw`, `C140_ygradient_glsw`, `C140_cca`, `C140_pca_configure`, `C140_pca_transform`, `C140_fast_ica_transform`, `C140_fast_ica_reconstruct`, `C140_fast_ica_sources_limits`
* Axioms: Classical.choice, Quot.sound, propext

### C141 Means, standard deviations and the median: proved

* Model: Counting: the median is characterised by the numbers of cells below and above, from which uniqueness, rearrangement and change of units follow (Props/StatsProps).
* Result: Core/Stats.lean; C141_single_limits: the deviation of a single sample is NaN (0/0). medianX_isMedian shows that the median assumed by the PRM theorems is this one. Exact arithmetic.
* Theorems (): `C141_index`, `C141_mean_stdev`, `C141_rows`, `C141_median`, `C141_median_laws`, `C141_median_nan`, `C141_single_limits`
* Axioms: Classical.choice, Quot.sound, propext

### C142 helper.euclidean_distance gives the distances between rows: partial

* Model: The first statement raises.
* Result: C142_euclidean_violation. Likewise make_qr_decomposition, qr_Q, qr_R, reduce_rows_L1/L2, reduce_columns_L1/L2 and __hash__ of Matrix only raise NotImplementedError (_Matrix.py 123-125, 441-463, 516-518); they are not modelled.
* Theorems (): `C142_euclidean_violation`
* Axioms: none

### C143 Training does not depend on the order of the predictors: partial

* Model: Two runs are related step by step: rows of weight and loading matrices are reordered, columns of predictor matrices are reordered, everything without a predictor index is equal; sums over predictors are reindexed by the permutation.
* Result: C143_single and C143_multi carry the property through the preprocessing of the base classes. C143_nipals_partial needs that no predictor is constant; C143_constant_violation shows why: Standardize turns a constant column into NaN unless it is the first one. C143_sparse covers SparsePLS over the reals (one response, at least two samples, no constant predictor; median and maximum of a column independent of its order; the inner NIPALS by nipFeat_nipals). PRM with more predictors than samples fails it, see C81_order_violation. VCPLS and CCARegression assume that the eigenvalue routine or pseudo-inverse follows a reordering.
* Theorems (): `C143_single`, `C143_multi`, `C143_pls`, `C143_pls1`, `C143_vcpls`, `C143_simpls`, `C143_nipals_partial`, `C143_opls`, `C143_opls_transform`, `C143_prm`, `C143_dipls`, `C143_kernelPls`, `C143_kernels`, `C143_constant_violation`, `C143_sparse`, `C143_sparse_nipals`
* Axioms: Classical.choice, Quot.sound, propext

### C144 The integer partition step splits its range around the middle element: proved

* Model: Loop invariant of the two scans (a sentinel exists on both sides after every swap) and of the outer loop, by induction on the remaining distance.
* Result: Integers are compared exactly; the code converts the pivot with real(...), which is exact up to 2^53.
* Theorems (): `C144_partition_int`
* Axioms: Classical.choice, Quot.sound, propext

### C145 A trained linear model is one table of coefficients and one offset, which can be read off from its predictions: proved

* Model: A relation 'affine in the data' closed under composition, sums, products with stored matrices and the row loops; the row recursion of PLS1 is shown to be a fixed linear map by induction on the components.
* Result: Exact arithmetic in a field. C145_rbf_limits shows that the RBF kernel is outside the claim, with a concrete model.
* Theorems (): `C145_mixture`, `C145_read_off`, `C145_pls1_transform`, `C145_pls1_predict`, `C145_single_predict`, `C145_multi_predict`, `C145_simpls`, `C145_prm`, `C145_glsw`, `C145_opls`, `C145_center`, `C145_standardize`, `C145_nipals`, `C145_sparse`, `C145_dipls`, `C145_cca`, `C145_kernel`, `C145_linear_kernel`, `C145_pca`, `C145_rbf_limits`
* Axioms: Classical.choice, Quot.sound, propext

### C146 PLS1 never turns bad data or an impossible number of components into a plausible number: proved

* Model: The programs are restated for scalars without laws and reduced to a recursion; one NaN weight makes the score, the coefficient and every prediction NaN; an exhausted component has zero covariance, hence weight 0/0.
* Result: Scalars are X R: reals, infinities and NaN with the IEEE rules, no rounding. The matrix inverse of the regression vector is a parameter; predictions do not use its result. Part (4) is proved without preprocessing. The model used is the generic-scalar copy of PLS1, which equals the field model by unfolding (pls1TrainG_field, pls1PredictG_field, singleTrainG_field, singlePredictG_field).
* Theorems (): `C146_bad_training`, `C146_exhausted`, `C146_more_than_predictors`, `C146_regular`, `C146_bad_sample`, `C146_training_ends`, `C146_prep_bad_training`, `C146_prep_exhausted`, `C146_prep_few_samples`, `C146_constant_response`, `C146_constant_predictor`, `C146_prep_training_ends`
* Axioms: Classical.choice, Quot.sound, propext

### C147 Data that do not fit the model are refused, not silently used: partial

* Model: Shape lemmas for every matrix operation are pushed through the training programs; the first product with mismatched inner dimensions fails.
* Result: FastICA is not covered. The shapes of eigenvector matrices (GLSW), of SVD factors and of the inner model (PRM, proved for SIMPLS in simplsBase_shape) are hypotheses. C147_nipals_violation, C147_dipls_violation and C147_pca_violation are the three gaps; C147_nipals_rows_partial covers NIPALS when the standardised responses are not numerically zero, C147_dipls_rows_partial the total numbers of rows, C147_pca_columns_partial a missing kept column.
* Theorems (): `C147_pls1_columns`, `C147_pls1_rows`, `C147_simpls_columns`, `C147_simpls_rows`, `C147_opls_columns`, `C147_opls_rows`, `C147_nipals_columns`, `C147_nipals_rows_partial`, `C147_sparse_columns`, `C147_sparse_rows`, `C147_kernel_columns`, `C147_kernel_rows`, `C147_cca_columns`, `C147_cca_rows`, `C147_dipls_columns`, `C147_dipls_rows_partial`, `C147_scaling`, `C147_glsw_columns`, `C147_glsw_rows`, `C147_ygradient_columns`, `C147_pca_columns_partial`, `C147_pca_violation`, `C147_dipls_violation`, `C147_nipals_violation`, `C147_prm_rows`, `C147_prm_columns`
* Axioms: Classical.choice, Quot.sound, propext

### C148 Rounding: results in floating-point arithmetic are those of exact arithmetic up to an error that vanishes with the unit roundoff: partial

* Model: limits of vanishing rounding errors through the law-free programs; induction over summation trees; explicit machine as counterexample
* Result: Programs run on the scalars Fl A of a machine A (Core/Rounded.lean); the limit is taken through every operation of training and prediction, then turned into an epsilon-delta statement by choosing sequences. Assumed: no overflow, NaN is covered by C146 instead. In the model sums run in one fixed order; C148_sum covers every order. Violated for constant columns by Standardize (C148_constant_violation).
* Theorems (): `C148_pls1`, `C148_sum`, `C148_product`, `C148_center_round_trip`, `C148_standardize_round_trip`, `C148_preprocessing`, `C148_pls1_trains`, `C148_constant_violation`
* Axioms: Classical.choice, Quot.sound, propext

### C149 Constant predictors have no influence: partial

* Model: Insertion of columns as an injective map of indices; sums over the columns drop the constant ones after centring, so the inner products agree and C136 applies; kernels by congruence; the violation from C146 on extended scalars.
* Result: False for STANDARDIZE (C149_standardize_violation): Standardize replaces a zero deviation by one in column 0 only, so a constant column behind it becomes NaN and PLS1 predicts NaN for every sample, while the same data without that column give numbers. C149_pls1_standardize_partial is the part that holds (constant first column).
* Theorems (): `C149_pls1_none`, `C149_pls1_center`, `C149_simpls_none`, `C149_simpls_center`, `C149_pls1_standardize_partial`, `C149_kernel_linear`, `C149_kernel_rbf`, `C149_rbf_default_limits`, `C149_standardize_violation`
* Axioms: Classical.choice, Quot.sound, propext

### C150 Center, Standardize and Log work on every column on its own: partial

* Model: Values of both directions for any scalars, then congruence; the violation on extended reals.
* Result: False for Standardize (C150_standardize_violation): the guard against zero deviations looks at column 0 only. C150_standardize_partial gives the exact condition under which it holds.
* Theorems (): `C150_center`, `C150_center_local`, `C150_standardize_partial`, `C150_standardize_local`, `C150_log`, `C150_log_refuses`, `C150_standardize_violation`
* Axioms: Classical.choice, Quot.sound, propext

### C151 A predictor given several times counts like one in a smaller unit: proved

* Model: Inner products of samples with repeated predictors are weighted inner products (sum over fibres); then C136, and C99 for equal repetition.
* Result: PLS1 and SIMPLS, over the reals, under the regularity that makes their components exist; repeated samples are C128_repeat.
* Theorems (): `C151_pls1`, `C151_simpls`, `C151_pls1_center`, `C151_evenly`
* Axioms: Classical.choice, Quot.sound, propext

### C152 The order of the responses does not matter: partial

* Model: Relational induction (same exception or reordered values) through both loops of KernelPLS; closed form of the trained model for the mixing; C52_center_value for CENTER.
* Result: Proved for KernelPLS itself and with the option NONE. With CENTER it is false, whatever the algorithm: the mean of the response that comes first is added to all columns (C52), so reordering shifts every prediction by the difference of two means; iff statement in C152_center_partial, KernelPLS witness in C152_center_violation. NIPALS and SparsePLS raise for several responses in any order (C53).
* Theorems (): `C152_kernelPls`, `C152_kernelPls_scores`, `C152_none`, `C152_center_partial`, `C152_kernelPls_mixing`, `C152_center_violation`
* Axioms: Classical.choice, Quot.sound, propext

### C153 Savitzky-Golay has no preferred direction, and smoothing never adds noise: proved

* Model: Uniqueness of coefficients that reproduce polynomials and are themselves values of one; reflection x -> -x of polynomials; Lagrange interpolation.
* Result: The mirrored coefficients include the parameters that raise. One-point windows are excluded: there the coefficient is 1 for every derivative (C31_single_point_violation).
* Theorems (): `C153_coefficients`, `C153_mirror`, `C153_symmetric`, `C153_superfluous_order`, `C153_smoothing_noise`, `C153_smoothing_bounded`, `C153_interpolation`
* Axioms: Classical.choice, Quot.sound, propext

### C154 Chained linear preprocessing and a linear model act as one table of coefficients on the raw spectra: proved

* Model: affine maps closed under composition; the steps are matrices (AffineProps, Resampling, SavGolMirror)
* Result: C154_chain and C154_pipeline by induction over the steps. Affine means: for each number of columns, always refused, or multiplication by a fixed matrix plus a fixed row. MSC, RowNorm, Log and FFT are outside (RowNorm and Log by the _limits theorems).
* Theorems (): `C154_downsample`, `C154_chain`, `C154_pipeline`, `C154_mixture`, `C154_table`, `C154_equidistance`, `C154_savgol`, `C154_calibration`, `C154_calibration_pls1`, `C154_rowNorm_limits`, `C154_log_limits`
* Axioms: Classical.choice, Quot.sound, propext

### C155 PRM depends neither on the orientation of the predictor axes nor on the unit of the response: partial

* Model: relational induction over the SIMPLS components, the Weiszfeld iteration and the passes; concrete computation for the violation
* Result: Rotation proved for data with no more predictors than samples and no slimming (C155_rotation_partial). Unit of the response: every pass is equivariant, so with equal numbers of passes the predictions scale (C155_units_partial); but the loop compares gamma with an absolute tolerance, so the unit decides how many passes are made, and the predictions then differ (C155_units_violation: concrete data, default tolerance and tuning constant, max_iter 2). Not covered: more predictors than samples (there C81_order_violation), slimming.
* Theorems (): `C155_rotation_partial`, `C155_units_partial`, `C155_units_violation`
* Axioms: Classical.choice, Quot.sound, propext

### C156 The unit of the response does not matter in SIMPLS, OPLS and DIPLS, nor under CENTER and STANDARDIZE: proved

* Model: sim_rot with V = 1 gives W' = W D, Q' = c Q D with a diagonal D of signs; the slimming threshold is unique, so slimming commutes with D. OPLS weights change sign only, which cancels in every removed component. The DIPLS state with the scaled response and lambda c^2 is the old state with the response scaled, by induction over the components.
* Result: SIMPLS (any slimming), OPLS over any base that respects the unit and over PLS1, CENTER and STANDARDIZE around any single-response method, DIPLS unsupervised and supervised with lambda_ scaled by the squared factor; C156_dipls_limits shows that lambda_ must be scaled. Exact arithmetic. PLS1 is C99, NIPALS/CCARegression/SparsePLS C112, PRM C155.
* Theorems (): `C156_simpls`, `C156_center`, `C156_standardize`, `C156_opls`, `C156_opls_pls1`, `C156_dipls_unsupervised`, `C156_dipls_supervised`, `C156_dipls_limits`
* Axioms: Classical.choice, Quot.sound, propext

### C157 Tuning parameters act in the documented direction: partial

* Model: The direction of each parameter from the closed forms: lengths in the eigenbasis (GLSW, EPO), the Fair function, least stopping index (PCA), the least-noise characterisation of the Savitzky-Golay coefficients with zero padding, soft thresholding (SparsePLS).
* Result: True of all parameters but SparsePLS's lambda_. There the claim fails: the direction vector is divided by its squared norm and features are then selected with the fixed threshold 1e-6, so that features with correlations 1 : 1 : 2000 are never all selected whatever lambda_ is (against the class documentation, _SparsePLS.py 42-44), and of two million equally correlated features none is selected for lambda_ = 0 but all are for 3/4. What remains is that the non-zero entries of the direction vector shrink with lambda_. The PRM statement concerns the first weights, later ones depend on the regression in between.
* Theorems (): `C157_glsw_alpha`, `C157_epo_N`, `C157_prm_C`, `C157_pca`, `C157_sparse_partial`, `C157_sparse_small_violation`, `C157_sparse_order_violation`, `C157_rbf_gamma`, `C157_simpls_count`, `C157_downsample`, `C157_sg_order`, `C157_sg_window`
* Axioms: Classical.choice, Quot.sound, propext

### C158 DIPLS is trained through its three methods only: partial

* Model: the training is taken apart with bind_ok_iff; centring an already centred object again gives the same result (optCentre_again), hence the second run repeats the first
* Result: C158_new_partial: refusal while ns or nt is zero. C158_again_violation, C158_unsupervised_violation: after any successful training, plain initialize with the stacked data of that training trains the same model instead of being refused. Finding: ns and nt are cleared neither by reset nor by initialize, so the check of _DIPLS.py 112-117 works once per object.
* Theorems (): `C158_new_partial`, `C158_again_violation`, `C158_unsupervised_violation`
* Axioms: Classical.choice, Quot.sound, propext

### C159 What the scores of PCA do not depend on: proved

* Model: the covariance matrices are similar by an orthogonal matrix, so have the same sorted eigenvalues; one-dimensional eigenspaces force unit eigenvectors to agree up to sign (eigen_unique)
* Result: C159_routines, C159_order, C159_units (standardised), C159_units_centred, C159_rotation, all consequences of pca_agree: if the prepared data are related by a scaled orthogonal matrix, so are the leading eigenvectors up to sign. Repeated eigenvalues are excluded: then any basis of the eigenspace is a legitimate answer.
* Theorems (): `C159_routines`, `C159_order`, `C159_units`, `C159_units_centred`, `C159_rotation`
* Axioms: Classical.choice, Quot.sound, propext

### C160 Units and zero points in KernelPLS: proved

* Model: closed form of the loops; nrm is blind to positive factors, so t and u are the same in every pass, including the stopping test
* Result: C160_responses covers responses mixed by a matrix orthogonal up to a factor and moved; C160_unit is the factor. C160_kernel compares two objects with kernels that differ by a positive factor and a constant; C160_linear, C160_poly, C160_rbf and C160_degree_one are instances. The default gamma of the RBF kernel is one over the number of columns, so with it the unit does matter.
* Theorems (): `C160_responses`, `C160_unit`, `C160_kernel`, `C160_linear`, `C160_poly`, `C160_degree_one`, `C160_rbf`
* Axioms: Classical.choice, Quot.sound, propext

### C161 The clutter filters depend on the clutter, not on the eigensolver, the unit or the coordinates: partial

* Model: A matrix with the eigenvectors of C and weights that are a function of the eigenvalue does not depend on the eigenbasis; rotating and scaling carries an eigenbasis to an eigenbasis. Sorted eigenvalues are unique through the characteristic polynomial.
* Result: GLSW pairs eigenvectors in solver order with singular values in descending order, so the same eigenvectors listed in another order give another filter (C161_solver_order_violation). With alpha unchanged every change of unit changes the GLSW filter if there is any clutter (C161_alpha_limits).
* Theorems (): `C161_glsw_partial`, `C161_solver_order_violation`, `C161_alpha_limits`, `C161_epo`, `C161_ygrad`, `C161_ygrad_fit`
* Axioms: Classical.choice, Quot.sound, propext

### C162 Entering every sample the same number of times: partial

* Model: Sums over the repeated samples are m times the original sums; standard deviations change by sqrt(m(n-1)/(mn-1)). PLS and SIMPLS follow from dependence on second moments only (C128), the filters from the unit change by sqrt(m) (C161). For PCA the covariance matrix changes by a positive factor only (pca_agree_rows). In OPLS and DIPLS all weights and loadings are quotients of such sums and the states of the recursions are the repeated states (oX_repeat, dSt_repeat).
* Result: Violated by PLS1 with STANDARDIZE: predictors are not standardised at prediction (C51), so the factor does not cancel and repeating samples pulls every prediction towards the mean response (C162_standardize_violation); with the standardisation applied it would cancel (C162_right_prediction). PLS1 without preprocessing or with centering is C128_repeat. GLSW needs eigenvalues in descending order, see C161. NIPALS standardises new data too and is not affected (C162_nipals). DIPLS relates the two domains through a penalty whose weight has to follow the number of samples; with lambda_ unchanged its predictions change (C162_dipls_limits). For PRM the claim stops at the weights: its loop ends by the change of a coefficient vector whose scale follows the number of samples, so the number of passes may differ.
* Theorems (): `C162_transformations`, `C162_right_prediction`, `C162_standardize_violation`, `C162_simpls`, `C162_glsw_partial`, `C162_epo`, `C162_pca`, `C162_nipals`, `C162_linear_kernel`, `C162_opls`, `C162_opls_pls1`, `C162_dipls`, `C162_dipls_limits`, `C162_median`, `C162_geometric_median`, `C162_leverage_weights`, `C162_residual_weights`
* Axioms: Classical.choice, Quot.sound, propext

### C163 The order of the values survives the transformations: proved

* Model: From the closed forms of C27-C30: all maps are affine with a positive factor, or a logarithm or a power; Equidistance from its interpolation formula (C43).
* Result: Exact arithmetic: with rounding close values can become equal. Constant columns other than the first are divided by zero (C28).
* Theorems (): `C163_center`, `C163_standardize`, `C163_rowNorm`, `C163_log`, `C163_log_inverse`, `C163_equidistance`
* Axioms: Classical.choice, Quot.sound, propext
