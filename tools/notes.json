{
 "C01": {
  "note": "Holds for every shape and fill value except zeros(0,c), from_column of an empty list, range with no columns and diag() of an empty vector, where the 1-d wrapping of the constructor or numpy's reshape gets in the way; those are proved as violations."
 },
 "C02": {
  "note": "Proved for all matrices, integer indices and values, error branches included."
 },
 "C03": {
  "note": "Proved; entries past the shorter length keep their old value."
 },
 "C04": {
  "note": "Proved for lists and (start, stop) tuples; out-of-range claims are stated for two non-empty index lists."
 },
 "C05": {
  "note": "Proved."
 },
 "C06": {
  "note": "Proved."
 },
 "C07": {
  "note": "Proved; the algebraic laws over any ring, floating-point rounding is not modelled."
 },
 "C08": {
  "note": "scale_by_column_vector rejects its documented argument for one-row matrices with several columns (violation)."
 },
 "C09": {
  "note": "Proved over fields; the mean of an empty axis is covered in the extended reals."
 },
 "C10": {
  "note": "Proved, including NaN and infinities."
 },
 "C11": {
  "note": "contains_NaN is always False (violation); everything else proved."
 },
 "C12": {
  "note": "== is False for a matrix with an infinite entry compared to its copy, and helper.equal is True on NaN (violations)."
 },
 "C13": {
  "note": "Proved for all call histories without the leaking accessor and without the two in-place operations that forget the cache; the exclusions are proved necessary (violations). The SVD accessors are coherent for all histories."
 },
 "C14": {
  "note": "Proved for all call histories; get_eigenvalue_decomposition_V hands out its cached object (violation)."
 },
 "C15": {
  "note": "U*S*V = A holds (V is the transposed factor), U*S*V^T raises for wide matrices (violation)."
 },
 "C16": {
  "note": "Proved for every solver meeting the stated contract."
 },
 "C22": {
  "note": "Proved for every list of np.float64 (NaN, infinities, ties). For plain Python numbers any successful run is a permutation, but the call can raise IndexError (violation). Python's recursion limit is not modelled."
 },
 "C23": {
  "note": "Proved for every NaN-free list of np.float64. With NaN, or with plain ints/floats, the result can be unsorted (violations)."
 },
 "C24": {
  "note": "Over exact reals; a constant predictor gives (nan, nan). Rounding is not modelled."
 },
 "C25": {
  "note": "False: max_index returns 1 for every non-empty list (proved for all lists); partial theorem says when this happens to be right."
 },
 "C17": {
  "note": "Reader specification (little-endian, two's complement, UTF-8) is independent of the encoder; range, type and surrogate errors covered. A bool is encoded as the int it is. The string size condition is stated as 4*length < 2^31."
 },
 "C18": {
  "note": "Float64 matrices with dimensions below 2^31 (beyond: OverflowError, proved)."
 },
 "C19": {
  "note": "False: the stream is read at its end, so the result is b'' for every object that serialises without error (proved for all). Partial: correct only for an empty state."
 },
 "C20": {
  "note": "False for every integer with a full top byte (e.g. 128..255): OverflowError. Proved for all other integers with fewer than 8*(2^31-1) bits."
 },
 "C21": {
  "note": "False for every filename without a slash (FileNotFoundError). Proved for all filenames with a directory part; file system model without permissions, links, '.' and '..'."
 },
 "C68": {
  "note": "Reproducibility and shape proved; randn ignores mean and std (violation) and stays in [0,1)."
 },
 "C69": {
  "note": "False: the target is truncated before serialising (violation); other files are kept."
 },
 "C70": {
  "note": "False for int parameters (4 bytes instead of 8); proved for float parameters."
 },
 "C71": {
  "note": "Proved for float64 matrices with dimensions below 2^31."
 },
 "C26": {
  "note": "Simulation of every call history (transform, inverse, configure, reset, assignments) against a two-component specification for Center, Standardize, Log, PassThrough. Standardize needs explicit configure data to have columns (violation shown); RowNorm does not follow the life cycle (violation)."
 },
 "C27": {
  "note": "Over the reals."
 },
 "C28": {
  "note": "Over the reals with at least two rows; the zero-deviation guard only covers column 0, so other constant columns give NaN (violation over extended reals), as does a single row."
 },
 "C29": {
  "note": "Histories without inverse_transform proved. inverse_transform never restores the data, and leaves stale statistics behind (violations)."
 },
 "C30": {
  "note": "Over the reals."
 },
 "C31": {
  "note": "Exact real arithmetic. Coefficients yield f^(d)(0)/d!, so derivative orders >= 2 lack the factor d! (violation); single-point window returns [1] for any order (violation)."
 },
 "C32": {
  "note": "Over the reals; all sizes."
 },
 "C33": {
  "note": "All histories, SavitzkyGolay and SavitzkyGolay2; assignments to num_points_left/right of SavitzkyGolay2 are accepted but ignored (violation)."
 },
 "C34": {
  "note": "Proved: columns outside the ranges are untouched for any prefilter and reference; corrected rows equal (x-a)/b for the least-squares fit to the reference; the reference is the column mean or the configured average. Violations proved: overlapping ranges correct the shared columns twice, and a constant reference gives non-numbers. The corrected-value theorem is partial because it needs disjoint ranges and a non-constant reference."
 },
 "C35": {
  "note": "Formula, linearity, constants to zero proved; the documented gradient sign is refuted (a ramp of slope s gives -s)."
 },
 "C36": {
  "note": "Round trip for invertible modes, failure for the others; over exact complex arithmetic."
 },
 "C37": {
  "note": "Holds for one row (partial); refuted for every matrix with two or more rows because fftshift also shifts rows."
 },
 "C38": {
  "note": "Refuted: parameters assigned outside the validated set leave the fitted transformer stale, and a failed configure leaves it unfitted but configured. Partial: the wrappers equal a fresh fit when parameters are only changed before configuring. scikit-learn itself is an opaque parameter."
 },
 "C72": {
  "note": "All modes and lengths, exact complex arithmetic."
 },
 "C39": {
  "note": "Generic loops for any kernel function; one-argument form equals the two-argument form exactly when the kernel is symmetric; linear, polynomial and RBF kernels instantiated."
 },
 "C40": {
  "note": "Self value, symmetry, range and monotonicity proved; the documented squared distance is refuted (the norm is not squared): equality holds only for gamma 0 or distance 0 or 1."
 },
 "C41": {
  "note": "Refuted: gamma, once filled in, keeps the value of the first data set. Partial: right in every history whose data have the same width, or once gamma is set explicitly."
 },
 "C42": {
  "note": "All starts and steps, including negative ones."
 },
 "C43": {
  "note": "Exact real arithmetic; matrices with at least one row."
 },
 "C44": {
  "note": "Any filters, any list."
 },
 "C49": {
  "note": "Proved for any weight rule (PLS1, and VCPLS which only overrides it) and any number of components; exact reals; hypothesis Regular = no score has zero length (no division by zero)."
 },
 "C50": {
  "note": "Linear predictions by r_hat, least-squares fit on the scores, residual monotone in the number of components, wrong width rejected. Exact reals, Regular data."
 },
 "C51": {
  "note": "Violated: do_predict never applies trans_predictors. Exact characterisation of when predictions are right for CENTER and STANDARDIZE (iff theorems, _partial), concrete PLS1 witness (_violation); NONE is right."
 },
 "C52": {
  "note": "Violated: class_mean/class_std_dev always use response column 0. Predictions are right iff all response means agree (CENTER); the violation theorem gives the exact shift for any data with differing means."
 },
 "C45": {
  "note": "For all 17 classes and all histories: an accepted assignment stores the value, resets the object and changes nothing else; a rejected one raises ValueError (TypeError if the comparison is impossible) and changes nothing; parameters are legal at all times. Parameters without a validate_ method (norm_Y_weights, deflation_mode, ns, nt, ...) do not reset: C45_unvalidated_violation."
 },
 "C46": {
  "note": "Flag characterised by the observable history (C46_status); untrained use raises RuntimeError. get_matrix: names match, unknown gives None, None after a parameter change except PRM (AttributeError for W) and SIMPLS (stale Q), both proved as violations."
 },
 "C47": {
  "note": "Holds when both arguments are given. With one argument missing: AttributeError and the old model stays usable (PLS, GLSW classes), or silent reset to the defaults reported as success (CCAFilter)."
 },
 "C48": {
  "note": "Bisimulation: for every class except CCAFilter, DIPLS, FastICA a retrained object answers every later history like a new object with the same parameters; PCA likewise; PLS1 instantiated in full. CCAFilter, DIPLS and FastICA keep state across training (violations in their own files). KernelPLS keeps its kernel object, and PolyKernel fills in its default gamma on first use: retraining on data of another width predicts differently from a new object (C48_kernel_violation); with the same width, or with gamma set, it does not (C48_kernel_partial)."
 },
 "C55": {
  "note": "Orthonormal scores, B, predictions, transformation and state proved without slimming, for every data set whose PLS1 scores do not vanish; with slimming (num_coefficients > 0) the claim is false (C55_slim_violation)."
 },
 "C56": {
  "note": "C56_slim characterises the result for every matrix and count. One more entry than requested is kept (C56_count_violation); C56_kept_partial states what holds instead."
 },
 "C73": {
  "note": "Induction over components: the rotated PLS1 weights are multiples of the SIMPLS weights."
 },
 "C53": {
  "note": "Violated: training with two or more responses never succeeds, over any scalars and in both modes (C53_never_violation); in PLS mode over the reals it raises ValueError because the row of standard deviations is passed to scale_by_row_vector, which demands a column vector. Proved: one response always works."
 },
 "C54": {
  "note": "Violated: the Y score is never updated inside the loop, so the result depends only on the first response column and not on tol or max_iter; concrete data on which the loop reports convergence far from any fixed point. Proved: for one response the result is a fixed point; the loop always terminates."
 },
 "C74": {
  "note": "Hypothesis NipRegular: along the textbook recursion none of the code's thresholds (1e-10 on the response, 1e-16 on the weights, 1e-10 on the score) is met. pinv enters only by pinv A = A^-1 for regular A."
 },
 "C57": {
  "note": "Orthogonality of the removed scores, X_osc and the data given to the base model proved for all data with orthogonal variation left. Violated: for two or more components transform(training data) differs from X_osc; messages of the base model are dropped (exceptions are not)."
 },
 "C58": {
  "note": "Proved for every kernel, start vectors, tolerance and iteration limit; orthonormality assumes that no score vanishes (0/0 otherwise)."
 },
 "C75": {
  "note": "Violated for a polynomial kernel (offset of the predictions); proved for the linear kernel. C75_transform gives the exact value for any kernel."
 },
 "C76": {
  "note": "Violated for all data: P is zero."
 },
 "C77": {
  "note": "Violated: tol=0 and max_iter=0 pass validation but training raises for all data."
 },
 "C59": {
  "note": "Messages, rows and success proved for unsupervised and supervised; semi-supervised mode raises for all data whenever ns != nt (violation), and is proved for ns = nt only."
 },
 "C78": {
  "note": "Over the reals, for the recursion the code is proved to run (C59 theorems), under the guards DReg (no division by zero, no singular inverse)."
 },
 "C79": {
  "note": "Violated: transform returns X W, not X W (P^T W)^-1; the first column agrees and T can be recovered."
 },
 "C60": {
  "note": "Violated: line 237 continues while the change is BELOW tol, so training normally stops after one pass (and at a fixed point runs to max_iter); with a zero MAD (majority response value) all first weights are NaN or 0; later residuals mix re-weighted response and un-weighted scores. Proved: pass bound, weights in (0,1] for non-zero scales, predictions."
 },
 "C80": {
  "note": "Proved for the iteration as coded, away from the eps-neighbourhood of the points; C80_violation shows that at a data point the constant weight 10 moves the iterate away from the true median."
 },
 "C81": {
  "note": "Violated: svd_V holds Vh (not V), so the replaced matrix is X·U only when Vh·S = Vh^T·S; concrete 2x3 counterexample, and an exact characterisation as partial. C81_mixed_partial: for every wide X and every valid SVD the whole training equals training without the replacement (prmDirect) on Vh·Vh·X, same passes, weights and coefficients; C81_symmetric_partial: right when Vh·Vh = 1; C81_low: nothing is replaced otherwise. C81_order_violation: with valid decompositions, exchanging two columns in training and new data turns the predictions round."
 },
 "C61": {
  "note": "The direction is a positive multiple of the soft-thresholded z for lambda<1 and a positive median (C61_direction_partial); it is not of unit norm, because the code divides by the squared norm (C61_norm_violation). lambda>=1 or a zero median gives NaN (C61_lambda_violation, C61_median_violation). Selection and dependence hold for every successful training run with at least one component."
 },
 "C82": {
  "note": "Holds when all variables are selected in the last pass; regularity (NipRegular) keeps NIPALS away from its numeric thresholds."
 },
 "C83": {
  "note": "Holds for one component. With two or more it is violated: the loadings are recomputed from the batch being transformed, and the raw, un-standardised data is used."
 },
 "C62": {
  "note": "Component choice, order, number and scores hold for all data with a non-constant column and any eig/argsort meeting their contracts; eigenvalues taken as real. Loadings: one correct row per attribute when no column is constant; if a constant column precedes a non-constant one, an attribute loses its row (C62_loadings_violation). All-constant data with standardisation raises IndexError (C62_constant_violation)."
 },
 "C84": {
  "note": "Violated by transform, which resets and refits on every call (C84_refit_violation, C84_same_row_violation); holds for do_transform after a fit."
 },
 "C64": {
  "note": "Symmetric for every solver output. The weights are taken from the sorted singular values and the directions from the unsorted eig output: each direction gets its own weight exactly when eig lists the eigenvalues in decreasing order (C64_downweights_partial); otherwise some direction gets the weight of another (C64_pairing_violation). For repeated eigenvalues a non-orthogonal basis, which the eig contract allows, makes G differ from the identity without clutter (C64_nonorthogonal_violation). The limit is quantified by an explicit bound."
 },
 "C65": {
  "note": "I - G is the stated projection for N up to the number of columns, but the filter multiplies by G itself, which keeps the clutter and removes the rest (C65_keeps_clutter_violation); N larger than the number of columns raises ValueError (C65_N_violation). Orthonormal eigenvectors are assumed of the eigensolver (automatic up to sign for distinct eigenvalues, EigPair.orthoEig)."
 },
 "C85": {
  "note": "Violated in sign: the coefficients are applied in mirrored order, so the filter returns minus the first derivative (C85_sign_violation). Everything else holds for the negated filter."
 },
 "C86": {
  "note": "Because the smoothed response is the negated derivative the exponent has the wrong sign: weights are at least one and grow with the slope (C86_weights_violation). A constant response gives an all-NaN covariance (C86_constant_violation). Order independence is proved for pairwise different response values; the filter statement inherits the C64 condition on the order of the eigenvalues."
 },
 "C63": {
  "note": "C^(-1/2) proved for every positive lambda under the eigensolver contract; transform proved for every successful training. Violated part: validate_lambda_X/Y accept every value, and for a negative lambda on constant data no real C^(-1/2) exists (C63_lambda_violation)."
 },
 "C87": {
  "note": "Orthonormality proved for at least as many features as targets. Violations: the code takes columns of Vh instead of rows, so the cross-covariance is S*Vh*Vh (concrete case C87_cross_violation), and with fewer features than targets training raises ValueError (C87_wide_violation)."
 },
 "C66": {
  "note": "sources * mixing^T equals the centred data whenever all components are kept. Violated part: reconstruct() then always raises ValueError (C66_reconstruct_violation); without whitening it adds the mean of each sample (C66_plain_partial). Fewer components than features: C125."
 },
 "C88": {
  "note": "Update formula and orthonormality proved for deflation (regular runs, at least one iteration) and orthonormality for parallel. Violations: max_iter=0 is accepted and returns normalised random rows (C88_maxIter_violation); parallel applies the non-linearity to the projections on the columns of W instead of its rows (C88_parallel_violation)."
 },
 "C89": {
  "note": "All three functions, exact real arithmetic."
 },
 "C67": {
  "note": "Proved for non-empty separators without line breaks whose first character does not occur in a cell; the number codec is a parameter, instantiated with exact decimals (C67_fixed_decimals). Violations: a separator that occurs in numbers is accepted and changes the shape; a matrix without columns comes back with one column."
 },
 "C90": {
  "note": "All norm laws and Cauchy-Schwarz proved. norm2 is not submultiplicative on matrices that are not vectors (2 by 2 matrix of ones), proved as a violation."
 },
 "C91": {
  "note": "Proved for all shapes, error branches included."
 },
 "C92": {
  "note": "Proved for every eigensolver returning a real eigenbasis whenever there is one (that there is one is proved); training claims for lambda > 0. validate_lambda_ accepts negative values, for which the score can be zero although a component exists (violation)."
 },
 "C93": {
  "note": "Proved over the reals for every column (row) that is not zero. A zero column becomes NaN (violation, proved for all matrices over the extended reals)."
 },
 "C94": {
  "note": "Proved for all shapes, scalars and positions; vector_to_diagonal for non-empty vectors."
 },
 "C95": {
  "note": "Proved; exact real arithmetic, powers with natural exponents."
 },
 "C96": {
  "note": "Proved in exact arithmetic. For non-square matrices lstsq is a parameter that must return least-squares solutions of smallest length, as NumPy documents."
 },
 "C97": {
  "note": "Proved in exact arithmetic; the closed form holds for every rule for the weights that never meets a zero score, the general statement for the weights of PLS1."
 },
 "C98": {
  "note": "Proved in exact arithmetic; SIMPLS without slimming, through C73."
 },
 "C99": {
  "note": "Proved in exact arithmetic; C99_column_units_differ shows the limit."
 },
 "C100": {
  "note": "Proved in exact arithmetic. lambda_ = 0 itself is refused by the setter (absolute value at least 1e-8), so equal covariances are the case that can occur; they are preserved by every deflation."
 },
 "C101": {
  "note": "Proved in exact arithmetic. The condition on the start vectors holds for almost all random vectors; it is stated in terms of PLS1 only."
 },
 "C102": {
  "note": "Proved for one orthogonal component and any number of predictive components. Violated for two: do_transform subtracts X W P^T although W belongs to the deflated predictors; on a 3x3 example where PLS1 with three components reproduces the response exactly OPLS with 2+1 components does not."
 },
 "C103": {
  "note": "Proved for Center, Standardize, RowNorm, LogTransform, PassThrough, SavitzkyGolay(2), Downsample, EquiDistance, MultiFilter, the three kernels, PLS1, VCPLS, SIMPLS, PRM, NIPALS, SparsePLS.predict, OPLS, KernelPLS, DIPLS, GLSW, EPO, CCAFilter, both prediction wrappers, and do_transform of PCA. Refuted for FFT (rows permuted), SparsePLS.transform (deflates with the new data), PCA.transform and FastICA.transform (both train on the data they are given; C103_fast_ica_violation: without whitening and with deflation every single sample is refused). The three wrappers of external scalers are not covered; MultiplicativeScatterCorrection works on columns by design."
 },
 "C104": {
  "note": "Refuted for n < p (`C104_violation`): do_transform multiplies the original variables by weights of the reduced problem, so transform raises. The positive half (p ≤ n) is proved for all inputs."
 },
 "C105": {
  "note": "Stated over numbers extended by NaN and infinities. Refuted when the median absolute residual is zero (`C105_violation`); proved otherwise."
 },
 "C106": {
  "note": "`C106_limits` shows that the sign conditions are needed."
 },
 "C107": {
  "note": "Over the reals. Standardize needs columns that are not constant, the scatter correction a non-constant reference and a non-zero slope in every range that contains a wavelength of the sample."
 },
 "C108": {
  "note": "Exact arithmetic. Proved as a relation between two runs: every intermediate matrix is either equal or has its rows reordered, and both runs raise the same exception. C108_kernel covers KernelPLS with one response; with several responses its random start vector, which is indexed by samples, enters the result. FastICA and PRM with more predictors than samples (it takes an SVD of the transposed data) are not covered: there too the order enters an external routine. Semi-supervised DIPLS is covered for as many labelled target samples as source samples, which the code assumes."
 },
 "C109": {
  "note": "The inner NIPALS model must be regular for the selected columns (same condition as in C82: no pass meets a zero weight or score). NIPALS is taken with the default deflation mode and without the CCA norm, the way SparsePLS configures it."
 },
 "C110": {
  "note": "NaN violates the claim: the branch compares with == and is never taken, so NaN is written as nan. The round trip still restores it."
 },
 "C111": {
  "note": "Limits (C111_limits): initialize() does not touch ns and nt of DIPLS. CCARegression ignores every assignment to deflation_mode (C45)."
 },
 "C112": {
  "note": "Exact arithmetic; one response column (the code accepts no other, C82). Constant columns are excluded: Standardize then divides by one only in column 0."
 },
 "C113": {
  "note": "Programs on a heap of matrix objects (Alg/Pls1Heap, PlsHeap, WrapHeap, NipalsHeap, SparseHeap, KernelHeap, PrmHeap, DiplsHeap) are shown to refine the functions on values; C113_get_matrix_limits proves that get_matrix shares the model's matrix. DIPLS is covered for new objects without preprocessing; its statements within one component are in the order of the function model. FastICA is in C140."
 },
 "C114": {
  "note": "Over the reals, for data on which every score used is nonzero (otherwise the code divides by zero, C97). C114_simpls, C114_nipals, C114_kernel follow from C73, C74, C101 and inherit their hypotheses."
 },
 "C115": {
  "note": "Over the reals, for data on which the scores used are nonzero."
 },
 "C116": {
  "note": "Stated for the uncentred X handed to PLS1; with centred X the eigenbasis is that of the covariance matrix."
 },
 "C117": {
  "note": "Over the reals, for data on which the scores used are nonzero."
 },
 "C118": {
  "note": "Over the reals. The factor d! is the one the code leaves out, see C31."
 },
 "C119": {
  "note": "Over the reals. The hypothesis on the eigenvectors is needed because the general (not symmetric) eigenvalue routine is called, which promises only unit eigenvectors."
 },
 "C120": {
  "note": "Lifecycle part proved for all PLS classes. The loadings are right for PLS1/VCPLS (C120_pls1_partial), OPLS and NIPALS. Violated: SIMPLS returns its weights W, KernelPLS and DIPLS return the scores T (one row per sample). SparsePLS also returns W, which for one component are loadings of its scores only if they have length one (C120_sparse_violation; C120_sparse_example has length two)."
 },
 "C121": {
  "note": "NIPALS is shown for any arithmetic including rounding; the other classes for exact real arithmetic (PLS1 and DIPLS on runs where no score vanishes). KernelPLS draws a new random start per component; the nested run is given the same draws."
 },
 "C122": {
  "note": "PLS1, VCPLS and SIMPLS are stated for centred data without preprocessing, because predict does not preprocess the predictors (C51)."
 },
 "C123": {
  "note": "Exact real arithmetic. The hypothesis that no second pass is zero is explicit; with a zero K u the code divides by zero (C50)."
 },
 "C124": {
  "note": "C124_violation: with X = [[-1,-1],[0,0],[1,1]], y = [-1,0,1] the predictions are about 2*y although y is a combination of the predictors. C124_square_violation: with n = p training raises LinAlgError in exact arithmetic (with floats the determinant may be a rounding error instead of 0 and the weights are then meaningless). Positive part: C124_predictions, C124_correlation, C124_uncorrelated. np.linalg.lstsq and np.linalg.pinv are assumed to return Moore-Penrose inverses (PinvRoutine; existence and uniqueness are proved)."
 },
 "C125": {
  "note": "For a new object. svd is an oracle required to return a thin singular value decomposition, lstsq one required to return the Moore-Penrose inverse."
 },
 "C126": {
  "note": "Exact real arithmetic. The distance condition is an explicit hypothesis on the iterates; what goes wrong without it is C80_violation. The default max_iter of 500 is below the bound for small tolerances, so for it the theorem gives no guarantee."
 },
 "C127": {
  "note": "Exact real arithmetic. The contraction part assumes orthonormal eigenvectors from np.linalg.eig (what happens otherwise: C64_nonorthogonal_violation)."
 },
 "C128": {
  "note": "Standardizing is left out on purpose: the divisor n-1 makes the stored deviation of the response depend on how often samples are entered, and predictions take unstandardized data (C51)."
 },
 "C129": {
  "note": "Violated for matrices without rows or columns: printing them raises an IndexError (C129_empty_violation)."
 },
 "C130": {
  "note": "Rows are matched up to a permutation because np.fft.fftshift also shifts rows (C37)."
 },
 "C131": {
  "note": "PLS1 predictions of new samples are not centred by the code (C51), so the centred version shifts training samples only. Standardizing is left out: it depends on the coordinates. For square Q the PLS1 and SIMPLS parts are C98; new are rectangular Q, the shift under centring, and KernelPLS."
 },
 "C132": {
  "note": "False as stated: the penalty uses the signed difference of the covariances, not its absolute value as in the published method. C132_violation gives samples for which every increase of lambda_ below 4 makes the variances less alike. What holds for all data while the penalised criterion is bounded below: the signed difference (source minus target) never grows with lambda_ (C132_unsupervised_partial, C132_supervised_partial); so the claim holds when the source varies at least as much as the target in every direction (C132_alike_partial)."
 },
 "C133": {
  "note": "About the first pass and models that stop after it. Later passes compute their residuals from the already weighted responses (C60). C133_half_limits shows that a majority is needed."
 },
 "C134": {
  "note": "Proved for twelve classes over any field of scalars with a square root (PLS1 is C48_pls1_object). The attributes the object holds after training are those the training code assigns, and the answers are computed from the attributes only. For KernelPLS the state of the kernel object is a parameter (training may fill in its gamma: C48_kernel_violation); for OPLS the base algorithm is an object that is initialised anew, and C134_opls_pls1 puts a whole PLS1 object there."
 },
 "C135": {
  "note": "Over the reals. Proved for the three documented preprocessing types; C135_limits shows that the hypothesis cannot be dropped (predictions of two arbitrarily close training sets differ by any amount)."
 },
 "C136": {
  "note": "Scores and predictions for PLS1, predictions for SIMPLS with one response and no slimming, without preprocessing (centred data are the case of centred rows); exact arithmetic. Generalises C131 (rotations)."
 },
 "C137": {
  "note": "C101 is the case of the linear kernel, where the constant is zero; C75_violation is a case where it is two. One response; exact arithmetic; the matrix inverse is NumPy's for non-singular input."
 },
 "C138": {
  "note": "Exact arithmetic; SavitzkyGolay through its coefficient application (sgApply)."
 },
 "C139": {
  "note": "Holds for prefilters without memory (PassThrough, Log, RowNorm, Y-gradient). A prefilter that learns (Center, Standardize) is configured by the first spectrum it sees and keeps that for all later spectra, also after reset of the corrector. The prefilter is also applied to the wave number column, so a range can lose all its samples (NaN results), and a SavitzkyGolay prefilter always raises ValueError on a two-column spectrum."
 },
 "C140": {
  "note": "Programs on the heap of matrix objects (Transf/TransfHeap, Alg/FilterHeap, Alg/IcaHeap) refine the functions on values. C140_pass_through_violation: PassThrough and an empty MultiFilter return their argument. C140_getter_limits: get_means shares the mean matrix. PCA.transform keeps the returned scores and loadings as attributes. C140_fast_ica_sources_limits: the matrix FastICA.transform returns is its attribute sources."
 },
 "C141": {
  "note": "Core/Stats.lean; C141_single_limits: the deviation of a single sample is NaN (0/0). medianX_isMedian shows that the median assumed by the PRM theorems is this one. Exact arithmetic."
 },
 "C142": {
  "note": "C142_euclidean_violation. Likewise make_qr_decomposition, qr_Q, qr_R, reduce_rows_L1/L2, reduce_columns_L1/L2 and __hash__ of Matrix only raise NotImplementedError (_Matrix.py 123-125, 441-463, 516-518); they are not modelled."
 },
 "C143": {
  "note": "C143_single and C143_multi carry the property through the preprocessing of the base classes. C143_nipals_partial needs that no predictor is constant; C143_constant_violation shows why: Standardize turns a constant column into NaN unless it is the first one. C143_sparse covers SparsePLS over the reals (one response, at least two samples, no constant predictor; median and maximum of a column independent of its order; the inner NIPALS by nipFeat_nipals). PRM with more predictors than samples fails it, see C81_order_violation. VCPLS and CCARegression assume that the eigenvalue routine or pseudo-inverse follows a reordering."
 },
 "C144": {
  "note": "Integers are compared exactly; the code converts the pivot with real(...), which is exact up to 2^53."
 },
 "C145": {
  "note": "Exact arithmetic in a field. C145_rbf_limits shows that the RBF kernel is outside the claim, with a concrete model."
 },
 "C146": {
  "note": "Scalars are X R: reals, infinities and NaN with the IEEE rules, no rounding. The matrix inverse of the regression vector is a parameter; predictions do not use its result. Part (4) is proved without preprocessing. The model used is the generic-scalar copy of PLS1, which equals the field model by unfolding (pls1TrainG_field, pls1PredictG_field, singleTrainG_field, singlePredictG_field)."
 },
 "C147": {
  "note": "FastICA is not covered. The shapes of eigenvector matrices (GLSW), of SVD factors and of the inner model (PRM, proved for SIMPLS in simplsBase_shape) are hypotheses. C147_nipals_violation, C147_dipls_violation and C147_pca_violation are the three gaps; C147_nipals_rows_partial covers NIPALS when the standardised responses are not numerically zero, C147_dipls_rows_partial the total numbers of rows, C147_pca_columns_partial a missing kept column."
 },
 "C148": {
  "note": "Programs run on the scalars Fl A of a machine A (Core/Rounded.lean); the limit is taken through every operation of training and prediction, then turned into an epsilon-delta statement by choosing sequences. Assumed: no overflow, NaN is covered by C146 instead. In the model sums run in one fixed order; C148_sum covers every order. Violated for constant columns by Standardize (C148_constant_violation)."
 },
 "C149": {
  "note": "False for STANDARDIZE (C149_standardize_violation): Standardize replaces a zero deviation by one in column 0 only, so a constant column behind it becomes NaN and PLS1 predicts NaN for every sample, while the same data without that column give numbers. C149_pls1_standardize_partial is the part that holds (constant first column)."
 },
 "C150": {
  "note": "False for Standardize (C150_standardize_violation): the guard against zero deviations looks at column 0 only. C150_standardize_partial gives the exact condition under which it holds."
 },
 "C151": {
  "note": "PLS1 and SIMPLS, over the reals, under the regularity that makes their components exist; repeated samples are C128_repeat."
 },
 "C152": {
  "note": "Proved for KernelPLS itself and with the option NONE. With CENTER it is false, whatever the algorithm: the mean of the response that comes first is added to all columns (C52), so reordering shifts every prediction by the difference of two means; iff statement in C152_center_partial, KernelPLS witness in C152_center_violation. NIPALS and SparsePLS raise for several responses in any order (C53)."
 },
 "C153": {
  "note": "The mirrored coefficients include the parameters that raise. One-point windows are excluded: there the coefficient is 1 for every derivative (C31_single_point_violation)."
 },
 "C154": {
  "note": "C154_chain and C154_pipeline by induction over the steps. Affine means: for each number of columns, always refused, or multiplication by a fixed matrix plus a fixed row. MSC, RowNorm, Log and FFT are outside (RowNorm and Log by the _limits theorems)."
 },
 "C155": {
  "note": "Rotation proved for data with no more predictors than samples and no slimming (C155_rotation_partial). Unit of the response: every pass is equivariant, so with equal numbers of passes the predictions scale (C155_units_partial); but the loop compares gamma with an absolute tolerance, so the unit decides how many passes are made, and the predictions then differ (C155_units_violation: concrete data, default tolerance and tuning constant, max_iter 2). Not covered: more predictors than samples (there C81_order_violation), slimming."
 },
 "C156": {
  "note": "SIMPLS (any slimming), OPLS over any base that respects the unit and over PLS1, CENTER and STANDARDIZE around any single-response method, DIPLS unsupervised and supervised with lambda_ scaled by the squared factor; C156_dipls_limits shows that lambda_ must be scaled. Exact arithmetic. PLS1 is C99, NIPALS/CCARegression/SparsePLS C112, PRM C155."
 },
 "C157": {
  "note": "True of all parameters but SparsePLS's lambda_. There the claim fails: the direction vector is divided by its squared norm and features are then selected with the fixed threshold 1e-6, so that features with correlations 1 : 1 : 2000 are never all selected whatever lambda_ is (against the class documentation, _SparsePLS.py 42-44), and of two million equally correlated features none is selected for lambda_ = 0 but all are for 3/4. What remains is that the non-zero entries of the direction vector shrink with lambda_. The PRM statement concerns the first weights, later ones depend on the regression in between."
 },
 "C158": {
  "note": "C158_new_partial: refusal while ns or nt is zero. C158_again_violation, C158_unsupervised_violation: after any successful training, plain initialize with the stacked data of that training trains the same model instead of being refused. Finding: ns and nt are cleared neither by reset nor by initialize, so the check of _DIPLS.py 112-117 works once per object."
 },
 "C159": {
  "note": "C159_routines, C159_order, C159_units (standardised), C159_units_centred, C159_rotation, all consequences of pca_agree: if the prepared data are related by a scaled orthogonal matrix, so are the leading eigenvectors up to sign. Repeated eigenvalues are excluded: then any basis of the eigenspace is a legitimate answer."
 },
 "C160": {
  "note": "C160_responses covers responses mixed by a matrix orthogonal up to a factor and moved; C160_unit is the factor. C160_kernel compares two objects with kernels that differ by a positive factor and a constant; C160_linear, C160_poly, C160_rbf and C160_degree_one are instances. The default gamma of the RBF kernel is one over the number of columns, so with it the unit does matter."
 },
 "C161": {
  "note": "GLSW pairs eigenvectors in solver order with singular values in descending order, so the same eigenvectors listed in another order give another filter (C161_solver_order_violation). With alpha unchanged every change of unit changes the GLSW filter if there is any clutter (C161_alpha_limits)."
 },
 "C162": {
  "note": "Violated by PLS1 with STANDARDIZE: predictors are not standardised at prediction (C51), so the factor does not cancel and repeating samples pulls every prediction towards the mean response (C162_standardize_violation); with the standardisation applied it would cancel (C162_right_prediction). PLS1 without preprocessing or with centering is C128_repeat. GLSW needs eigenvalues in descending order, see C161. NIPALS standardises new data too and is not affected (C162_nipals). DIPLS relates the two domains through a penalty whose weight has to follow the number of samples; with lambda_ unchanged its predictions change (C162_dipls_limits). For PRM the claim stops at the weights: its loop ends by the change of a coefficient vector whose scale follows the number of samples, so the number of passes may differ."
 },
 "C163": {
  "note": "Exact arithmetic: with rounding close values can become equal. Constant columns other than the first are divided by zero (C28)."
 }
}