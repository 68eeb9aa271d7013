{
 "C01": "`Factory` model over `Mat`; entries and shapes stated with Mathlib matrices. `zeros(0,c)` really gives 1x0, so that case is a negation.",
 "C02": "`Mat.get/set` with Python index normalisation; read-over-write and frame theorems for every integer index.",
 "C03": "`setRow/setColumn`, entrywise characterisation.",
 "C04": "`getSubMatrix` over lists of integer positions; entrywise characterisation, IndexError iff.",
 "C05": "algebraic laws on `Mat`.",
 "C06": "block placement, associativity, projection back.",
 "C07": "`add/sub/mul` equal Mathlib's `+,-,*`; shape errors iff.",
 "C08": "`vectorOp`; entrywise characterisation and rejection iff.",
 "C09": "sum/mean vs `Finset.sum`.",
 "C10": "entrywise, over a linear order.",
 "C11": "list-of-positions characterisation; NaN part is false of the code: negation over the extended scalar type.",
 "C12": "`==` and helper.equal; NaN part false of the code.",
 "C13": "object model with cache slot and a history of operations; false (in-place vector ops), partial for the remaining operations.",
 "C14": "heap of arrays with explicit allocation; non-interference over histories.",
 "C15": "SVD as a parameter with a spec; product law really satisfied is U*S*V, the documented V^T form is refuted.",
 "C16": "stable sort of eigenpairs for any solver output.",
 "C17": "byte lists; decoder in the specification; round trip.",
 "C18": "same, matrices.",
 "C19": "stream with position; always returns empty: negation.",
 "C20": "two's complement bytes; exact set of accepted integers, negation for 128.",
 "C21": "path/dirname model with an abstract filesystem; negation for bare names.",
 "C22": "quicksort on index list, permutation invariant, any comparison.",
 "C23": "sortedness for linear orders on the float path; the integer path is refuted by a witness.",
 "C24": "over fields; optimality over the reals.",
 "C25": "negation plus exact value.",
 "C26": "state machine; induction over histories.",
 "C27": "reals.",
 "C28": "reals with extended scalar for x/0; guard only covers column 0: negation and partial.",
 "C29": "reals; inverse refuted.",
 "C30": "reals.",
 "C31": "normal equations solved exactly.",
 "C32": "structural.",
 "C33": "state machine invariant.",
 "C34": "reals.",
 "C35": "structural + reals.",
 "C36": "complex numbers, DFT from Mathlib ZMod or finite sums.",
 "C37": "negation with witness, and exact statement of the row shift.",
 "C38": "state machine; negation and partial.",
 "C39": "structural.",
 "C40": "reals; documented square refuted.",
 "C41": "state machine.",
 "C42": "structural.",
 "C43": "over fields.",
 "C44": "fold laws.",
 "C45": "state machine, induction over histories.",
 "C46": "state machine.",
 "C47": "state machine.",
 "C48": "state machine with carried fields, per algorithm; refuted for three.",
 "C49": "reals; any weight rule; induction over components.",
 "C50": "reals.",
 "C51": "refuted with witness; partial for NONE.",
 "C52": "refuted; partial for one response.",
 "C53": "refuted for every q>=2.",
 "C54": "loop never updates: refuted; partial.",
 "C55": "reals, induction over components.",
 "C56": "exact count k+1; refuted.",
 "C57": "reals.",
 "C58": "reals.",
 "C59": "decision logic.",
 "C60": "loop condition inverted; refuted; weights in range.",
 "C61": "reals.",
 "C62": "decision logic.",
 "C63": "reals with solver specs.",
 "C64": "reals with solver specs; pairing refuted.",
 "C65": "reals with solver specs.",
 "C66": "reals; lstsq as a parameter; shapes of mixing matrix and means.",
 "C67": "strings as character lists; Python's split, universal newlines and line iteration; number formatting as a parameter.",
 "C68": "generator as an abstract state machine (seed, draw).",
 "C69": "abstract file system; truncation happens before serialising.",
 "C70": "byte lists with an independent decoder.",
 "C71": "state of a trained model as a list of tagged values.",
 "C72": "complex numbers; output modes as functions of the DFT.",
 "C73": "reals; both loops run side by side, induction over components.",
 "C74": "reals; NIPALS loop unfolded for one response and compared with PLS1.",
 "C75": "reals; any kernel matrix.",
 "C76": "reals.",
 "C77": "error branches of the inner loop.",
 "C78": "reals; normal equations of the DIPLS recursion.",
 "C79": "reals.",
 "C80": "reals; one step of the Weiszfeld iteration as coded.",
 "C81": "reals; SVD as a parameter with its contract.",
 "C82": "reals; both loops run side by side.",
 "C83": "reals.",
 "C84": "reals; PCA object with refit.",
 "C85": "reals; the five coefficients applied as coded.",
 "C86": "reals and extended reals; sorting by response.",
 "C87": "reals; eig and SVD as parameters.",
 "C88": "reals; induction over iterations and components.",
 "C89": "reals; derivatives with Mathlib's HasDerivAt.",
 "C90": "reals; norm and product laws against finite sums.",
 "C91": "any scalars or a linear order.",
 "C92": "reals; simultaneous diagonalisation of two quadratic forms; rank argument for the training loop.",
 "C93": "reals; X for the zero column.",
 "C94": "any scalars; the fill loop by induction.",
 "C95": "reals.",
 "C96": "reals; lstsq by its variational contract, Penrose conditions derived.",
 "C97": "reals; rank argument on the scores T = X R.",
 "C98": "reals; induction over the components relates the two runs.",
 "C99": "reals; the same induction as C98 with scale factors.",
 "C100": "reals; induction over the components relates the two runs; equality of the covariances is an invariant of the deflation.",
 "C101": "reals; the inner loop reaches the response up to sign after one pass; induction over the components relates kernel and response to the deflated data of PLS1.",
 "C102": "The second weights of PLS1 are the orthogonal weights with opposite sign; an identity between the first two deflations, then both recursions coincide.",
 "C103": "A predicate RowWise closed under composition and entrywise combination; a loop lemma for row-by-row loops that may fail; each class reduced to its stored matrices.",
 "C104": "Loop invariant over the reweighting loop: every accepted pass leaves the inner SIMPLS model trained on matrices of the working shape.",
 "C105": "IEEE-style arithmetic: x/(c·inf) = 0 for finite x, 1/(1+0)² = 1; the weighted matrices equal the original ones, the loop then stops or repeats the same model.",
 "C106": "Gram matrices, Schur products and power series for the polynomial and the Gaussian kernel; the distance is an integral of inverse quadratics, hence conditionally negative definite, hence exp(-gamma·distance) is positive semidefinite (Schoenberg).",
 "C107": "Affine equivariance of mean, standard deviation and least-squares line (`mu_affine`, `sd_affine`, `linearRegression_affine`); C31 for the polynomial exactness of the Savitzky-Golay coefficients.",
 "C108": "relational invariant by induction over the training loops (Core/Shuffle.lean)",
 "C109": "The last pass of the loop determines the coefficients (spTrain_last, spStep_out); the gathered columns are a column choice f; standardising commutes with choosing columns and is idempotent; scattering the coefficients and multiplying equals multiplying the chosen columns.",
 "C110": "Texts over exact rationals extended by infinities and NaN; Python's reading of the words inf, infinity and nan is modelled; the generic CSV round trip of C67 is instantiated.",
 "C111": "Invariant over assignments: a key once set keeps its value through later assignments and resets, because the reset tables agree with the default tables (checked for every class by evaluation of a Boolean function over the tables).",
 "C112": "Standardising in other units gives the same standardised data (mu_affine, sd_affine); training is a function of the standardised data up to the last scaling with the divisor of the response.",
 "C113": "Simulation between heap programs and value functions with a frame condition (Core/HeapSim): each rule says which objects may change; composed statement by statement along the code, loops by an invariant.",
 "C114": "Weights are orthonormal and loadings bidiagonal in them (Lanczos recurrence), hence the directions span the Krylov space by induction; least squares from the orthogonality of residual and scores.",
 "C115": "Increments of the regression vector have nonnegative inner products with each other (positive entries of the recurrence); at the last regular number of components the vector is the minimum-norm solution.",
 "C116": "A vector of the Krylov space that filters the eigen-directions with the polynomial 1 - prod(1 - x/lambda_j) reproduces the chosen components exactly and shrinks the others (De Jong's argument).",
 "C117": "Cauchy-Schwarz on the deflated cross product; score-response inner product equals the norm of the cross product.",
 "C118": "The coefficients are the values of a polynomial of degree at most p, so they lie in the space that the residual of the fit is orthogonal to; Pythagoras for both minimality claims; Taylor shift to the position of the window.",
 "C119": "Ky Fan: a matrix with orthonormal columns has row sums of squares at most one and total K, so the weighted sum of eigenvalues is at most the sum of the K largest; residual by Pythagoras.",
 "C120": "Tables of the attribute behind get_loadings on top of the lifecycle model; least-squares characterisation from orthogonality of scores and residual.",
 "C121": "Closed forms of the trained models whose columns do not mention the number of components; for NIPALS a simulation of the two training loops over Mat in any arithmetic; for PCA monotonicity of the stopping rule.",
 "C122": "Least-squares characterisation of PLS1 predictions (C50), transferred to the other classes through the equality of their predictions with those of PLS1 (C73, C74, C101).",
 "C123": "Spectral theorem for Y^T K Y, the power method in the eigenbasis, then stabilisation of the component loop by induction on the components.",
 "C124": "Symbolic execution of the first component and of the early stop at the second; Moore-Penrose inverse via the eigendecomposition; Cauchy-Schwarz",
 "C125": "The Moore-Penrose inverse of W diag(1/s) U_K' is exhibited, which makes mixing * components = U_K U_K'; optimality by the weighted-sum argument over the singular values with Bessel's inequality.",
 "C126": "Weiszfeld majorisation with the discarded square kept, harmonic-arithmetic mean, potential argument over the passes; subgradient inequality for the last step.",
 "C127": "The fit factors through the clutter covariance, which is shown invariant; lengths are computed in the eigenbasis.",
 "C128": "induction over components: deflation multiplies X on the right by a p×p matrix that depends only on the moments, so proportional moments stay proportional; weights are normalised so the factor cancels",
 "C129": "the two loops of __str__ are the joins of to_lines by induction; appending a line feed changes only the last piece of the last line, which the number parser ignores",
 "C130": "orthogonality of the roots of unity through the inversion formula, folding of the conjugate symmetric half, and a reindexing of the sum for shifts",
 "C131": "Induction over the components: weights and loadings of the rotated data are the rotated ones, scores agree; SIMPLS through C73. KernelPLS: centring removes the shift and the kernel matrices coincide.",
 "C132": "Spectral theorem for the difference of the covariances, then Chebyshev's sum inequality on the eigenbasis coefficients of the two weight vectors.",
 "C133": "sorting lemma for the median of a majority, then the fair weight in closed form",
 "C134": "A trained class is a Code: a fit from the attributes, the attributes it assigns, and an answer from the attributes, with the proof obligations that it reads and writes only what the class table declares. Code.history runs the life-cycle model on it: reset, assignments, initialised flag, then induction over the queries, each of which leaves the state as it was (the Standardize object is configured after training, so re-using it changes nothing).",
 "C135": "Continuity of every step of the recursion at data where the denominators are not zero (products, loadings, normalised weights, deflation), by induction over the components; the set of regular data is open; centering and scaling are continuous where the standard deviations are not zero; entrywise distances via the metric of finite products. SIMPLS through C73.",
 "C136": "Induction over the components: the products of deflated predictors with deflated predictors, and of deflated new samples with deflated predictors, are functions of the inner products and the response alone. SIMPLS through C73.",
 "C137": "C136 shows that the run of PLS1 depends on the Gram matrix only, so the lemmas behind C101 apply to any matrix with the centred kernel as Gram matrix. Features of training and new samples in a common space come from the square root of the joint kernel matrix. The constant is the prediction for the mean feature. With n - 1 components the scores and the constant vector are an orthogonal basis, so the residual vanishes.",
 "C138": "interpolation is affine on every cell of the finer grid; selection by entries; each filter as right multiplication by an explicit matrix, centring commutes with right multiplication",
 "C139": "The prefilter object's state is threaded through the corrector; run lemma by induction over the list of spectra for any transformation object; violations with Center and SavitzkyGolay.",
 "C140": "Simulation between heap programs and value functions with a frame condition, as for C113; MultiFilter by induction over the list of filters.",
 "C141": "Counting: the median is characterised by the numbers of cells below and above, from which uniqueness, rearrangement and change of units follow (Props/StatsProps).",
 "C142": "The first statement raises.",
 "C143": "Two runs are related step by step: rows of weight and loading matrices are reordered, columns of predictor matrices are reordered, everything without a predictor index is equal; sums over predictors are reindexed by the permutation.",
 "C144": "Loop invariant of the two scans (a sentinel exists on both sides after every swap) and of the outer loop, by induction on the remaining distance.",
 "C145": "A relation 'affine in the data' closed under composition, sums, products with stored matrices and the row loops; the row recursion of PLS1 is shown to be a fixed linear map by induction on the components.",
 "C146": "The programs are restated for scalars without laws and reduced to a recursion; one NaN weight makes the score, the coefficient and every prediction NaN; an exhausted component has zero covariance, hence weight 0/0.",
 "C147": "Shape lemmas for every matrix operation are pushed through the training programs; the first product with mismatched inner dimensions fails.",
 "C148": "limits of vanishing rounding errors through the law-free programs; induction over summation trees; explicit machine as counterexample",
 "C149": "Insertion of columns as an injective map of indices; sums over the columns drop the constant ones after centring, so the inner products agree and C136 applies; kernels by congruence; the violation from C146 on extended scalars.",
 "C150": "Values of both directions for any scalars, then congruence; the violation on extended reals.",
 "C151": "Inner products of samples with repeated predictors are weighted inner products (sum over fibres); then C136, and C99 for equal repetition.",
 "C152": "Relational induction (same exception or reordered values) through both loops of KernelPLS; closed form of the trained model for the mixing; C52_center_value for CENTER.",
 "C153": "Uniqueness of coefficients that reproduce polynomials and are themselves values of one; reflection x -> -x of polynomials; Lagrange interpolation.",
 "C154": "affine maps closed under composition; the steps are matrices (AffineProps, Resampling, SavGolMirror)",
 "C155": "relational induction over the SIMPLS components, the Weiszfeld iteration and the passes; concrete computation for the violation",
 "C156": "sim_rot with V = 1 gives W' = W D, Q' = c Q D with a diagonal D of signs; the slimming threshold is unique, so slimming commutes with D. OPLS weights change sign only, which cancels in every removed component. The DIPLS state with the scaled response and lambda c^2 is the old state with the response scaled, by induction over the components.",
 "C157": "The direction of each parameter from the closed forms: lengths in the eigenbasis (GLSW, EPO), the Fair function, least stopping index (PCA), the least-noise characterisation of the Savitzky-Golay coefficients with zero padding, soft thresholding (SparsePLS).",
 "C158": "the training is taken apart with bind_ok_iff; centring an already centred object again gives the same result (optCentre_again), hence the second run repeats the first",
 "C159": "the covariance matrices are similar by an orthogonal matrix, so have the same sorted eigenvalues; one-dimensional eigenspaces force unit eigenvectors to agree up to sign (eigen_unique)",
 "C160": "closed form of the loops; nrm is blind to positive factors, so t and u are the same in every pass, including the stopping test",
 "C161": "A matrix with the eigenvectors of C and weights that are a function of the eigenvalue does not depend on the eigenbasis; rotating and scaling carries an eigenbasis to an eigenbasis. Sorted eigenvalues are unique through the characteristic polynomial.",
 "C162": "Sums over the repeated samples are m times the original sums; standard deviations change by sqrt(m(n-1)/(mn-1)). PLS and SIMPLS follow from dependence on second moments only (C128), the filters from the unit change by sqrt(m) (C161). For PCA the covariance matrix changes by a positive factor only (pca_agree_rows). In OPLS and DIPLS all weights and loadings are quotients of such sums and the states of the recursions are the repeated states (oX_repeat, dSt_repeat).",
 "C163": "From the closed forms of C27-C30: all maps are affine with a positive factor, or a logarithm or a power; Equidistance from its interpolation formula (C43)."
}