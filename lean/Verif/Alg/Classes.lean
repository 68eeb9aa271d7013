import Verif.Alg.Lifecycle

/-!
# Attribute tables of the algorithm classes

One `Cls` per concrete class under `src/wai/ma/algorithm`.  Decimal constants such as `1e-6` are written as
exact fractions.
-/

namespace Verif.Life

variable {β : Type}

/-- A float constant. -/
def fl (q : ℚ) : PyVal β := .real (.fin q)

/-! ## Shared parts -/

/-- `LoggingObject.__init__` (`_LoggingObject.py` 24-27) and `AbstractAlgorithm.__init__` (25-27). -/
def algCtor : List (String × PyVal β) :=
  [("logger", .new "Logger"), ("debug", .bool false), ("initialised", .bool false)]

/-- `AbstractAlgorithm.reset`, `_AbstractAlgorithm.py` 37-42. -/
def algResets : List (String × PyVal β) := [("initialised", .bool false)]

/-- `AbstractPLS.__init__`, `_AbstractPLS.py` 26-29. -/
def plsCtor : List (String × PyVal β) :=
  algCtor ++ [("preprocessing_type", .enum "NONE"), ("num_components", .int 5)]

/-- `AbstractPLS.initialize()`, `_AbstractPLS.py` 36-38. -/
def plsDefaults : List (String × PyVal β) :=
  [("num_components", .int 5), ("preprocessing_type", .enum "NONE")]

/-- `_AbstractPLS.py` 61-67. -/
def plsValidators : List (String × Validator) :=
  [("preprocessing_type", .always), ("num_components", .always)]

/-- `AbstractSingleResponsePLS.__init__` and `reset`, `_AbstractSingleResponsePLS.py` 26-31, 33-42. -/
def singleVars : List (String × PyVal β) :=
  [("class_mean", .real .nan), ("class_std_dev", .real .nan), ("trans_predictors", .none),
   ("trans_response", .none)]

/-- `AbstractMultiResponsePLS.__init__` and `reset`, `_AbstractMultiResponsePLS.py` 29-34, 36-45. -/
def multiVars : List (String × PyVal β) :=
  [("class_mean", .none), ("class_std_dev", .none), ("trans_predictors", .none), ("trans_response", .none)]

/-- Attributes `do_initialize` writes (`_AbstractSingleResponsePLS.py` 60-88,
`_AbstractMultiResponsePLS.py` 97-125). -/
def prepKeys : List String := ["class_mean", "class_std_dev", "trans_predictors", "trans_response"]

/-- Several attributes set to `None`. -/
def nones (ks : List String) : List (String × PyVal β) := ks.map fun k => (k, .none)

/-- Parameters every PLS algorithm reads while training. -/
def plsReads : List String := ["num_components", "preprocessing_type"]

/-! ## PLS algorithms -/

/-- `_PLS1.py` 23-69. -/
def pls1 : Cls β where
  name := "PLS1"
  mode := .pair
  validators := plsValidators
  frozen := []
  ctor := plsCtor ++ singleVars ++ nones ["r_hat", "P", "W", "b_hat"]
  defaults := plsDefaults
  resets := algResets ++ singleVars ++ nones ["r_hat", "P", "W", "b_hat"]
  plain := []
  trainReads := plsReads
  trainWrites := prepKeys ++ ["r_hat", "P", "W", "b_hat"]
  useReads := plsReads ++ prepKeys ++ ["r_hat", "P", "W", "b_hat"]
  useWrites := []
  matrixNames := ["RegVector", "P", "W", "b_hat"]
  matrices := [("RegVector", .attr "r_hat"), ("P", .attr "P"), ("W", .attr "W"), ("b_hat", .attr "b_hat")]

/-- `_VCPLS.py` 23-62. -/
def vcpls : Cls β where
  name := "VCPLS"
  mode := .pair
  validators := plsValidators ++ [("lambda_", .always)]
  frozen := []
  ctor := plsCtor ++ singleVars ++ nones ["r_hat", "P", "W", "b_hat"] ++ [("lambda_", fl 1)]
  defaults := plsDefaults ++ [("lambda_", fl 1)]
  resets := algResets ++ singleVars ++ nones ["r_hat", "P", "W", "b_hat"]
  plain := []
  trainReads := plsReads ++ ["lambda_"]
  trainWrites := prepKeys ++ ["r_hat", "P", "W", "b_hat"]
  useReads := plsReads ++ prepKeys ++ ["r_hat", "P", "W", "b_hat"]
  useWrites := []
  matrixNames := ["RegVector", "P", "W", "b_hat"]
  matrices := [("RegVector", .attr "r_hat"), ("P", .attr "P"), ("W", .attr "W"), ("b_hat", .attr "b_hat")]

/-- `_SIMPLS.py` 24-92, 163-196; `reset` leaves `Q` alone. -/
def simpls : Cls β where
  name := "SIMPLS"
  mode := .pair
  validators := plsValidators ++ [("num_coefficients", .always)]
  frozen := []
  ctor := plsCtor ++ singleVars ++ [("num_coefficients", .int 0)] ++ nones ["W", "B", "Q"]
  defaults := plsDefaults ++ [("num_coefficients", .int 0)]
  resets := algResets ++ singleVars ++ nones ["B", "W"]
  plain := []
  trainReads := plsReads ++ ["num_coefficients"]
  trainWrites := prepKeys ++ ["W", "B", "Q"]
  useReads := prepKeys ++ ["W", "B"]
  useWrites := []
  matrixNames := ["W", "B", "Q"]
  matrices := [("W", .attr "W"), ("B", .attr "B"), ("Q", .attr "Q")]

/-- The trained attributes of NIPALS that `reset` sets to `None`, `_NIPALS.py` 270-279. -/
def nipalsNones : List String :=
  ["X_scores", "Y_scores", "X_loadings", "Y_loadings", "X_weights", "Y_weights", "coef", "X", "X_rotations",
   "Y_rotations"]

/-- `_NIPALS.py` 40-77, 85-158, 230-287. -/
def nipals : Cls β where
  name := "NIPALS"
  mode := .pair
  validators := plsValidators ++ [("max_iter", .ge 0), ("tol", .ge 0)]
  frozen := []
  ctor := plsCtor ++ multiVars ++
    nones ["X_scores", "Y_scores", "X_loadings", "Y_loadings", "X_weights", "Y_weights", "X_rotations",
      "Y_rotations", "X", "coef"] ++
    [("tol", fl (1 / 1000000)), ("max_iter", .int 500), ("norm_Y_weights", .bool false),
     ("standardize_X", .none), ("standardize_Y", .none), ("deflation_mode", .enum "REGRESSION")]
  defaults := plsDefaults ++ [("tol", fl (1 / 1000000)), ("max_iter", .int 500), ("norm_Y_weights", .bool false),
    ("standardize_X", .new "Standardize"), ("standardize_Y", .new "Standardize"),
    ("deflation_mode", .enum "REGRESSION")]
  resets := algResets ++ multiVars ++ nones nipalsNones ++
    [("standardize_X", .new "Standardize"), ("standardize_Y", .new "Standardize")]
  plain := ["norm_Y_weights", "deflation_mode"]
  trainReads := plsReads ++ ["standardize_X", "standardize_Y", "tol", "max_iter", "norm_Y_weights",
    "deflation_mode"]
  trainWrites := prepKeys ++ nipalsNones ++ ["standardize_X", "standardize_Y"]
  useReads := prepKeys ++ ["standardize_X", "standardize_Y", "coef", "X_rotations", "Y_rotations"]
  useWrites := ["standardize_X", "standardize_Y"]
  matrixNames := ["T", "U", "P", "Q"]
  matrices := [("T", .attr "X_scores"), ("U", .attr "Y_scores"), ("P", .attr "X_loadings"),
    ("Q", .attr "Y_loadings")]

/-- `_CCARegression.py` 19-34: NIPALS with a fixed `deflation_mode`, whose assignment is swallowed. -/
def ccaRegression : Cls β where
  name := "CCARegression"
  mode := .pair
  validators := plsValidators ++ [("max_iter", .ge 0), ("tol", .ge 0)]
  frozen := ["deflation_mode"]
  ctor := (nipals (β := β)).ctor
  defaults := (nipals (β := β)).defaults
  resets := (nipals (β := β)).resets
  plain := ["norm_Y_weights"]
  trainReads := plsReads ++ ["standardize_X", "standardize_Y", "tol", "max_iter", "norm_Y_weights"]
  trainWrites := prepKeys ++ nipalsNones ++ ["standardize_X", "standardize_Y"]
  useReads := prepKeys ++ ["standardize_X", "standardize_Y", "coef", "X_rotations", "Y_rotations"]
  useWrites := ["standardize_X", "standardize_Y"]
  matrixNames := ["T", "U", "P", "Q"]
  matrices := [("T", .attr "X_scores"), ("U", .attr "Y_scores"), ("P", .attr "X_loadings"),
    ("Q", .attr "Y_loadings")]

/-- `_KernelPLS.py` 36-148, 179-228.  Training can change the kernel object: it fills in an unset `gamma`
(`_PolyKernel.py` 43-44, `_RBFKernel.py` 36-37). -/
def kernelPls : Cls β where
  name := "KernelPLS"
  mode := .pair
  validators := plsValidators ++ [("kernel", .always), ("max_iter", .ge 0), ("tol", .ge 0)]
  frozen := []
  ctor := plsCtor ++ multiVars ++ nones ["K_orig", "K_deflated", "T", "U", "P", "Q", "B_RHS", "X", "kernel"] ++
    [("tol", fl (1 / 1000000)), ("max_iter", .int 500), ("center_X", .none), ("center_Y", .none)]
  defaults := plsDefaults ++ [("kernel", .new "RBFKernel"), ("tol", fl (1 / 1000000)), ("max_iter", .int 500),
    ("center_X", .new "Center"), ("center_Y", .new "Center")]
  resets := algResets ++ multiVars ++ nones ["K_orig", "K_deflated", "T", "U", "P", "Q", "B_RHS", "X"] ++
    [("center_X", .new "Center"), ("center_Y", .new "Center")]
  plain := []
  trainReads := plsReads ++ ["center_X", "center_Y", "kernel", "tol", "max_iter"]
  trainWrites := prepKeys ++ ["K_orig", "K_deflated", "T", "U", "P", "Q", "B_RHS", "X", "center_X", "center_Y",
    "kernel"]
  useReads := prepKeys ++ ["center_X", "center_Y", "kernel", "X", "K_orig", "U", "B_RHS"]
  useWrites := ["center_X"]
  matrixNames := ["K", "T", "U", "P", "Q"]
  matrices := [("K", .attr "K_deflated"), ("T", .attr "T"), ("U", .attr "U"), ("P", .attr "P"), ("Q", .attr "Q")]

/-- The trained attributes of DIPLS, `_DIPLS.py` 60-67. -/
def diplsNones : List String := ["T", "T_s", "T_t", "P", "P_s", "P_t", "W_di", "b_di"]

/-- `_DIPLS.py` 28-105, 107-235; `reset` leaves the three `Center` objects alone.  `initialize` is the method
of lines 47-56; the three `initialize_…` methods (237-303) assign `ns`, `nt` and the strategy first. -/
def dipls : Cls β where
  name := "DIPLS"
  mode := .pair
  validators := plsValidators ++ [("lambda_", .absGe (1 / 100000000))]
  frozen := []
  ctor := plsCtor ++ singleVars ++ [("model_adaption_strategy", .none), ("ns", .int 0), ("nt", .int 0),
    ("lambda_", fl 1), ("b_0", fl 0)] ++ nones diplsNones ++ nones ["X_center", "X_s_center", "X_t_center"]
  defaults := plsDefaults ++ [("model_adaption_strategy", .enum "UNSUPERVISED"), ("lambda_", fl 1),
    ("X_center", .new "Center"), ("X_t_center", .new "Center"), ("X_s_center", .new "Center")]
  resets := algResets ++ singleVars ++ nones diplsNones ++ [("b_0", .real .nan)]
  plain := ["model_adaption_strategy", "ns", "nt"]
  trainReads := plsReads ++ ["model_adaption_strategy", "ns", "nt", "lambda_", "X_center", "X_s_center",
    "X_t_center"] ++ diplsNones
  trainWrites := prepKeys ++ diplsNones ++ ["b_0", "X_center", "X_s_center", "X_t_center"]
  useReads := prepKeys ++ ["model_adaption_strategy", "X_center", "X_t_center", "W_di", "b_di", "b_0"]
  useWrites := ["X_center", "X_t_center"]
  matrixNames := ["T", "Ts", "Tt", "Wdi", "P", "Ps", "Pt", "bdi"]
  matrices := [("T", .attr "T"), ("Ts", .attr "T_s"), ("Tt", .attr "T_t"), ("P", .attr "P"), ("Ps", .attr "P_s"),
    ("Pt", .attr "P_t"), ("Wdi", .attr "W_di"), ("bdi", .attr "b_di")]

/-- `_OPLS.py` 36-90, 108-152, 164-193; `reset` leaves `X_osc` and the base model alone. -/
def opls : Cls β where
  name := "OPLS"
  mode := .pair
  validators := plsValidators ++ [("base_PLS", .always)]
  frozen := []
  ctor := plsCtor ++ singleVars ++ nones ["P_orth", "T_orth", "W_orth", "X_osc", "base_PLS"]
  defaults := plsDefaults ++ [("base_PLS", .new "PLS1")]
  resets := algResets ++ singleVars ++ nones ["P_orth", "W_orth", "T_orth"]
  plain := []
  trainReads := plsReads ++ ["base_PLS"]
  trainWrites := prepKeys ++ ["W_orth", "P_orth", "T_orth", "X_osc", "base_PLS"]
  useReads := prepKeys ++ ["initialised", "W_orth", "P_orth", "base_PLS"]
  useWrites := []
  matrixNames := ["P_orth", "W_orth", "T_orth"]
  matrices := [("P_orth", .attr "P_orth"), ("W_orth", .attr "W_orth"), ("T_orth", .attr "T_orth")]

/-- `_PRM.py` 41-105, 204-280. -/
def prm : Cls β where
  name := "PRM"
  mode := .pair
  validators := plsValidators ++ [("num_SIMPLS_coefficients", .always), ("max_iter", .ge 0), ("tol", .ge 0),
    ("C", .absGe (1 / 10000000000))]
  frozen := []
  ctor := plsCtor ++ singleVars ++ [("tol", fl 0), ("max_iter", .int 0), ("C", fl 1)] ++
    nones ["W_r", "W_x", "T", "gamma"] ++ [("num_SIMPLS_coefficients", .int 0)] ++
    nones ["final_regression_coefficients", "simpls"]
  defaults := plsDefaults ++ [("C", fl 4), ("tol", fl (1 / 1000000)), ("max_iter", .int 500),
    ("num_SIMPLS_coefficients", .int (-1))]
  resets := algResets ++ singleVars ++
    nones ["W_r", "W_x", "final_regression_coefficients", "gamma", "T", "simpls"]
  plain := []
  trainReads := plsReads ++ ["T", "gamma", "max_iter", "tol", "C", "num_SIMPLS_coefficients"]
  trainWrites := prepKeys ++ ["W_r", "W_x", "T", "gamma", "simpls", "final_regression_coefficients"]
  useReads := prepKeys ++ ["simpls", "final_regression_coefficients"]
  useWrites := []
  matrixNames := ["B", "Wr", "Wx", "W"]
  matrices := [("B", .attr "final_regression_coefficients"), ("Wr", .attr "W_r"), ("Wx", .attr "W_x"),
    ("W", .product "W_r" "W_x")]

/-- `_SparsePLS.py` 46-113, 131-176, 270-314. -/
def sparsePls : Cls β where
  name := "SparsePLS"
  mode := .pair
  validators := plsValidators ++ [("max_iter", .ge 0), ("tol", .ge 0), ("lambda_", .ge 0)]
  frozen := []
  ctor := plsCtor ++ singleVars ++ nones ["B_pls"] ++ [("tol", fl 0), ("max_iter", .int 0), ("lambda_", fl 0)] ++
    nones ["A", "W", "standardize_X", "standardize_Y"]
  defaults := plsDefaults ++ [("lambda_", fl (1 / 2)), ("tol", fl (1 / 10000000)), ("max_iter", .int 500),
    ("standardize_X", .new "Standardize"), ("standardize_Y", .new "Standardize")]
  resets := algResets ++ singleVars ++ nones ["B_pls", "A", "W"] ++
    [("standardize_X", .new "Standardize"), ("standardize_Y", .new "Standardize")]
  plain := []
  trainReads := plsReads ++ ["standardize_X", "standardize_Y", "lambda_", "tol", "max_iter"]
  trainWrites := prepKeys ++ ["A", "B_pls", "W", "standardize_X", "standardize_Y"]
  useReads := plsReads ++ prepKeys ++ ["W", "A", "B_pls", "standardize_X", "standardize_Y"]
  useWrites := ["standardize_X", "standardize_Y"]
  matrixNames := ["W", "B"]
  matrices := [("W", .attr "W"), ("B", .attr "B_pls")]

/-! ## Filters -/

/-- `_CCAFilter.py` 26-76, 78-117, 148-178; `reset` leaves the two `Center` objects alone. -/
def ccaFilter : Cls β where
  name := "CCAFilter"
  mode := .lenient
  validators := [("kcca", .gt 0), ("lambda_X", .always), ("lambda_Y", .always)]
  frozen := []
  ctor := algCtor ++ [("lambda_X", fl (1 / 100)), ("lambda_Y", fl (1 / 100)), ("kcca", .int 1)] ++
    nones ["center_X", "center_Y", "proj_X", "proj_Y"]
  defaults := [("kcca", .int 1), ("lambda_X", fl (1 / 100)), ("lambda_Y", fl (1 / 100)),
    ("center_X", .new "Center"), ("center_Y", .new "Center")]
  resets := algResets ++ nones ["proj_X", "proj_Y"]
  plain := []
  trainReads := ["kcca", "lambda_X", "lambda_Y", "center_X", "center_Y"]
  trainWrites := ["proj_X", "proj_Y", "center_X", "center_Y"]
  useReads := ["center_X", "center_Y", "proj_X", "proj_Y"]
  useWrites := ["center_X", "center_Y"]
  matrixNames := []
  matrices := []

/-- `_GLSW.py` 25-110. -/
def glsw : Cls β where
  name := "GLSW"
  mode := .pair
  validators := [("alpha", .gt 0)]
  frozen := []
  ctor := algCtor ++ [("alpha", fl (1 / 1000)), ("G", .none)]
  defaults := [("alpha", fl (1 / 1000))]
  resets := algResets ++ nones ["G"]
  plain := []
  trainReads := ["alpha"]
  trainWrites := ["G"]
  useReads := ["G"]
  useWrites := []
  matrixNames := []
  matrices := []

/-- `_YGradientGLSW.py` 25-70 (same attributes as GLSW). -/
def yGradientGlsw : Cls β := { glsw with name := "YGradientGLSW" }

/-- `_EPO.py` 22-57. -/
def epo : Cls β where
  name := "EPO"
  mode := .pair
  validators := [("alpha", .gt 0), ("N", .gt 0)]
  frozen := []
  ctor := algCtor ++ [("alpha", fl (1 / 1000)), ("G", .none), ("N", .int 5)]
  defaults := [("alpha", fl (1 / 1000)), ("N", .int 5)]
  resets := algResets ++ nones ["G"]
  plain := []
  trainReads := ["N"]
  trainWrites := ["G"]
  useReads := ["G"]
  useWrites := []
  matrixNames := []
  matrices := []

/-- `_YGradientEPO.py` 22-69 (same attributes as EPO). -/
def yGradientEpo : Cls β := { epo with name := "YGradientEPO" }

/-- `_PCA.py` 27-72, 105-148, 257-270; `initialised` is never set to `True`. -/
def pca : Cls β where
  name := "PCA"
  mode := .refit false
  validators := [("variance", .between 0 1), ("max_columns", .eqOrGt (-1) 0), ("center", .always)]
  frozen := []
  ctor := algCtor ++ [("variance", fl (95 / 100)), ("max_columns", .int (-1)), ("center", .bool false)] ++
    nones ["loadings", "scores", "correlation", "eigenvectors", "eigenvalues"] ++
    [("sorted_eigens", .new "list"), ("sum_of_eigenvalues", fl 0), ("num_cols", .int 0), ("num_rows", .int 0),
     ("keep_cols", .new "list"), ("train", .none), ("transformation", .none)]
  defaults := [("variance", fl (95 / 100)), ("max_columns", .int (-1)), ("center", .bool false)]
  resets := algResets ++ nones ["loadings", "scores", "correlation", "eigenvectors", "eigenvalues"] ++
    [("sorted_eigens", .new "list"), ("sum_of_eigenvalues", fl 0), ("transformation", .none)]
  plain := []
  trainReads := []
  trainWrites := []
  useReads := ["variance", "max_columns", "center"]
  useWrites := ["train", "keep_cols", "transformation", "num_rows", "num_cols", "correlation", "eigenvectors",
    "eigenvalues", "sorted_eigens", "sum_of_eigenvalues", "scores", "loadings"]
  matrixNames := []
  matrices := []

/-- `_FastICA.py` 31-129, 246-251; `reset` leaves `sources` and the `Center` object alone. -/
def fastIca : Cls β where
  name := "FastICA"
  mode := .refit true
  validators := [("num_components", .ge 1), ("whiten", .always), ("max_iter", .ge 0), ("tol", .ge 0)]
  frozen := []
  ctor := algCtor ++ [("num_components", .int 5), ("whiten", .bool true), ("fun", .none), ("max_iter", .int 500),
    ("tol", fl (1 / 10000))] ++ nones ["components", "sources", "algorithm", "center", "whitening", "mixing"]
  defaults := [("num_components", .int 5), ("max_iter", .int 500), ("fun", .new "LogCosH"),
    ("tol", fl (1 / 10000)), ("whiten", .bool true), ("algorithm", .enum "DEFLATION"), ("center", .new "Center")]
  resets := algResets ++ nones ["components", "mixing", "whitening"]
  plain := ["fun", "algorithm"]
  trainReads := []
  trainWrites := []
  useReads := ["whiten", "num_components", "center", "max_iter", "tol", "fun", "algorithm"]
  useWrites := ["num_components", "whitening", "sources", "components", "mixing", "center"]
  matrixNames := []
  matrices := []

/-- The PLS classes (`algorithm/pls/__init__.py`). -/
def plsClasses : List (Cls β) :=
  [pls1, vcpls, simpls, nipals, ccaRegression, kernelPls, dipls, opls, prm, sparsePls]

/-- All algorithm classes. -/
def allClasses : List (Cls β) :=
  plsClasses ++ [ccaFilter, glsw, yGradientGlsw, epo, yGradientEpo, pca, fastIca]

end Verif.Life
