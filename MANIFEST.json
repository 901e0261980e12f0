{
 "claims": [
  {
   "property": "C01",
   "status": "proved",
   "theorems": [
    "Paragami.C01_numeric_free_value"
   ],
   "note": "All four bound configurations, every shape."
  },
  {
   "property": "C02",
   "status": "proved",
   "theorems": [
    "Paragami.C02_numeric_free_vector"
   ],
   "note": "All four bound configurations, every shape; result strictly inside the bounds."
  },
  {
   "property": "C03",
   "status": "partial",
   "theorems": [
    "Paragami.C03_inclusive_bounds_partial",
    "Paragami.C03_upper_bound_gives_nan",
    "Paragami.C03_claim_false"
   ],
   "note": "Partial: the property fails at the upper bound when both bounds are finite (C03_upper_bound_gives_nan, C03_claim_false refute the full statement); every other boundary case is proved."
  },
  {
   "property": "C04",
   "status": "proved",
   "theorems": [
    "Paragami.C04_nonfree_value"
   ],
   "note": "Every pattern buildable through the API, every value."
  },
  {
   "property": "C05",
   "status": "proved",
   "theorems": [
    "Paragami.C05_nonfree_vector"
   ],
   "note": "Every buildable pattern without an empty container."
  },
  {
   "property": "C06",
   "status": "proved",
   "theorems": [
    "Paragami.C06_flatten_length",
    "Paragami.C06_container_lengths"
   ],
   "note": "Every buildable pattern; container lengths stated as sum and product."
  },
  {
   "property": "C07",
   "status": "proved",
   "theorems": [
    "Paragami.C07_fold_rejects_wrong_size"
   ],
   "note": "Every buildable pattern, both values of free, every validate_value."
  },
  {
   "property": "C08",
   "status": "partial",
   "theorems": [
    "Paragami.C08_fold_rejects_nd_partial",
    "Paragami.C08_simplex_accepts_columns",
    "Paragami.C08_simplex_accepts_only_columns",
    "Paragami.C08_claim_false"
   ],
   "note": "Partial: fails for SimplexArrayPattern, which accepts exactly the (N,1,...,1) columns (C08_simplex_accepts_columns, C08_simplex_accepts_only_columns, C08_claim_false); proved for all others."
  },
  {
   "property": "C09",
   "status": "proved",
   "theorems": [
    "Paragami.C09_free_fold_valid",
    "Paragami.C09_random_valid"
   ],
   "note": "PSD patterns with a finite diagonal lower bound (an infinite one is accepted by the constructor but has no valid value)."
  },
  {
   "property": "C10",
   "status": "proved",
   "theorems": [
    "Paragami.C10_free_vector"
   ],
   "note": "Exact real arithmetic."
  },
  {
   "property": "C11",
   "status": "proved",
   "theorems": [
    "Paragami.C11_free_value"
   ],
   "note": "Exact real arithmetic; interior stated in Spec/Interior.lean."
  },
  {
   "property": "C12",
   "status": "proved",
   "theorems": [
    "Paragami.C12_validate_true_iff",
    "Paragami.C12_shape_only_iff",
    "Paragami.C12_default_validate"
   ],
   "note": "Iff, for values without NaN; documented constraint in Spec/Valid.lean."
  },
  {
   "property": "C13",
   "status": "partial",
   "theorems": [
    "Paragami.C13_psd_rejects_nan_partial",
    "Paragami.C13_numeric_accepts_nan",
    "Paragami.C13_simplex_accepts_nan",
    "Paragami.C13_claim_false"
   ],
   "note": "Partial: true for PSD matrices; refuted for numeric and simplex patterns (C13_claim_false)."
  },
  {
   "property": "C14",
   "status": "proved",
   "theorems": [
    "Paragami.C14_simplex_fold_softmax"
   ],
   "note": "Fold of a simplex pattern is the softmax with a zero first logit; exact real arithmetic."
  },
  {
   "property": "C15",
   "status": "proved",
   "theorems": [
    "Paragami.C15_simplex_normalizes",
    "Paragami.C15_simplex_moves_little"
   ],
   "note": "Exact real arithmetic."
  },
  {
   "property": "C16",
   "status": "partial",
   "theorems": [
    "Paragami.C16_zeros_survive_partial",
    "Paragami.C16_first_zero_gives_nan",
    "Paragami.C16_claim_false"
   ],
   "note": "Partial: true when the first entry is positive; when it is zero the result is NaN (C16_first_zero_gives_nan, C16_claim_false)."
  },
  {
   "property": "C17",
   "status": "proved",
   "theorems": [
    "Paragami.C17_logsumexp_safe",
    "Paragami.C17_logsumexp_exact"
   ],
   "note": "Exact real arithmetic."
  },
  {
   "property": "C18",
   "status": "proved",
   "theorems": [
    "Paragami.C18_psd_fold_admissible"
   ],
   "note": "Exact real arithmetic."
  },
  {
   "property": "C19",
   "status": "proved",
   "theorems": [
    "Paragami.C19_psd_flatten_iff",
    "Paragami.C19_psd_flatten_succeeds_iff",
    "Paragami.C19_valid_posdef_rejected"
   ],
   "note": "Includes a valid positive definite matrix that flatten rejects."
  },
  {
   "property": "C20",
   "status": "proved",
   "theorems": [
    "Paragami.C20_stack_positions",
    "Paragami.C20_rebuild",
    "Paragami.C20_rebuild_stack",
    "Paragami.C20_rejects_non_triangular",
    "Paragami.C20_symmetric_unpack"
   ],
   "note": "Every array pattern, every buildable base."
  },
  {
   "property": "C21",
   "status": "proved",
   "theorems": [
    "Paragami.C21_dict_fold_slices",
    "Paragami.C21_members_independent",
    "Paragami.C21_dict_flatten_concat"
   ],
   "note": "Every buildable dictionary."
  },
  {
   "property": "C22",
   "status": "proved",
   "theorems": [
    "Paragami.C22_array_fold_blocks",
    "Paragami.C22_array_flatten_blocks"
   ],
   "note": "Every buildable container."
  },
  {
   "property": "C23",
   "status": "proved",
   "theorems": [
    "Paragami.C23_flatten_depends_on_named_members"
   ],
   "note": "Every buildable container."
  },
  {
   "property": "C24",
   "status": "proved",
   "theorems": [
    "Paragami.DictHeap.C24_lengths",
    "Paragami.DictHeap.C24_good_programs",
    "Paragami.DictHeap.C24_self_insertion"
   ],
   "note": "Every program, including statements that raise; the self-insertion exception is proved too (C24_self_insertion). Heap model of shared dictionaries."
  },
  {
   "property": "C25",
   "status": "proved",
   "theorems": [
    "Paragami.DictHeap.C25_locked_frozen",
    "Paragami.DictHeap.C25_lock_locks",
    "Paragami.DictHeap.C25_insert_locks",
    "Paragami.DictHeap.C25_members_locked"
   ],
   "note": "Every history on the heap of shared dictionaries."
  },
  {
   "property": "C26",
   "status": "proved",
   "theorems": [
    "Paragami.DictHeap.C26_failed_set",
    "Paragami.DictHeap.C26_failed_del",
    "Paragami.DictHeap.C26_when_raises",
    "Paragami.DictHeap.C26_non_pattern_stays"
   ],
   "note": "Every program; the exception (storing a non-pattern) is proved too (C26_non_pattern_stays)."
  },
  {
   "property": "C27",
   "status": "proved",
   "theorems": [
    "Paragami.DictHeap.C27_key_order",
    "Paragami.DictHeap.C27_fold_order"
   ],
   "note": "Key order stated from the history of assignments and deletions alone (Spec/DictHeap.lean)."
  },
  {
   "property": "C28",
   "status": "proved",
   "theorems": [
    "Paragami.C28_free_none",
    "Paragami.C28_explicit_overrides",
    "Paragami.C28_member_defaults_ignored"
   ],
   "note": "Every pattern and every assignment of defaults."
  },
  {
   "property": "C29",
   "status": "proved",
   "theorems": [
    "Paragami.C29_round_trip",
    "Paragami.C29_equal"
   ],
   "note": "Every buildable pattern; JSON texts are represented by the value they encode (Model/Json.lean); == after the round trip compares different objects, so a NaN bound equals nothing."
  },
  {
   "property": "C30",
   "status": "proved",
   "theorems": [
    "Paragami.C30_exactly",
    "Paragami.C30_iff",
    "Paragami.C30_idempotent",
    "Paragami.C30_default_lost"
   ],
   "note": "Iff, every buildable pattern."
  },
  {
   "property": "C31",
   "status": "proved",
   "theorems": [
    "Paragami.C31_refl",
    "Paragami.C31_symm",
    "Paragami.C31_trans",
    "Paragami.C31_sound",
    "Paragami.C31_shared",
    "Paragami.C31_characterization"
   ],
   "note": "Every pair and triple of buildable patterns; equality characterized class by class, with the bounds as different objects (EqPy) and as the same objects (EqPyShared, where a NaN equals itself)."
  },
  {
   "property": "C32",
   "status": "proved",
   "theorems": [
    "Paragami.C32_array",
    "Paragami.C32_dict",
    "Paragami.C32_not_congruence"
   ],
   "note": "Iff; the failure of congruence is proved with a witness."
  },
  {
   "property": "C33",
   "status": "proved",
   "theorems": [
    "Paragami.C33_register",
    "Paragami.C33_history",
    "Paragami.C33_dispatch"
   ],
   "note": "Every history of registrations; user classes are opaque from_json functions."
  },
  {
   "property": "C34",
   "status": "proved",
   "theorems": [
    "Paragami.C34_other_class",
    "Paragami.C34_class",
    "Paragami.C34_own_class"
   ],
   "note": "Every class, every text."
  },
  {
   "property": "C35",
   "status": "proved",
   "theorems": [
    "Paragami.Files.C35_round_trip",
    "Paragami.Files.C35_pattern",
    "Paragami.Files.C35_file_name",
    "Paragami.Files.C35_load_exact_name",
    "Paragami.Files.C35_failure",
    "Paragami.Files.C35_reserved"
   ],
   "note": "Every buildable pattern, value, file name and history of other operations; the npz encoding of one array is assumed."
  },
  {
   "property": "C36",
   "status": "proved",
   "theorems": [
    "Paragami.C36_nonfree_indices"
   ],
   "note": "Every buildable pattern, every boolean mask of the right structure."
  },
  {
   "property": "C37",
   "status": "proved",
   "theorems": [
    "Paragami.C37_free_indices"
   ],
   "note": "Every buildable pattern."
  },
  {
   "property": "C38",
   "status": "proved",
   "theorems": [
    "Paragami.C38_indices_sorted",
    "Paragami.C38_bad_mask"
   ],
   "note": "Every buildable pattern."
  },
  {
   "property": "C39",
   "status": "proved",
   "theorems": [
    "Paragami.C39_names_length",
    "Paragami.C39_numeric_names",
    "Paragami.C39_counted_names",
    "Paragami.C39_dict_names"
   ],
   "note": "Every buildable pattern."
  },
  {
   "property": "C40",
   "status": "proved",
   "theorems": [
    "Paragami.C40_leaf_distinct",
    "Paragami.C40_flat_dict_distinct",
    "Paragami.C40_nested_distinct",
    "Paragami.C40_collision"
   ],
   "note": "Includes the collision that is possible when keys contain the delimiter."
  },
  {
   "property": "C41",
   "status": "proved",
   "theorems": [
    "Paragami.C41_numeric_jacobians"
   ],
   "note": "HasJacobian is Fr\u00e9chet differentiability of fold-then-flatten at the value; the freeing map is taken without validation, because points near a valid one may be invalid."
  },
  {
   "property": "C42",
   "status": "proved",
   "theorems": [
    "Paragami.C42_simplex_jacobians"
   ],
   "note": "As C41; a simplex pattern with no simplexes raises (empty block_diag)."
  },
  {
   "property": "C43",
   "status": "proved",
   "theorems": [
    "Paragami.C43_tree_jacobians",
    "Paragami.C43_tree_unfreeing_jacobian",
    "Paragami.C43_dict_blocks",
    "Paragami.C43_array_blocks",
    "Paragami.C43_empty_dict"
   ],
   "note": "Derivative statement for trees of numeric and simplex members; unfreeing also with matrices under AutogradSpec.  The freeing Jacobian of a matrix pattern (autograd through cholesky) is not claimed.  0x0 sparse blocks are assumed to be allowed by scipy."
  },
  {
   "property": "C44",
   "status": "proved",
   "theorems": [
    "Paragami.C44_inverse"
   ],
   "note": "From the chain rule and uniqueness of the derivative."
  },
  {
   "property": "C45",
   "status": "proved",
   "theorems": [
    "Paragami.C45_log_det",
    "Paragami.C45_log_det_neg",
    "Paragami.C45_other_leaves"
   ],
   "note": "PatternArray, simplex and matrix patterns inherit the raising default."
  },
  {
   "property": "C46",
   "status": "proved",
   "theorems": [
    "Paragami.C46_construct",
    "Paragami.C46_call",
    "Paragami.C46_unique",
    "Paragami.C46_missing",
    "Paragami.C46_only_if"
   ],
   "note": "Every arity, argnums in any order, every function; keyword arguments not represented."
  },
  {
   "property": "C47",
   "status": "proved",
   "theorems": [
    "Paragami.C47_order",
    "Paragami.C47_permute"
   ],
   "note": "Every permutation, also of arguments the constructor rejects."
  },
  {
   "property": "C48",
   "status": "proved",
   "theorems": [
    "Paragami.C48_python_indexing",
    "Paragami.C48_too_many",
    "Paragami.C48_minus_one",
    "Paragami.C48_minus_one_length"
   ],
   "note": "Characterises exactly which negative argnums work; the failing case is a defect of the code."
  },
  {
   "property": "C49",
   "status": "proved",
   "theorems": [
    "Paragami.C49_tuple",
    "Paragami.C49_too_few",
    "Paragami.C49_single",
    "Paragami.C49_raises"
   ],
   "note": "All return shapes; the AttributeError for nameless callables is a defect of the code."
  },
  {
   "property": "C50",
   "status": "proved",
   "theorems": [
    "Paragami.C50_fold_flatten_input",
    "Paragami.C50_flatten_fold_input",
    "Paragami.C50_fold_flatten_output",
    "Paragami.C50_flatten_fold_output",
    "Paragami.C50_admissible",
    "Paragami.C50_both",
    "Paragami.C50_both_inverse",
    "Paragami.C50_both_inverse_flat"
   ],
   "note": "All functions; the admissible values are those of C04, C05, C10 and C11."
  },
  {
   "property": "C51",
   "status": "proved",
   "theorems": [
    "Paragami.C51_clamp",
    "Paragami.C51_values",
    "Paragami.C51_monotone",
    "Paragami.C51_idempotent",
    "Paragami.C51_complex"
   ],
   "note": "Real thresholds on float arrays; also complex thresholds, which raise."
  },
  {
   "property": "C52",
   "status": "proved",
   "theorems": [
    "Paragami.C52_eigenspace",
    "Paragami.C52_mismatch"
   ],
   "note": "Every N, K; exact real arithmetic."
  },
  {
   "property": "C53",
   "status": "proved",
   "theorems": [
    "Paragami.C53_square_roots"
   ],
   "note": "For every eigendecomposition of the symmetrized matrix; np.linalg.eigh enters through its specification (EighSpec, satisfiable: exists_eigh)."
  },
  {
   "property": "C54",
   "status": "proved",
   "theorems": [
    "Paragami.C54_last_setter",
    "Paragami.C54_no_setter",
    "Paragami.C54_evaluation",
    "Paragami.C54_new",
    "Paragami.C54_matrix",
    "Paragami.C54_matrix_and_inverse",
    "Paragami.C54_singular",
    "Paragami.C54_functions",
    "Paragami.C54_hessian"
   ],
   "note": "Every history of setters and checks; dense and sparse matrices, functions and Hessians."
  },
  {
   "property": "C55",
   "status": "proved",
   "theorems": [
    "Paragami.C55_whitens",
    "Paragami.C55_at_point",
    "Paragami.C55_arguments",
    "Paragami.C55_unchanged"
   ],
   "note": "Second derivative as the derivative of the derivative (HasHessianAt)."
  },
  {
   "property": "C56",
   "status": "proved",
   "theorems": [
    "Paragami.C56_matrix",
    "Paragami.C56_inverse",
    "Paragami.C56_zero"
   ],
   "note": "Linear functions, positive dimension; dimension 0 raises ValueError."
  },
  {
   "property": "C57",
   "status": "proved",
   "theorems": [
    "Paragami.C57_iterations",
    "Paragami.C57_log",
    "Paragami.C57_print",
    "Paragami.C57_value"
   ],
   "note": "Histories by reverse induction against a specification by positions."
  },
  {
   "property": "C58",
   "status": "proved",
   "theorems": [
    "Paragami.C58_log",
    "Paragami.C58_mutation",
    "Paragami.C58_claim_false"
   ],
   "note": "True part, the effect of a later in-place write, and a refutation of the unrestricted claim."
  },
  {
   "property": "C59",
   "status": "proved",
   "theorems": [
    "Paragami.C59_sum",
    "Paragami.C59_valueError",
    "Paragami.C59_indexError",
    "Paragami.C59_returns_iff",
    "Paragami.C59_groups_shape",
    "Paragami.C59_reverse",
    "Paragami.C59_forward"
   ],
   "note": "groups are integers already (astype('int64') is not modelled); x has at least one axis (a scalar counts as a vector)."
  },
  {
   "property": "C60",
   "status": "proved",
   "theorems": [
    "Paragami.C60_value",
    "Paragami.C60_new_array",
    "Paragami.C60_errors",
    "Paragami.C60_forward",
    "Paragami.C60_reverse_x",
    "Paragami.C60_reverse_sub"
   ],
   "note": "x is a vector and inds a list of integers (boolean masks, slices and more axes are not modelled)."
  },
  {
   "property": "C61",
   "status": "proved",
   "theorems": [
    "Paragami.C61_product",
    "Paragami.C61_errors",
    "Paragami.C61_product_errors",
    "Paragami.C61_solver",
    "Paragami.C61_forward",
    "Paragami.C61_reverse",
    "Paragami.C61_solver_matrix",
    "Paragami.C61_all_orders"
   ],
   "note": "The rules are functions; that autograd applies them is trusted."
  },
  {
   "property": "C62",
   "status": "proved",
   "theorems": [
    "Paragami.C62_inv",
    "Paragami.C62_solve_vector",
    "Paragami.C62_solve_matrix",
    "Paragami.C62_slogdet",
    "Paragami.C62_slogdet_stack"
   ],
   "note": "One matrix at a time (stacks of matrices are not modelled, but the ValueError of slogdet is); exact real arithmetic."
  },
  {
   "property": "C63",
   "status": "proved",
   "theorems": [
    "Paragami.C63_gamma",
    "Paragami.C63_polygamma",
    "Paragami.C63_gammasgn"
   ],
   "note": "The scipy functions are specified as Real.Gamma and derivatives of log|Gamma|."
  },
  {
   "property": "C64",
   "status": "proved",
   "theorems": [
    "Paragami.C64_square_root",
    "Paragami.C64_whitens",
    "Paragami.C64_errors"
   ],
   "note": "cholmod is specified (CholmodSpec: permutation matrix with L L^T = P H P^T); factorized(m) solves exactly."
  },
  {
   "property": "C65",
   "status": "proved",
   "theorems": [
    "Paragami.C65_empty_valid",
    "Paragami.C65_empty_bool"
   ],
   "note": "Every buildable pattern without an empty container where needed."
  },
  {
   "property": "C66",
   "status": "proved",
   "theorems": [
    "Paragami.C66_adjoint",
    "Paragami.C66_forward",
    "Paragami.C66_not_square"
   ],
   "note": "Finite entries."
  },
  {
   "property": "C67",
   "status": "proved",
   "theorems": [
    "Paragami.C67_flatten",
    "Paragami.C67_fold_free",
    "Paragami.C67_fold_nonfree",
    "Paragami.C67_write_through",
    "Paragami.C67_no_internal_aliasing"
   ],
   "note": "fold and flatten are transcribed a second time over a memory of cells (Model/Memory.lean) and proved to refine the value-level model.  Which numpy operations return views is taken from the numpy documentation; arguments are arrays."
  },
  {
   "property": "C68",
   "status": "proved",
   "theorems": [
    "Paragami.C68_check",
    "Paragami.C68_inverse",
    "Paragami.C68_raises"
   ],
   "note": "Also: exceptions of the two functions are passed on."
  },
  {
   "property": "C69",
   "status": "partial",
   "theorems": [
    "Paragami.C69_default_names_partial",
    "Paragami.C69_dict_default_ignored"
   ],
   "note": "Partial: fails for dictionaries (C69_dict_default_ignored); proved for the others."
  },
  {
   "property": "C70",
   "status": "proved",
   "theorems": [
    "Paragami.DictHeap.C70_emptied_length",
    "Paragami.DictHeap.C70_float_spreads",
    "Paragami.DictHeap.C70_fold",
    "Paragami.DictHeap.C70_emptied_dict"
   ],
   "note": "Lengths over all programs; folding (free=True) over all programs that store only patterns and put no dictionary into itself."
  },
  {
   "property": "C71",
   "status": "proved",
   "theorems": [
    "Paragami.DictHeap.C71_denotes",
    "Paragami.DictHeap.C71_set",
    "Paragami.DictHeap.C71_del",
    "Paragami.DictHeap.C71_lock",
    "Paragami.DictHeap.C71_fold"
   ],
   "note": "Refinement from heap objects to trees; folding is shown for free=True and programs without deletions (C70 has the other programs)."
  },
  {
   "property": "C72",
   "status": "proved",
   "theorems": [
    "Paragami.C72_truncated"
   ],
   "note": "Generalizes C55."
  },
  {
   "property": "C73",
   "status": "proved",
   "theorems": [
    "Paragami.C73_vector_hessian",
    "Paragami.C73_never_positive"
   ],
   "note": "Found while modelling the broadcasting in 0.5 * (mat + mat.T)."
  },
  {
   "property": "C74",
   "status": "proved",
   "theorems": [
    "Paragami.C74_scalar",
    "Paragami.C74_length_one"
   ],
   "note": "As C60; the adjoint is the sum of what the rule returns."
  },
  {
   "property": "C75",
   "status": "proved",
   "theorems": [
    "Paragami.C75_array_of_arrays",
    "Paragami.C75_array_of_numeric",
    "Paragami.C75_array_of_simplexes",
    "Paragami.C75_zero_dimension"
   ],
   "note": "Errors are compared up to success: where one pattern raises so does the other.  Flat arguments are one-dimensional."
  },
  {
   "property": "C76",
   "status": "proved",
   "theorems": [
    "Paragami.C76_one_sided",
    "Paragami.C76_two_sided_lower",
    "Paragami.C76_unit_interval",
    "Paragami.C76_upper_bound_exceeded",
    "Paragami.C76_overflow_nan"
   ],
   "note": "The free folds are transcribed again with every operation rounded (Model/Rounding.lean) over a machine given by Arith; Sane and Accurate (Spec/Rounding.lean) are the assumptions, binary64_sane and binary64_accurate show they can be met.  Zero has no sign."
  },
  {
   "property": "C77",
   "status": "proved",
   "theorems": [
    "Paragami.C77_range",
    "Paragami.C77_accepted",
    "Paragami.C77_rejected"
   ],
   "note": "The free folds are transcribed again with every operation rounded (Model/Rounding.lean) over a machine given by Arith; Sane and Accurate (Spec/Rounding.lean) are the assumptions, binary64_sane and binary64_accurate show they can be met.  Zero has no sign."
  },
  {
   "property": "C78",
   "status": "proved",
   "theorems": [
    "Paragami.C78_diagonal_collapses",
    "Paragami.C78_corner_not_invertible",
    "Paragami.C78_diagonal_forgotten"
   ],
   "note": "The free folds are transcribed again with every operation rounded (Model/Rounding.lean) over a machine given by Arith; Sane and Accurate (Spec/Rounding.lean) are the assumptions, binary64_sane and binary64_accurate show they can be met.  Zero has no sign.  The matrix product is assumed to be computed symmetrically and cholesky to fail on a non-positive corner."
  },
  {
   "property": "C79",
   "status": "proved",
   "theorems": [
    "Paragami.C79_exact",
    "Paragami.C79_tree"
   ],
   "note": "The free folds are transcribed again with every operation rounded (Model/Rounding.lean) over a machine given by Arith; Sane and Accurate (Spec/Rounding.lean) are the assumptions, binary64_sane and binary64_accurate show they can be met.  Zero has no sign."
  },
  {
   "property": "C80",
   "status": "proved",
   "theorems": [
    "Paragami.C80_leaf_wrong_shape",
    "Paragami.C80_array_never_raises",
    "Paragami.C80_dict_raises_iff"
   ],
   "note": "The text of the messages is not claimed."
  },
  {
   "property": "C81",
   "status": "proved",
   "theorems": [
    "Paragami.C81_float",
    "Paragami.C81_complex",
    "Paragami.C81_int_exact",
    "Paragami.C81_int_lower",
    "Paragami.C81_int_upper"
   ],
   "note": "Model/Truncation.lean transcribes the function over three dtypes; assigning a float to an integer array truncates towards zero; numbers outside int64 are not modelled."
  },
  {
   "property": "C82",
   "status": "proved",
   "theorems": [
    "Paragami.C82_numeric_order",
    "Paragami.C82_numeric_limits",
    "Paragami.C82_simplex_order"
   ],
   "note": "Over exact real arithmetic."
  },
  {
   "property": "C83",
   "status": "proved",
   "theorems": [
    "Paragami.C83_fold_layout",
    "Paragami.C83_determinant",
    "Paragami.C83_flatten_layout"
   ],
   "note": "Over exact real arithmetic; finite diag_lb."
  },
  {
   "property": "C84",
   "status": "proved",
   "theorems": [
    "Paragami.C84_single",
    "Paragami.C84_chain_rule"
   ],
   "note": "The chain rule is over exact real arithmetic and assumes that autograd returns the derivative (AutogradSpec), like C43."
  },
  {
   "property": "C85",
   "status": "proved",
   "theorems": [
    "Paragami.C85_exact",
    "Paragami.C85_union",
    "Paragami.C85_nonfree",
    "Paragami.C85_all"
   ],
   "note": "Exactness is false with PSD leaves, for which the free indices are all entries of the block; it is stated for trees without them."
  },
  {
   "property": "C86",
   "status": "proved",
   "theorems": [
    "Paragami.C86_input",
    "Paragami.C86_output"
   ],
   "note": "Positions are non-negative; what negative positions do is C48."
  },
  {
   "property": "C87",
   "status": "proved",
   "theorems": [
    "Paragami.C87_same_shape",
    "Paragami.C87_inv",
    "Paragami.C87_solve_matrix",
    "Paragami.C87_solve_vector",
    "Paragami.C87_solve_error",
    "Paragami.C87_solve_wrong",
    "Paragami.C87_not_derivative"
   ],
   "note": "numpy 1 semantics of solve (a right-hand side with one axis less is a stack of vectors); exact real arithmetic."
  },
  {
   "property": "C88",
   "status": "proved",
   "theorems": [
    "Paragami.C88_call",
    "Paragami.C88_transparent",
    "Paragami.C88_scalar",
    "Paragami.C88_blocked",
    "Paragami.C88_unblocked"
   ],
   "note": "The text printed is not modelled, only whether formatting raises (numpy >= 1.14: ndarray.__format__ refuses a non-empty format for arrays with axes)."
  },
  {
   "property": "C89",
   "status": "proved",
   "theorems": [
    "Paragami.C89_bijection",
    "Paragami.C89_minimum",
    "Paragami.C89_canonical"
   ],
   "note": "Exact real arithmetic. Values on the boundary of the constraint set are not reached by free vectors (C03, C16), so the minimum is over the interior."
  },
  {
   "property": "C90",
   "status": "proved",
   "theorems": [
    "Paragami.C90_inverse",
    "Paragami.C90_along_values",
    "Paragami.C90_symmetric",
    "Paragami.C90_not_derivative",
    "Paragami.C90_map_differentiable"
   ],
   "note": "Assumes AutogradSpec and AutogradCholesky (autograd's own rules, transcribed from memory of autograd 1 as autograd is not in /repo)."
  },
  {
   "property": "C91",
   "status": "proved",
   "theorems": [
    "Paragami.C91_faithful",
    "Paragami.C91_hidden",
    "Paragami.C91_nested_ambiguous",
    "Paragami.C91_nested_false",
    "Paragami.C91_not_equality"
   ],
   "note": "The text of floats is a parameter with the stated assumptions (met by Python's repr); a concrete printer is proved to meet them."
  },
  {
   "property": "C92",
   "status": "proved",
   "theorems": [
    "Paragami.C92_tagged",
    "Paragami.C92_untagged",
    "Paragami.C92_only",
    "Paragami.C92_round_trip",
    "Paragami.C92_unknown"
   ],
   "note": "What git prints is an input; white space and digits are ASCII; the pattern's end marker before a final line break is not modelled (outputs are stripped)."
  },
  {
   "property": "C93",
   "status": "proved",
   "theorems": [
    "Paragami.C93_shows",
    "Paragami.C93_forged",
    "Paragami.C93_bare_prefix",
    "Paragami.C93_one_plus",
    "Paragami.C93_pep440",
    "Paragami.C93_old",
    "Paragami.C93_pre",
    "Paragami.C93_git_describe",
    "Paragami.C93_git_untagged",
    "Paragami.C93_styles",
    "Paragami.C93_hidden"
   ],
   "note": "Text is a list of characters."
  },
  {
   "property": "C94",
   "status": "proved",
   "theorems": [
    "Paragami.C94_archive_tag",
    "Paragami.C94_archive_other",
    "Paragami.C94_archive_branch",
    "Paragami.C94_checkout",
    "Paragami.C94_import",
    "Paragami.C94_import_fails",
    "Paragami.C94_no_git"
   ],
   "note": "References contain no commas or parentheses; undecodable output of git is not modelled."
  },
  {
   "property": "C95",
   "status": "proved",
   "theorems": [
    "Paragami.C95_own",
    "Paragami.C95_iterations",
    "Paragami.C95_derivative",
    "Paragami.C95_print_raises",
    "Paragami.C95_counted",
    "Paragami.C95_nested",
    "Paragami.C95_shipped",
    "Paragami.C95_blocked"
   ],
   "note": "How often autograd calls the function and what it computes from the calls are parameters; the box has no __format__ of its own (autograd.numpy.numpy_boxes.ArrayBox)."
  },
  {
   "property": "C96",
   "status": "proved",
   "theorems": [
    "Paragami.C96_order",
    "Paragami.C96_permuted",
    "Paragami.C96_round_trip",
    "Paragami.C96_not_object",
    "Paragami.C96_name",
    "Paragami.C96_leaf_entries",
    "Paragami.C96_ignored",
    "Paragami.C96_default",
    "Paragami.C96_missing"
   ],
   "note": "JSON texts are represented by the values they encode, whose dictionaries have distinct keys; entries of the wrong type are outside the model, except for the entry pattern."
  },
  {
   "property": "C97",
   "status": "proved",
   "theorems": [
    "Paragami.C97_scalar",
    "Paragami.C97_axes",
    "Paragami.C97_simplex"
   ],
   "note": "Arrays are well-formed: they have as many entries as the product of their shape."
  },
  {
   "property": "C98",
   "status": "proved",
   "theorems": [
    "Paragami.C98_exact",
    "Paragami.C98_unbounded",
    "Paragami.C98_lower",
    "Paragami.C98_upper",
    "Paragami.C98_two_sided",
    "Paragami.C98_free_lower",
    "Paragami.C98_free_upper",
    "Paragami.C98_lost_lower",
    "Paragami.C98_lost_upper"
   ],
   "note": "fold and flatten in the free direction are transcribed again with every operation rounded (Model/Rounding.lean, Model/RoundingFlatten.lean) over a machine given by Arith; Sane, Accurate (Spec/Rounding.lean) and LogAccurate (Spec/RoundingTrip.lean) are the assumptions, which binary64_sane, binary64_accurate and binary64_logAccurate show can be met.  Bounds and values are machine numbers away from overflow and underflow, as stated in each theorem.  Zero has no sign."
  },
  {
   "property": "C99",
   "status": "proved",
   "theorems": [
    "Paragami.C99_fold_lower",
    "Paragami.C99_fold_upper",
    "Paragami.C99_fold_two_sided",
    "Paragami.C99_flatten_lower",
    "Paragami.C99_flatten_upper",
    "Paragami.C99_flatten_two_sided"
   ],
   "note": "fold and flatten in the free direction are transcribed again with every operation rounded (Model/Rounding.lean, Model/RoundingFlatten.lean) over a machine given by Arith; Sane, Accurate (Spec/Rounding.lean) and LogAccurate (Spec/RoundingTrip.lean) are the assumptions, which binary64_sane, binary64_accurate and binary64_logAccurate show can be met.  Bounds and values are machine numbers away from overflow and underflow, as stated in each theorem.  Zero has no sign."
  },
  {
   "property": "C100",
   "status": "proved",
   "theorems": [
    "Paragami.C100_logsumexp",
    "Paragami.C100_fold",
    "Paragami.C100_flatten",
    "Paragami.C100_trip",
    "Paragami.C100_free"
   ],
   "note": "fold and flatten in the free direction are transcribed again with every operation rounded (Model/Rounding.lean, Model/RoundingFlatten.lean) over a machine given by Arith; Sane, Accurate (Spec/Rounding.lean) and LogAccurate (Spec/RoundingTrip.lean) are the assumptions, which binary64_sane, binary64_accurate and binary64_logAccurate show can be met.  Bounds and values are machine numbers away from overflow and underflow, as stated in each theorem.  Zero has no sign."
  },
  {
   "property": "C101",
   "status": "proved",
   "theorems": [
    "Paragami.C101_loads",
    "Paragami.C101_layouts",
    "Paragami.C101_malformed",
    "Paragami.C101_ascii",
    "Paragami.C101_round_trip",
    "Paragami.C101_reformatted",
    "Paragami.C101_equal",
    "Paragami.C101_truncated",
    "Paragami.C101_truncated_text",
    "Paragami.C101_trailing",
    "Paragami.C101_dispatch",
    "Paragami.C101_refines"
   ],
   "note": "json.dumps and json.loads are transcribed from the standard library (Model/JsonText.lean), with texts as lists of characters; repr and float of finite doubles are parameters (FloatText), and Faithful (Spec/JsonText.lean) is what is assumed of them, which decimals_faithful shows can be met for all doubles at once.  Ways to write a value are the inductive relation Writes.  Zero has no sign, strings with lone surrogates are not modelled, and neither is the recursion limit of the interpreter."
  },
  {
   "property": "C102",
   "status": "proved",
   "theorems": [
    "Paragami.C102_size"
   ],
   "note": "json.dumps is transcribed from the standard library (Model/JsonText.lean), with texts as lists of characters."
  },
  {
   "property": "C103",
   "status": "proved",
   "theorems": [
    "Paragami.C103_built",
    "Paragami.C103_fold",
    "Paragami.C103_flatten",
    "Paragami.C103_others",
    "Paragami.C103_round_trip",
    "Paragami.C103_wrong_length",
    "Paragami.C103_str",
    "Paragami.C103_names",
    "Paragami.C103_names_empty",
    "Paragami.C103_to_json",
    "Paragami.C103_from_json",
    "Paragami.C103_written",
    "Paragami.C103_strings"
   ],
   "note": "Dictionaries with any keys are a model of their own (Model/Keys.lean) over the patterns of C01\u2013C102; keys are strings, Booleans, integers, finite floats, None and tuples of these, compared by value as Python's == does; infinite floats, NaN, nested tuples and other objects as keys are not modelled.  Patterns of other classes inside a PatternDict may contain dictionaries with string keys only: a PatternArray of a dictionary with other keys is not modelled."
  },
  {
   "property": "C104",
   "status": "proved",
   "theorems": [
    "Paragami.C104_number",
    "Paragami.C104_unique",
    "Paragami.C104_order",
    "Paragami.C104_zero",
    "Paragami.C104_output",
    "Paragami.C104_lines"
   ],
   "note": "Texts are lists of characters (Model/PrintText.lean).  Formatting with eight decimals is transcribed as correct rounding of the exact value; zero has no sign, so the text for -0.0 (-0.00000000) is not modelled."
  },
  {
   "property": "C105",
   "status": "proved",
   "theorems": [
    "Paragami.C105_closed",
    "Paragami.C105_round_trip",
    "Paragami.C105_singular",
    "Paragami.C105_survives",
    "Paragami.C105_again"
   ],
   "note": "Completes C03, C16 and C19 for whole trees.  Arithmetic is exact on real numbers with IEEE rules for infinities and NaN; rounding is in C98\u2013C100."
  },
  {
   "property": "C106",
   "status": "proved",
   "theorems": [
    "Paragami.C106_names",
    "Paragami.C106_missing",
    "Paragami.C106_count",
    "Paragami.C106_agree"
   ],
   "note": "Completes C69: says exactly what happens where C69 fails."
  },
  {
   "property": "C107",
   "status": "proved",
   "theorems": [
    "Paragami.C107_validate",
    "Paragami.C107_matrices"
   ],
   "note": "Generalises C12 to values with NaN and completes C13, which fails; diag_lb is assumed finite."
  },
  {
   "property": "C108",
   "status": "proved",
   "theorems": [
    "Paragami.C108_fold",
    "Paragami.C108_trip",
    "Paragami.C108_large_lost"
   ],
   "note": "C108_fold, C108_trip and C108_large_lost assume of the machine Sane, Accurate, LogAccurate and, for matrices, DotAccurate (a matrix product's entry is its sum of products up to n * 2**-52 times the sum of absolute products) and CholAccurate (backward stability of the factorization).  A concrete binary64 machine is proved to satisfy all of them; its factorization rounds the exact factor, LAPACK's own recursion is not modelled."
  },
  {
   "property": "C109",
   "status": "proved",
   "theorems": [
    "Paragami.C109_fold",
    "Paragami.C109_trip"
   ],
   "note": "C109_fold and C109_trip lift C99, C100 and C108 to whole patterns.  They assume Sane, Accurate and DotAccurate (C109_trip also LogAccurate and CholAccurate) of the machine, proved of a concrete binary64 machine.  For matrices C109_trip assumes that the computed free vector exists and is bounded."
  },
  {
   "property": "C110",
   "status": "proved",
   "theorems": [
    "Paragami.C110_unfreeing",
    "Paragami.C110_freeing"
   ],
   "note": "From the Jacobians (C43, C45), the round trips (C04, C05, C10, C11) and Mathlib's change of variables.  Exact arithmetic."
  },
  {
   "property": "C111",
   "status": "proved",
   "theorems": [
    "Paragami.C111_analytic",
    "Paragami.C111_objective"
   ],
   "note": "The derivative calculus of C43 carries analyticity along; for matrices the Cholesky recursion is analytic because its pivots are positive.  Exact arithmetic."
  },
  {
   "property": "C112",
   "status": "proved",
   "theorems": [
    "Paragami.C112_exact",
    "Paragami.C112_float"
   ],
   "note": "The perturbation bound for Cholesky factors is proved (`Proofs/CholeskyPerturb.lean`), not assumed.  Whether LAPACK raises for a computed matrix close to singular is not part of the model; the floating-point theorem is about calls that return."
  },
  {
   "property": "C113",
   "status": "proved",
   "theorems": [
    "Paragami.C113_trip"
   ],
   "note": "The bounds of numbers must not be so large that adding them loses more than 40 bits, and matrices must be small enough for their error bound to be below 1 / (16 n) (`Recoverable`).  LAPACK may still raise for a computed matrix that is almost singular; C114 excludes that."
  },
  {
   "property": "C114",
   "status": "proved",
   "theorems": [
    "Paragami.C114_trip"
   ],
   "note": "`CholSucceeds` is an assumption about LAPACK (a weaker form of a theorem of Demmel, Higham 10.7); it is proved for the model of binary64 arithmetic, so it is satisfiable."
  },
  {
   "property": "C115",
   "status": "proved",
   "theorems": [
    "Paragami.C115_flatten",
    "Paragami.C115_trip"
   ],
   "note": "Unlike C109, nothing is assumed about what the machine makes of a matrix: its hypothesis is about the exact factor.  `CholSucceeds` is assumed of LAPACK (as in C114).  Unbounded numbers are returned unchanged, so their error is zero."
  },
  {
   "property": "C116",
   "status": "proved",
   "theorems": [
    "Paragami.C116_computes_input",
    "Paragami.C116_computes_output",
    "Paragami.C116_protects",
    "Paragami.C116_overwrites",
    "Paragami.C116_output"
   ],
   "note": "Arguments are arrays and dictionaries of arrays; other objects own no memory in the model.  `C116_overwrites` makes the claim exact: it follows the function that overwrites all its arguments."
  },
  {
   "property": "C117",
   "status": "proved",
   "theorems": [
    "Paragami.C117_raises",
    "Paragami.C117_matrix",
    "Paragami.C117_hessian",
    "Paragami.C117_stale",
    "Paragami.C117_argument",
    "Paragami.C117_identity",
    "Paragami.C117_values",
    "Paragami.C117_history",
    "Paragami.C117_functions",
    "Paragami.C117_failed"
   ],
   "note": "Array objects do not overlap (no views).  The original function and functions passed to `set_preconditioner_functions` may read and write any object."
  },
  {
   "property": "C118",
   "status": "proved",
   "theorems": [
    "Paragami.C118_exact",
    "Paragami.C118_freeing",
    "Paragami.C118_unfreeing",
    "Paragami.C118_log_freeing",
    "Paragami.C118_log_unfreeing",
    "Paragami.C118_lost",
    "Paragami.C118_lost_log"
   ],
   "note": "Jacobians of positive definite matrices are computed by autograd and not covered.  `C118_lost` and `C118_lost_log` show that the condition on the upper bound cannot be dropped."
  },
  {
   "property": "C119",
   "status": "proved",
   "theorems": [
    "Paragami.C119_exact",
    "Paragami.C119_apply",
    "Paragami.C119_check",
    "Paragami.C119_plain",
    "Paragami.C119_lost",
    "Paragami.C119_matrix"
   ],
   "note": "`C119_lost` shows that the condition on the eigenvalues cannot be dropped.  `np.linalg.inv`, used if no inverse matrix is given, is not covered; how accurate `eigh` is enters as `eta`."
  },
  {
   "property": "C120",
   "status": "proved",
   "theorems": [
    "Paragami.C120_flatten",
    "Paragami.C120_fold",
    "Paragami.C120_trip",
    "Paragami.C120_exact",
    "Paragami.C120_free",
    "Paragami.C120_small",
    "Paragami.C120_lost"
   ],
   "note": "Bound comparisons are exact and the logarithms of `C120_free` too; only conversions round.  Integers do not wrap around.  Half-precision logarithms of Boolean simplexes are not modelled (`unmodelled`)."
  },
  {
   "property": "C121",
   "status": "proved",
   "theorems": [
    "Paragami.C121_convex",
    "Paragami.C121_hessian",
    "Paragami.C121_stationary"
   ],
   "note": "Exact arithmetic."
  },
  {
   "property": "C122",
   "status": "proved",
   "theorems": [
    "Paragami.C122_sparsity"
   ],
   "note": "Exact arithmetic."
  },
  {
   "property": "C123",
   "status": "proved",
   "theorems": [
    "Paragami.C123_spelling",
    "Paragami.C123_update",
    "Paragami.C123_eq",
    "Paragami.C123_eq_sound",
    "Paragami.C123_eq_kinds"
   ],
   "note": "Float keys are finite and in the set of doubles for which repr and float are assumed faithful (as in C98); the assumption is only used for ==."
  },
  {
   "property": "C124",
   "status": "proved",
   "theorems": [
    "Paragami.C124_minima",
    "Paragami.C124_newton",
    "Paragami.C124_one_step",
    "Paragami.C124_quadratic",
    "Paragami.C124_nearby"
   ],
   "note": "Exact real arithmetic, as in C55; eigh is any function that returns eigenvalues and orthonormal eigenvectors of a symmetric matrix."
  },
  {
   "property": "C125",
   "status": "proved",
   "theorems": [
    "Paragami.C125_closure",
    "Paragami.C125_folds",
    "Paragami.C125_boundary",
    "Paragami.C125_infimum",
    "Paragami.C125_local"
   ],
   "note": "Exact real arithmetic. In floating point the free vectors near the boundary overflow or are rounded to the boundary (C57 onwards)."
  },
  {
   "property": "C126",
   "status": "proved",
   "theorems": [
    "Paragami.C126_psd",
    "Paragami.C126_free",
    "Paragami.C126_json",
    "Paragami.C126_negative",
    "Paragami.C126_nonfinite",
    "Paragami.C126_numeric",
    "Paragami.C126_simplex",
    "Paragami.C126_array"
   ],
   "note": "Sizes are exact real numbers. numpy's reshape is modelled with its rule for one negative entry."
  },
  {
   "property": "C127",
   "status": "proved",
   "theorems": [
    "Paragami.C127_constructor",
    "Paragami.C127_validate",
    "Paragami.C127_fold",
    "Paragami.C127_not_injective",
    "Paragami.C127_empty"
   ],
   "note": "Exact arithmetic with the IEEE rules for infinities and NaN. flatten(free=True) is not covered: numpy's Cholesky of a matrix with NaN is implementation-dependent and unmodelled."
  },
  {
   "property": "C128",
   "status": "proved",
   "theorems": [
    "Paragami.C128_entry",
    "Paragami.C128_mask"
   ],
   "note": "Exact arithmetic. Complements C85, which leaves out matrices, and C37."
  },
  {
   "property": "C129",
   "status": "proved",
   "theorems": [
    "Paragami.C129_flatten",
    "Paragami.C129_fold",
    "Paragami.C129_fold_ok",
    "Paragami.C129_freeing_jacobian",
    "Paragami.C129_unfreeing_jacobian",
    "Paragami.C129_log_det_freeing",
    "Paragami.C129_log_det_unfreeing",
    "Paragami.C129_regroup",
    "Paragami.C129_regroup_fold"
   ],
   "note": "Exact arithmetic for the sums of log-determinants. The single-level statements are C21, C43 and C45; names of leaves are C106."
  },
  {
   "property": "C130",
   "status": "proved",
   "theorems": [
    "Paragami.C130_fold",
    "Paragami.C130_flatten",
    "Paragami.C130_validate",
    "Paragami.C130_fold_same",
    "Paragami.C130_freeing_jacobian",
    "Paragami.C130_freeing_jacobian_folded",
    "Paragami.C130_unfreeing_jacobian",
    "Paragami.C130_log_det",
    "Paragami.C130_simplex",
    "Paragami.C130_simplex_folded"
   ],
   "note": "Exact arithmetic apart from the signs. Jacobians of matrix patterns (autograd's) are not covered, and the Jacobians are stated for leaves; containers place them in blocks (C129)."
  },
  {
   "property": "C131",
   "status": "proved",
   "theorems": [
    "Paragami.C131_reordered",
    "Paragami.C131_order",
    "Paragami.C131_log_det"
   ],
   "note": "Exact arithmetic for the sums of log-determinants; in floating point the order of summation matters (C118)."
  },
  {
   "property": "C132",
   "status": "proved",
   "theorems": [
    "Paragami.C132_freeing_entries",
    "Paragami.C132_unfreeing_entries",
    "Paragami.C132_class",
    "Paragami.C132_freeing_stored",
    "Paragami.C132_unfreeing_stored",
    "Paragami.C132_product",
    "Paragami.C132_product_storage"
   ],
   "note": "scipy's diags, coo_matrix, block_diag, toarray and sparse products are modelled on triplets (Model/Sparse.lean); diags of an empty vector, which some versions of scipy refuse, is an empty matrix."
  },
  {
   "property": "C133",
   "status": "proved",
   "theorems": [
    "Paragami.C133_outcome",
    "Paragami.C133_empty_message",
    "Paragami.C133_array",
    "Paragami.C133_location",
    "Paragami.C133_swapped",
    "Paragami.C133_matrix",
    "Paragami.C133_matrix_member",
    "Paragami.C133_dict",
    "Paragami.C133_keys_not_named",
    "Paragami.C133_fold_array",
    "Paragami.C133_fold_dict",
    "Paragami.C133_fold_rule",
    "Paragami.C133_fold_size",
    "Paragami.C133_flatten"
   ],
   "note": "The way numpy prints floats is a parameter; the messages of fold with free=True are not modelled with their values, and the length 0.0 of an emptied dictionary is printed as 0."
  },
  {
   "property": "C134",
   "status": "proved",
   "theorems": [
    "Paragami.C134_outcome",
    "Paragami.C134_single_text",
    "Paragami.C134_multiple",
    "Paragami.C134_few_text",
    "Paragami.C134_uninformative"
   ],
   "note": "The way numpy prints retnums is a parameter. C134_few_text takes positions that are not negative."
  },
  {
   "property": "C135",
   "status": "proved",
   "theorems": [
    "Paragami.Protocols.C135_iterate",
    "Paragami.Protocols.C135_in",
    "Paragami.Protocols.C135_strings",
    "Paragami.Protocols.C135_dict",
    "Paragami.Protocols.C135_keywords"
   ],
   "note": "Python's protocols for objects with __getitem__ only, and for mappings, are written down as relations (Model/Protocols.lean)."
  },
  {
   "property": "C136",
   "status": "proved",
   "theorems": [
    "Paragami.Attributes.C136_stands",
    "Paragami.Attributes.C136_validate",
    "Paragami.Attributes.C136_free",
    "Paragami.Attributes.C136_untouched",
    "Paragami.Attributes.C136_container",
    "Paragami.Attributes.C136_explicit",
    "Paragami.Attributes.C136_default",
    "Paragami.Attributes.C136_member_free",
    "Paragami.Attributes.C136_own_free"
   ],
   "note": "A heap of all pattern objects (Model/Attributes.lean) is related to the patterns of Model/Pattern.lean by an inductive relation; a dictionary is not put into itself."
  },
  {
   "property": "C137",
   "status": "proved",
   "theorems": [
    "Paragami.FunctionPatterns.C137_unshared",
    "Paragami.FunctionPatterns.C137_fresh",
    "Paragami.FunctionPatterns.C137_values",
    "Paragami.FunctionPatterns.C137_order",
    "Paragami.FunctionPatterns.C137_order_results",
    "Paragami.FunctionPatterns.C137_exchanged"
   ],
   "note": "That np.atleast_1d and np.broadcast_to do not copy arrays is assumed."
  },
  {
   "property": "C138",
   "status": "proved",
   "theorems": [
    "Paragami.Copies.C138_shared",
    "Paragami.Copies.C138_own",
    "Paragami.Copies.C138_set",
    "Paragami.Copies.C138_del",
    "Paragami.Copies.C138_members",
    "Paragami.Copies.C138_raise",
    "Paragami.Copies.C138_deepcopy",
    "Paragami.Copies.C138_without_copy",
    "Paragami.Copies.C138_frozen",
    "Paragami.Copies.C138_lock_leaks",
    "Paragami.Copies.C138_fold",
    "Paragami.Copies.C138_round_trip",
    "Paragami.Copies.C138_fold_short"
   ],
   "note": "That copy.copy and copy.deepcopy treat an object without special methods by its __dict__ is assumed; dictionaries that are members are trees here (their identity is in C24 to C27, C71 and C136)."
  },
  {
   "property": "C139",
   "status": "proved",
   "theorems": [
    "Paragami.C139_outcome",
    "Paragami.C139_fold",
    "Paragami.C139_fold_size",
    "Paragami.C139_fold_1d",
    "Paragami.C139_flatten_accepted",
    "Paragami.C139_flatten"
   ],
   "note": "Values outside the model of the Cholesky decomposition (non-finite entries) may raise something else; the length of an emptied dictionary prints as 0.0, which is not modelled."
  },
  {
   "property": "C140",
   "status": "proved",
   "theorems": [
    "Paragami.C140_outcome",
    "Paragami.C140_other_class",
    "Paragami.C140_unregistered",
    "Paragami.C140_not_named",
    "Paragami.C140_register",
    "Paragami.C140_to_json",
    "Paragami.C140_names"
   ],
   "note": "Python's str of a value of the pattern entry that is not a string is a parameter; patterns of user classes are known by their JSON dictionary and by what their from_json gives, which is a pattern of the model."
  },
  {
   "property": "C141",
   "status": "proved",
   "theorems": [
    "Paragami.C141_outcome",
    "Paragami.C141_texts",
    "Paragami.C141_nothing"
   ],
   "note": "Masks are Boolean arrays; free is given."
  },
  {
   "property": "C142",
   "status": "proved",
   "theorems": [
    "Paragami.C142_same",
    "Paragami.C142_json",
    "Paragami.C142_equal",
    "Paragami.C142_both",
    "Paragami.C142_none"
   ],
   "note": "Rests on the model of the wrappers of C46\u2013C52 and on C29\u2013C31."
  },
  {
   "property": "C143",
   "status": "proved",
   "theorems": [
    "Paragami.C143_json",
    "Paragami.C143_equal",
    "Paragami.C143_str"
   ],
   "note": "autograd.jacobian is an arbitrary function of the transform it is given."
  },
  {
   "property": "C144",
   "status": "proved",
   "theorems": [
    "Paragami.C144_fold",
    "Paragami.C144_validate",
    "Paragami.C144_flatten",
    "Paragami.C144_indices",
    "Paragami.C144_scalar",
    "Paragami.C144_empty"
   ],
   "note": "Arguments are arrays (or dictionaries of them); other Python objects are not considered."
  },
  {
   "property": "C145",
   "status": "proved",
   "theorems": [
    "Paragami.C145_flatten",
    "Paragami.C145_flatten_result",
    "Paragami.C145_fold",
    "Paragami.C145_fold_result",
    "Paragami.C145_validate"
   ],
   "note": "That a free fold ignores validate_value is read off the source: the model's foldFree has no such parameter."
  },
  {
   "property": "C146",
   "status": "proved",
   "theorems": [
    "Paragami.C146_outcome",
    "Paragami.C146_texts",
    "Paragami.C146_unreachable"
   ],
   "note": "numpy's own broadcast message is a parameter of the model."
  }
 ]
}