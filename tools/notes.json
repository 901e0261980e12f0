{
 "C01": "All four bound configurations, every shape.",
 "C02": "All four bound configurations, every shape; result strictly inside the bounds.",
 "C03": "Partial: the property fails at the upper bound when both bounds are finite (C03_upper_bound_gives_nan, C03_claim_false refute the full statement); every other boundary case is proved.",
 "C04": "Every pattern buildable through the API, every value.",
 "C05": "Every buildable pattern without an empty container.",
 "C06": "Every buildable pattern; container lengths stated as sum and product.",
 "C07": "Every buildable pattern, both values of free, every validate_value.",
 "C08": "Partial: fails for SimplexArrayPattern, which accepts exactly the (N,1,...,1) columns (C08_simplex_accepts_columns, C08_simplex_accepts_only_columns, C08_claim_false); proved for all others.",
 "C09": "PSD patterns with a finite diagonal lower bound (an infinite one is accepted by the constructor but has no valid value).",
 "C10": "Exact real arithmetic.",
 "C11": "Exact real arithmetic; interior stated in Spec/Interior.lean.",
 "C12": "Iff, for values without NaN; documented constraint in Spec/Valid.lean.",
 "C13": "Partial: true for PSD matrices; refuted for numeric and simplex patterns (C13_claim_false).",
 "C16": "Partial: true when the first entry is positive; when it is zero the result is NaN (C16_first_zero_gives_nan, C16_claim_false).",
 "C19": "Includes a valid positive definite matrix that flatten rejects.",
 "C14": "Fold of a simplex pattern is the softmax with a zero first logit; exact real arithmetic.",
 "C15": "Exact real arithmetic.",
 "C17": "Exact real arithmetic.",
 "C18": "Exact real arithmetic.",
 "C20": "Every array pattern, every buildable base.",
 "C21": "Every buildable dictionary.",
 "C22": "Every buildable container.",
 "C23": "Every buildable container.",
 "C24": "Every program, including statements that raise; the self-insertion exception is proved too (C24_self_insertion). Heap model of shared dictionaries.",
 "C25": "Every history on the heap of shared dictionaries.",
 "C26": "Every program; the exception (storing a non-pattern) is proved too (C26_non_pattern_stays).",
 "C27": "Key order stated from the history of assignments and deletions alone (Spec/DictHeap.lean).",
 "C28": "Every pattern and every assignment of defaults.",
 "C36": "Every buildable pattern, every boolean mask of the right structure.",
 "C37": "Every buildable pattern.",
 "C38": "Every buildable pattern.",
 "C39": "Every buildable pattern.",
 "C40": "Includes the collision that is possible when keys contain the delimiter.",
 "C65": "Every buildable pattern without an empty container where needed.",
 "C69": "Partial: fails for dictionaries (C69_dict_default_ignored); proved for the others.",
 "C70": "Lengths over all programs; folding (free=True) over all programs that store only patterns and put no dictionary into itself.",
 "C71": "Refinement from heap objects to trees; folding is shown for free=True and programs without deletions (C70 has the other programs).",
 "C29": "Every buildable pattern; JSON texts are represented by the value they encode (Model/Json.lean); == after the round trip compares different objects, so a NaN bound equals nothing.",
 "C30": "Iff, every buildable pattern.",
 "C31": "Every pair and triple of buildable patterns; equality characterized class by class, with the bounds as different objects (EqPy) and as the same objects (EqPyShared, where a NaN equals itself).",
 "C32": "Iff; the failure of congruence is proved with a witness.",
 "C33": "Every history of registrations; user classes are opaque from_json functions.",
 "C34": "Every class, every text.",
 "C35": "Every buildable pattern, value, file name and history of other operations; the npz encoding of one array is assumed.",
 "C46": "Every arity, argnums in any order, every function; keyword arguments not represented.",
 "C47": "Every permutation, also of arguments the constructor rejects.",
 "C48": "Characterises exactly which negative argnums work; the failing case is a defect of the code.",
 "C49": "All return shapes; the AttributeError for nameless callables is a defect of the code.",
 "C50": "All functions; the admissible values are those of C04, C05, C10 and C11.",
 "C51": "Real thresholds on float arrays; also complex thresholds, which raise.",
 "C52": "Every N, K; exact real arithmetic.",
 "C53": "For every eigendecomposition of the symmetrized matrix; np.linalg.eigh enters through its specification (EighSpec, satisfiable: exists_eigh).",
 "C54": "Every history of setters and checks; dense and sparse matrices, functions and Hessians.",
 "C55": "Second derivative as the derivative of the derivative (HasHessianAt).",
 "C56": "Linear functions, positive dimension; dimension 0 raises ValueError.",
 "C57": "Histories by reverse induction against a specification by positions.",
 "C58": "True part, the effect of a later in-place write, and a refutation of the unrestricted claim.",
 "C68": "Also: exceptions of the two functions are passed on.",
 "C72": "Generalizes C55.",
 "C73": "Found while modelling the broadcasting in 0.5 * (mat + mat.T).",
 "C59": "groups are integers already (astype('int64') is not modelled); x has at least one axis (a scalar counts as a vector).",
 "C60": "x is a vector and inds a list of integers (boolean masks, slices and more axes are not modelled).",
 "C74": "As C60; the adjoint is the sum of what the rule returns.",
 "C61": "The rules are functions; that autograd applies them is trusted.",
 "C62": "One matrix at a time (stacks of matrices are not modelled, but the ValueError of slogdet is); exact real arithmetic.",
 "C63": "The scipy functions are specified as Real.Gamma and derivatives of log|Gamma|.",
 "C64": "cholmod is specified (CholmodSpec: permutation matrix with L L^T = P H P^T); factorized(m) solves exactly.",
 "C66": "Finite entries.",
 "C41": "HasJacobian is Fréchet differentiability of fold-then-flatten at the value; the freeing map is taken without validation, because points near a valid one may be invalid.",
 "C42": "As C41; a simplex pattern with no simplexes raises (empty block_diag).",
 "C43": "Derivative statement for trees of numeric and simplex members; unfreeing also with matrices under AutogradSpec.  The freeing Jacobian of a matrix pattern (autograd through cholesky) is not claimed.  0x0 sparse blocks are assumed to be allowed by scipy.",
 "C44": "From the chain rule and uniqueness of the derivative.",
 "C45": "PatternArray, simplex and matrix patterns inherit the raising default.",
 "C67": "fold and flatten are transcribed a second time over a memory of cells (Model/Memory.lean) and proved to refine the value-level model.  Which numpy operations return views is taken from the numpy documentation; arguments are arrays.",
 "C75": "Errors are compared up to success: where one pattern raises so does the other.  Flat arguments are one-dimensional.",
 "C76": "The free folds are transcribed again with every operation rounded (Model/Rounding.lean) over a machine given by Arith; Sane and Accurate (Spec/Rounding.lean) are the assumptions, binary64_sane and binary64_accurate show they can be met.  Zero has no sign.",
 "C77": "The free folds are transcribed again with every operation rounded (Model/Rounding.lean) over a machine given by Arith; Sane and Accurate (Spec/Rounding.lean) are the assumptions, binary64_sane and binary64_accurate show they can be met.  Zero has no sign.",
 "C78": "The free folds are transcribed again with every operation rounded (Model/Rounding.lean) over a machine given by Arith; Sane and Accurate (Spec/Rounding.lean) are the assumptions, binary64_sane and binary64_accurate show they can be met.  Zero has no sign.  The matrix product is assumed to be computed symmetrically and cholesky to fail on a non-positive corner.",
 "C79": "The free folds are transcribed again with every operation rounded (Model/Rounding.lean) over a machine given by Arith; Sane and Accurate (Spec/Rounding.lean) are the assumptions, binary64_sane and binary64_accurate show they can be met.  Zero has no sign.",
 "C80": "The text of the messages is not claimed.",
 "C81": "Model/Truncation.lean transcribes the function over three dtypes; assigning a float to an integer array truncates towards zero; numbers outside int64 are not modelled.",
 "C82": "Over exact real arithmetic.",
 "C83": "Over exact real arithmetic; finite diag_lb.",
 "C84": "The chain rule is over exact real arithmetic and assumes that autograd returns the derivative (AutogradSpec), like C43.",
 "C85": "Exactness is false with PSD leaves, for which the free indices are all entries of the block; it is stated for trees without them.",
 "C86": "Positions are non-negative; what negative positions do is C48.",
 "C87": "numpy 1 semantics of solve (a right-hand side with one axis less is a stack of vectors); exact real arithmetic.",
 "C88": "The text printed is not modelled, only whether formatting raises (numpy >= 1.14: ndarray.__format__ refuses a non-empty format for arrays with axes).",
 "C89": "Exact real arithmetic. Values on the boundary of the constraint set are not reached by free vectors (C03, C16), so the minimum is over the interior.",
 "C90": "Assumes AutogradSpec and AutogradCholesky (autograd's own rules, transcribed from memory of autograd 1 as autograd is not in /repo).",
 "C91": "The text of floats is a parameter with the stated assumptions (met by Python's repr); a concrete printer is proved to meet them.",
 "C92": "What git prints is an input; white space and digits are ASCII; the pattern's end marker before a final line break is not modelled (outputs are stripped).",
 "C93": "Text is a list of characters.",
 "C94": "References contain no commas or parentheses; undecodable output of git is not modelled.",
 "C95": "How often autograd calls the function and what it computes from the calls are parameters; the box has no __format__ of its own (autograd.numpy.numpy_boxes.ArrayBox).",
 "C96": "JSON texts are represented by the values they encode, whose dictionaries have distinct keys; entries of the wrong type are outside the model, except for the entry pattern.",
 "C97": "Arrays are well-formed: they have as many entries as the product of their shape.",
 "C98": "fold and flatten in the free direction are transcribed again with every operation rounded (Model/Rounding.lean, Model/RoundingFlatten.lean) over a machine given by Arith; Sane, Accurate (Spec/Rounding.lean) and LogAccurate (Spec/RoundingTrip.lean) are the assumptions, which binary64_sane, binary64_accurate and binary64_logAccurate show can be met.  Bounds and values are machine numbers away from overflow and underflow, as stated in each theorem.  Zero has no sign.",
 "C99": "fold and flatten in the free direction are transcribed again with every operation rounded (Model/Rounding.lean, Model/RoundingFlatten.lean) over a machine given by Arith; Sane, Accurate (Spec/Rounding.lean) and LogAccurate (Spec/RoundingTrip.lean) are the assumptions, which binary64_sane, binary64_accurate and binary64_logAccurate show can be met.  Bounds and values are machine numbers away from overflow and underflow, as stated in each theorem.  Zero has no sign.",
 "C100": "fold and flatten in the free direction are transcribed again with every operation rounded (Model/Rounding.lean, Model/RoundingFlatten.lean) over a machine given by Arith; Sane, Accurate (Spec/Rounding.lean) and LogAccurate (Spec/RoundingTrip.lean) are the assumptions, which binary64_sane, binary64_accurate and binary64_logAccurate show can be met.  Bounds and values are machine numbers away from overflow and underflow, as stated in each theorem.  Zero has no sign.",
 "C101": "json.dumps and json.loads are transcribed from the standard library (Model/JsonText.lean), with texts as lists of characters; repr and float of finite doubles are parameters (FloatText), and Faithful (Spec/JsonText.lean) is what is assumed of them, which decimals_faithful shows can be met for all doubles at once.  Ways to write a value are the inductive relation Writes.  Zero has no sign, strings with lone surrogates are not modelled, and neither is the recursion limit of the interpreter.",
 "C102": "json.dumps is transcribed from the standard library (Model/JsonText.lean), with texts as lists of characters.",
 "C103": "Dictionaries with any keys are a model of their own (Model/Keys.lean) over the patterns of C01–C102; keys are strings, Booleans, integers, finite floats, None and tuples of these, compared by value as Python's == does; infinite floats, NaN, nested tuples and other objects as keys are not modelled.  Patterns of other classes inside a PatternDict may contain dictionaries with string keys only: a PatternArray of a dictionary with other keys is not modelled.",
 "C104": "Texts are lists of characters (Model/PrintText.lean).  Formatting with eight decimals is transcribed as correct rounding of the exact value; zero has no sign, so the text for -0.0 (-0.00000000) is not modelled.",
 "C105": "Completes C03, C16 and C19 for whole trees.  Arithmetic is exact on real numbers with IEEE rules for infinities and NaN; rounding is in C98–C100.",
 "C106": "Completes C69: says exactly what happens where C69 fails.",
 "C107": "Generalises C12 to values with NaN and completes C13, which fails; diag_lb is assumed finite.",
 "C108": "C108_fold, C108_trip and C108_large_lost assume of the machine Sane, Accurate, LogAccurate and, for matrices, DotAccurate (a matrix product's entry is its sum of products up to n * 2**-52 times the sum of absolute products) and CholAccurate (backward stability of the factorization).  A concrete binary64 machine is proved to satisfy all of them; its factorization rounds the exact factor, LAPACK's own recursion is not modelled.",
 "C109": "C109_fold and C109_trip lift C99, C100 and C108 to whole patterns.  They assume Sane, Accurate and DotAccurate (C109_trip also LogAccurate and CholAccurate) of the machine, proved of a concrete binary64 machine.  For matrices C109_trip assumes that the computed free vector exists and is bounded.",
 "C110": "From the Jacobians (C43, C45), the round trips (C04, C05, C10, C11) and Mathlib's change of variables.  Exact arithmetic.",
 "C111": "The derivative calculus of C43 carries analyticity along; for matrices the Cholesky recursion is analytic because its pivots are positive.  Exact arithmetic.",
 "C112": "The perturbation bound for Cholesky factors is proved (`Proofs/CholeskyPerturb.lean`), not assumed.  Whether LAPACK raises for a computed matrix close to singular is not part of the model; the floating-point theorem is about calls that return.",
 "C113": "The bounds of numbers must not be so large that adding them loses more than 40 bits, and matrices must be small enough for their error bound to be below 1 / (16 n) (`Recoverable`).  LAPACK may still raise for a computed matrix that is almost singular; C114 excludes that.",
 "C114": "`CholSucceeds` is an assumption about LAPACK (a weaker form of a theorem of Demmel, Higham 10.7); it is proved for the model of binary64 arithmetic, so it is satisfiable.",
 "C115": "Unlike C109, nothing is assumed about what the machine makes of a matrix: its hypothesis is about the exact factor.  `CholSucceeds` is assumed of LAPACK (as in C114).  Unbounded numbers are returned unchanged, so their error is zero.",
 "C116": "Arguments are arrays and dictionaries of arrays; other objects own no memory in the model.  `C116_overwrites` makes the claim exact: it follows the function that overwrites all its arguments.",
 "C117": "Array objects do not overlap (no views).  The original function and functions passed to `set_preconditioner_functions` may read and write any object.",
 "C118": "Jacobians of positive definite matrices are computed by autograd and not covered.  `C118_lost` and `C118_lost_log` show that the condition on the upper bound cannot be dropped.",
 "C119": "`C119_lost` shows that the condition on the eigenvalues cannot be dropped.  `np.linalg.inv`, used if no inverse matrix is given, is not covered; how accurate `eigh` is enters as `eta`.",
 "C120": "Bound comparisons are exact and the logarithms of `C120_free` too; only conversions round.  Integers do not wrap around.  Half-precision logarithms of Boolean simplexes are not modelled (`unmodelled`).",
 "C121": "Exact arithmetic.",
 "C122": "Exact arithmetic.",
 "C123": "Float keys are finite and in the set of doubles for which repr and float are assumed faithful (as in C98); the assumption is only used for ==.",
 "C124": "Exact real arithmetic, as in C55; eigh is any function that returns eigenvalues and orthonormal eigenvectors of a symmetric matrix.",
 "C125": "Exact real arithmetic. In floating point the free vectors near the boundary overflow or are rounded to the boundary (C57 onwards).",
 "C126": "Sizes are exact real numbers. numpy's reshape is modelled with its rule for one negative entry.",
 "C127": "Exact arithmetic with the IEEE rules for infinities and NaN. flatten(free=True) is not covered: numpy's Cholesky of a matrix with NaN is implementation-dependent and unmodelled.",
 "C128": "Exact arithmetic. Complements C85, which leaves out matrices, and C37.",
 "C129": "Exact arithmetic for the sums of log-determinants. The single-level statements are C21, C43 and C45; names of leaves are C106.",
 "C130": "Exact arithmetic apart from the signs. Jacobians of matrix patterns (autograd's) are not covered, and the Jacobians are stated for leaves; containers place them in blocks (C129).",
 "C131": "Exact arithmetic for the sums of log-determinants; in floating point the order of summation matters (C118).",
 "C132": "scipy's diags, coo_matrix, block_diag, toarray and sparse products are modelled on triplets (Model/Sparse.lean); diags of an empty vector, which some versions of scipy refuse, is an empty matrix.",
 "C133": "The way numpy prints floats is a parameter; the messages of fold with free=True are not modelled with their values, and the length 0.0 of an emptied dictionary is printed as 0.",
 "C134": "The way numpy prints retnums is a parameter. C134_few_text takes positions that are not negative.",
 "C135": "Python's protocols for objects with __getitem__ only, and for mappings, are written down as relations (Model/Protocols.lean).",
 "C136": "A heap of all pattern objects (Model/Attributes.lean) is related to the patterns of Model/Pattern.lean by an inductive relation; a dictionary is not put into itself.",
 "C137": "That np.atleast_1d and np.broadcast_to do not copy arrays is assumed.",
 "C138": "That copy.copy and copy.deepcopy treat an object without special methods by its __dict__ is assumed; dictionaries that are members are trees here (their identity is in C24 to C27, C71 and C136).",
 "C139": "Values outside the model of the Cholesky decomposition (non-finite entries) may raise something else; the length of an emptied dictionary prints as 0.0, which is not modelled.",
 "C140": "Python's str of a value of the pattern entry that is not a string is a parameter; patterns of user classes are known by their JSON dictionary and by what their from_json gives, which is a pattern of the model.",
 "C141": "Masks are Boolean arrays; free is given.",
 "C142": "Rests on the model of the wrappers of C46–C52 and on C29–C31.",
 "C143": "autograd.jacobian is an arbitrary function of the transform it is given.",
 "C144": "Arguments are arrays (or dictionaries of them); other Python objects are not considered.",
 "C145": "That a free fold ignores validate_value is read off the source: the model's foldFree has no such parameter.",
 "C146": "numpy's own broadcast message is a parameter of the model."
}
