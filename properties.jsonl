{"id": "C01", "title": "Numeric free round trip, value side", "statement": "For a numeric array pattern with bounds lb < ub (each finite or infinite), every array of the pattern's shape whose entries lie strictly between the bounds is accepted by flatten(free=True), and fold(free=True) of the result is exactly the original array.", "quantifier": "all shapes, all four bound configurations, all real bounds, all strictly interior arrays", "why_tests_cant": "The value space and the bound pairs are infinite; tests sample a few random arrays and two bound pairs.", "anchors": ["paragami/numeric_array_patterns.py:_unconstrain_array", "paragami/numeric_array_patterns.py:_constrain_array", "paragami/numeric_array_patterns.py:NumericArrayPattern.fold", "paragami/numeric_array_patterns.py:NumericArrayPattern.flatten"]}
{"id": "C02", "title": "Numeric free round trip, vector side and range", "statement": "For every vector of finite numbers of length flat_length(free=True), fold(free=True) of a numeric pattern succeeds, returns an array of the pattern's shape with every entry strictly between the bounds, and flatten(free=True) of it returns exactly the vector.  So the free parameterization is a bijection between all real vectors and the strictly interior values.", "quantifier": "all shapes, bounds and finite vectors", "why_tests_cant": "Needs every real vector, not a sample; surjectivity and range are universally quantified.", "anchors": ["paragami/numeric_array_patterns.py:_constrain_array", "paragami/numeric_array_patterns.py:NumericArrayPattern.fold"]}
{"id": "C03", "title": "Values on an inclusive bound", "statement": "The bounds of a numeric pattern are documented as inclusive and validation accepts a value equal to a bound, so flatten(free=True) accepts it.  The value must survive folding back.  (True for a value at lb, and at ub when lb is infinite, via an infinite free coordinate; false for a value at ub when both bounds are finite: fold returns NaN.)", "quantifier": "all patterns with at least one finite bound, all entries equal to a bound", "why_tests_cant": "Random tests hit the boundary with probability zero, and the claim ranges over all bounds.", "anchors": ["paragami/numeric_array_patterns.py:NumericArrayPattern.validate_folded", "paragami/numeric_array_patterns.py:_constrain_array"]}
{"id": "C04", "title": "Non-free round trip, value side, for every pattern", "statement": "For every pattern (numeric, simplex, PSD, arrays and arbitrarily nested dictionaries), if flatten(v, free=False) succeeds then fold of the result with free=False and the same validate_value succeeds and returns v: same shapes and same entries under every key of the pattern, entries of v outside the pattern's keys being dropped.", "quantifier": "all constructible patterns of any nesting depth, all folded values, all validate settings", "why_tests_cant": "Quantifies over unbounded pattern trees and values.", "anchors": ["paragami/pattern_containers.py:PatternDict.fold", "paragami/pattern_containers.py:PatternDict.flatten", "paragami/pattern_containers.py:PatternArray.fold", "paragami/pattern_containers.py:PatternArray.flatten", "paragami/numeric_array_patterns.py:NumericArrayPattern", "paragami/simplex_patterns.py:SimplexArrayPattern", "paragami/psdmatrix_patterns.py:PSDSymmetricMatrixPattern"]}
{"id": "C05", "title": "Non-free round trip, vector side, for every pattern", "statement": "For every pattern without an empty container inside, if fold(x, free=False) succeeds on a vector x then flatten of the result with free=False and the same validate_value returns exactly x.", "quantifier": "all constructible patterns with no empty dictionary and no zero-size pattern array, all vectors", "why_tests_cant": "Quantifies over unbounded pattern trees and vectors.", "anchors": ["paragami/pattern_containers.py:PatternDict.flatten", "paragami/pattern_containers.py:PatternArray.flatten"]}
{"id": "C06", "title": "Lengths agree", "statement": "Whenever flatten(v, free) succeeds it returns a one-dimensional vector whose length is flat_length(free), for both values of free; and flat_length of a container is the sum of (respectively product count times) its contents' flat lengths.", "quantifier": "all constructible patterns, all folded values, both values of free", "why_tests_cant": "Unbounded pattern trees.", "anchors": ["paragami/base_patterns.py:Pattern.flat_length", "paragami/pattern_containers.py:PatternDict._update_flat_length", "paragami/pattern_containers.py:PatternArray.__init__"]}
{"id": "C07", "title": "Fold rejects wrong-size input", "statement": "fold raises ValueError when given a one-dimensional vector whose length differs from flat_length(free), for every pattern and both values of free and every validate_value setting; it never returns a value for such input.", "quantifier": "all constructible patterns, all vectors of the wrong length", "why_tests_cant": "All wrong lengths and all pattern trees.", "anchors": ["paragami/numeric_array_patterns.py:NumericArrayPattern.fold", "paragami/simplex_patterns.py:SimplexArrayPattern.fold", "paragami/psdmatrix_patterns.py:PSDSymmetricMatrixPattern.fold", "paragami/pattern_containers.py:PatternDict.fold", "paragami/pattern_containers.py:PatternArray.fold"]}
{"id": "C08", "title": "Fold rejects input that is not one-dimensional", "statement": "The argument to fold must be a 1d vector: fold raises on any array with two or more dimensions.  (True for every pattern type except SimplexArrayPattern, which accepts an (N, 1) array.)", "quantifier": "all constructible patterns, all arrays with ndim >= 2", "why_tests_cant": "All shapes and pattern trees.", "anchors": ["paragami/numeric_array_patterns.py:NumericArrayPattern.fold", "paragami/simplex_patterns.py:SimplexArrayPattern.fold", "paragami/pattern_containers.py:PatternDict.fold", "paragami/pattern_containers.py:PatternArray.fold", "paragami/psdmatrix_patterns.py:PSDSymmetricMatrixPattern.fold"]}
{"id": "C09", "title": "Free folding always lands in the constraint set", "statement": "For every pattern and every vector of finite numbers of length flat_length(free=True), fold(free=True) succeeds and validate_folded(result, validate_value=True) returns True.  In particular random() returns a valid value for every random draw.", "quantifier": "all constructible patterns with finite diagonal bounds, all finite vectors", "why_tests_cant": "Every real vector and every pattern tree.", "anchors": ["paragami/base_patterns.py:Pattern.random", "paragami/pattern_containers.py:PatternDict.fold", "paragami/pattern_containers.py:PatternArray.fold", "paragami/simplex_patterns.py:_constrain_simplex_matrix", "paragami/psdmatrix_patterns.py:_unpack_posdef_matrix"]}
{"id": "C10", "title": "Free round trip, vector side, for every pattern", "statement": "For every pattern without an empty container inside and every vector x of finite numbers of length flat_length(free=True), flatten(fold(x, free=True), free=True) returns exactly x (in exact real arithmetic).", "quantifier": "all constructible patterns without empty containers and with finite diagonal bounds, all finite vectors", "why_tests_cant": "Every real vector, unbounded pattern trees.", "anchors": ["paragami/pattern_containers.py:PatternDict", "paragami/pattern_containers.py:PatternArray", "paragami/numeric_array_patterns.py:NumericArrayPattern", "paragami/simplex_patterns.py:SimplexArrayPattern", "paragami/psdmatrix_patterns.py:PSDSymmetricMatrixPattern"]}
{"id": "C11", "title": "Free round trip, value side, for every pattern", "statement": "For every pattern and every folded value v strictly inside the constraint set (numeric entries strictly within bounds, simplex entries positive and summing to exactly one, matrices symmetric with v - diag_lb*I positive definite), flatten(v, free=True) succeeds with a finite vector and fold(free=True) of it returns v exactly.", "quantifier": "all constructible patterns without empty containers and with finite diagonal bounds, all interior values", "why_tests_cant": "Every interior value, unbounded pattern trees.", "anchors": ["paragami/pattern_containers.py:PatternDict", "paragami/pattern_containers.py:PatternArray", "paragami/numeric_array_patterns.py:NumericArrayPattern", "paragami/simplex_patterns.py:SimplexArrayPattern", "paragami/psdmatrix_patterns.py:PSDSymmetricMatrixPattern"]}
{"id": "C12", "title": "Validation means the documented constraint", "statement": "For arrays of ordinary (non-NaN) numbers, validate_folded(v, validate_value=True) returns True exactly when v has the pattern's shape and satisfies the documented constraints: entries within inclusive bounds; simplex entries non-negative and sums within 1e-12 of one; matrices symmetric with diagonal at least diag_lb; for containers, every member valid under its key/location.  With validate_value=False exactly the shapes are checked.", "quantifier": "all constructible patterns with finite diagonal bounds, all non-NaN folded values of array/dict structure", "why_tests_cant": "All values and pattern trees; both directions of the equivalence.", "anchors": ["paragami/numeric_array_patterns.py:NumericArrayPattern.validate_folded", "paragami/simplex_patterns.py:SimplexArrayPattern.validate_folded", "paragami/psdmatrix_patterns.py:PSDSymmetricMatrixPattern.validate_folded", "paragami/pattern_containers.py:PatternDict.validate_folded", "paragami/pattern_containers.py:PatternArray.validate_folded"]}
{"id": "C13", "title": "Validation rejects NaN", "statement": "A folded value containing NaN is not a legal parameter value and validate_folded(validate_value=True) reports it invalid.  (False of numeric and simplex patterns, which accept NaN because every comparison with NaN is false; true of matrices.)", "quantifier": "all numeric/simplex/PSD patterns and values containing a NaN", "why_tests_cant": "Tests never try NaN; the claim ranges over all positions and bounds.", "anchors": ["paragami/numeric_array_patterns.py:NumericArrayPattern.validate_folded", "paragami/simplex_patterns.py:SimplexArrayPattern.validate_folded", "paragami/psdmatrix_patterns.py:PSDSymmetricMatrixPattern.validate_folded"]}
{"id": "C14", "title": "Simplex fold produces probability vectors", "statement": "For every finite free vector, every simplex of SimplexArrayPattern.fold(free=True) has strictly positive entries that sum to exactly one (in exact arithmetic), and entry k is exp(a_k)/sum_j exp(a_j) with a_0 = 0, independently for each simplex in the array.", "quantifier": "all simplex sizes >= 2, array shapes and finite vectors", "why_tests_cant": "All real vectors and sizes.", "anchors": ["paragami/simplex_patterns.py:_constrain_simplex_matrix", "paragami/simplex_patterns.py:logsumexp", "paragami/simplex_patterns.py:SimplexArrayPattern.fold"]}
{"id": "C15", "title": "Simplex flatten then fold normalizes", "statement": "For every array of strictly positive entries accepted by flatten(free=True), fold(free=True) of the result is the original with each simplex divided by its own sum; so it is the original exactly when the sums are exactly one, and each entry moves by a relative amount of at most about 1e-12 otherwise.", "quantifier": "all simplex patterns, all accepted strictly positive values", "why_tests_cant": "All values within the validation tolerance.", "anchors": ["paragami/simplex_patterns.py:_unconstrain_simplex_matrix", "paragami/simplex_patterns.py:_constrain_simplex_matrix", "paragami/simplex_patterns.py:SimplexArrayPattern.validate_folded"]}
{"id": "C16", "title": "Simplex values with zeros", "statement": "Validation accepts simplexes with zero entries, so flatten(free=True) accepts them and they must survive folding back.  (True when only non-reference entries are zero; false when the first entry is zero: the result is NaN.)", "quantifier": "all simplex patterns, all values with zero entries", "why_tests_cant": "Boundary set has measure zero; ranges over every pattern of zeros.", "anchors": ["paragami/simplex_patterns.py:_unconstrain_simplex_matrix", "paragami/simplex_patterns.py:_constrain_simplex_matrix"]}
{"id": "C17", "title": "logsumexp is exact and overflow-safe", "statement": "logsumexp(mat, axis) equals log(sum(exp(mat))) along the axis for every finite input, never exponentiates a positive number, and the exponential sum whose log is taken is at least 1 and at most the axis length.", "quantifier": "all finite inputs of positive axis length", "why_tests_cant": "All real inputs; overflow safety is a universal claim about the arguments of exp.", "anchors": ["paragami/simplex_patterns.py:logsumexp"]}
{"id": "C18", "title": "PSD fold produces admissible matrices", "statement": "For every finite free vector of length n(n+1)/2, PSDSymmetricMatrixPattern.fold(free=True) returns an n x n symmetric matrix M with M - diag_lb*I positive definite (so M is positive definite and its diagonal strictly exceeds diag_lb).", "quantifier": "all sizes n, all diag_lb >= 0, all finite vectors", "why_tests_cant": "All sizes and vectors; positive definiteness is itself universally quantified.", "anchors": ["paragami/psdmatrix_patterns.py:_unpack_posdef_matrix", "paragami/psdmatrix_patterns.py:_exp_matrix_diagonal", "paragami/psdmatrix_patterns.py:PSDSymmetricMatrixPattern.fold"]}
{"id": "C19", "title": "PSD flatten succeeds exactly on the open cone", "statement": "flatten(free=True) of a symmetric matrix with diagonal at least diag_lb succeeds if and only if the matrix minus diag_lb times the identity is positive definite, and then fold(free=True) gives back the same matrix.  A valid positive definite matrix outside that set raises a linear algebra error even though validate_folded accepts it.", "quantifier": "all sizes, all real symmetric matrices", "why_tests_cant": "All matrices; requires existence and uniqueness of Cholesky factors.", "anchors": ["paragami/psdmatrix_patterns.py:_pack_posdef_matrix", "paragami/psdmatrix_patterns.py:_log_matrix_diagonal", "paragami/psdmatrix_patterns.py:PSDSymmetricMatrixPattern.flatten"]}
{"id": "C20", "title": "Lower-triangle vectorization is a bijection", "statement": "Stacking the lower triangle of an n x n matrix row by row and rebuilding a lower-triangular matrix from a vector of length n(n+1)/2 are mutually inverse; the flat position of entry (i, j), j <= i, is i(i+1)/2 + j; a vector whose length is not triangular is rejected; the symmetric unpacking returns a symmetric matrix whose lower triangle is the vector.", "quantifier": "all matrix sizes and vector lengths", "why_tests_cant": "All sizes; the size is recovered through a square root and truncation.", "anchors": ["paragami/psdmatrix_patterns.py:_sym_index", "paragami/psdmatrix_patterns.py:_vectorize_ld_matrix", "paragami/psdmatrix_patterns.py:_unvectorize_ld_matrix", "paragami/psdmatrix_patterns.py:_unvectorize_symmetric_matrix"]}
{"id": "C21", "title": "Dictionary layout", "statement": "The flat vector of a PatternDict is the concatenation, in insertion order of the keys, of the flat vectors of its members; folding gives each key exactly the fold of its own contiguous slice, so changing the coordinates of one member's slice changes no other member's folded value.", "quantifier": "all dictionaries of any size and nesting, all vectors, both values of free", "why_tests_cant": "Unbounded number of keys and all vectors.", "anchors": ["paragami/pattern_containers.py:PatternDict.fold", "paragami/pattern_containers.py:PatternDict.flatten"]}
{"id": "C22", "title": "Array layout", "statement": "In a PatternArray the element at multi-index (i1, ..., ik) is folded from, and flattened to, the contiguous block of the flat vector that starts at the row-major rank of the multi-index times the base pattern's flat length, for every array shape.", "quantifier": "all array shapes and base patterns, all multi-indices, both values of free", "why_tests_cant": "All shapes of any rank.", "anchors": ["paragami/pattern_containers.py:PatternArray._stacked_obs_slice", "paragami/pattern_containers.py:PatternArray.fold", "paragami/pattern_containers.py:PatternArray.flatten"]}
{"id": "C23", "title": "Dictionary flatten depends only on the named members", "statement": "flatten of a PatternDict gives the same result for any two folded dictionaries that agree on the pattern's keys, whatever the order of their entries and whatever extra keys they contain (plain dict or OrderedDict).", "quantifier": "all dictionary patterns and all pairs of folded dictionaries agreeing on the keys", "why_tests_cant": "All orders and extra keys.", "anchors": ["paragami/pattern_containers.py:PatternDict.flatten", "paragami/pattern_containers.py:PatternDict.validate_folded"]}
{"id": "C24", "title": "PatternDict length bookkeeping over histories", "statement": "After any sequence of creating patterns and dictionaries, setting, replacing, deleting members and locking, including sharing one dictionary between several parents, the flat_length reported by every dictionary equals the sum of the flat_lengths currently reported by its members, for both values of free.  (Holds for every history in which no dictionary is inserted into itself; a self-insertion breaks it.)", "quantifier": "all finite histories of operations on any number of shared, mutable pattern objects", "why_tests_cant": "Unbounded histories with aliasing.", "anchors": ["paragami/pattern_containers.py:PatternDict.__setitem__", "paragami/pattern_containers.py:PatternDict.__delitem__", "paragami/pattern_containers.py:PatternDict._update_flat_length", "paragami/pattern_containers.py:PatternDict.lock"]}
{"id": "C25", "title": "Locking freezes a dictionary forever", "statement": "Once a PatternDict has been locked, or has been inserted as a member of another PatternDict, every later attempt to set or delete one of its keys raises ValueError, and no later operation on any object changes its keys, members or flat lengths.", "quantifier": "all histories after the lock", "why_tests_cant": "Unbounded future histories with aliasing.", "anchors": ["paragami/pattern_containers.py:PatternDict.lock", "paragami/pattern_containers.py:PatternDict._check_lock", "paragami/pattern_containers.py:PatternDict.__setitem__"]}
{"id": "C26", "title": "Failed dictionary updates have no effect", "statement": "If setting or deleting a key of a PatternDict raises, the dictionary is unchanged.  (True for locked dictionaries and missing keys; false when the assigned value is not a pattern: the bad entry stays and the lengths are stale.)", "quantifier": "all dictionaries, keys and assigned values", "why_tests_cant": "All states and all failing operations.", "anchors": ["paragami/pattern_containers.py:PatternDict.__setitem__", "paragami/pattern_containers.py:PatternDict.__delitem__"]}
{"id": "C27", "title": "PatternDict key order", "statement": "keys() lists the keys in order of first insertion: replacing a member keeps its position, deleting and re-adding moves it to the end, and there are never duplicates; fold returns its result in that same order.", "quantifier": "all histories of set/delete on a dictionary", "why_tests_cant": "Unbounded histories.", "anchors": ["paragami/pattern_containers.py:PatternDict.__setitem__", "paragami/pattern_containers.py:PatternDict.__delitem__", "paragami/pattern_containers.py:PatternDict.keys", "paragami/pattern_containers.py:PatternDict.fold"]}
{"id": "C28", "title": "Resolution of the free argument", "statement": "For every pattern: an explicit free argument always overrides free_default; free=None uses the pattern's own free_default; when both are None fold, flatten and flat_length raise ValueError.  A container never consults its members' free_default: changing the defaults anywhere below the top changes no result.", "quantifier": "all patterns of any nesting, all assignments of free_default at every node, all inputs", "why_tests_cant": "All assignments of defaults over unbounded trees.", "anchors": ["paragami/base_patterns.py:Pattern._free_with_default", "paragami/pattern_containers.py:PatternDict.fold", "paragami/pattern_containers.py:PatternArray.fold"]}
{"id": "C29", "title": "JSON round trip", "statement": "For every pattern built from the shipped pattern classes, get_pattern_from_json(to_json()) succeeds, returns a pattern that compares equal to the original (except for a PSD pattern with diag_lb = NaN, because the NaN that is read is another object), and that pattern folds, flattens, validates and reports lengths exactly as the original does whenever free is given explicitly.", "quantifier": "all constructible patterns of any nesting", "why_tests_cant": "Unbounded pattern trees, all inputs.", "anchors": ["paragami/base_patterns.py:Pattern.to_json", "paragami/base_patterns.py:Pattern.from_json", "paragami/pattern_containers.py:get_pattern_from_json", "paragami/pattern_containers.py:PatternDict.from_json", "paragami/pattern_containers.py:PatternArray.from_json", "paragami/simplex_patterns.py:SimplexArrayPattern.from_json"]}
{"id": "C30", "title": "What JSON preserves", "statement": "The pattern read back from JSON is the original except that free_default is lost on every node that is not a numeric pattern and a locked outermost dictionary comes back unlocked; it is identical to the original exactly when there is nothing of this kind to lose, and a second round trip loses nothing more.", "quantifier": "all constructible patterns", "why_tests_cant": "Needs a characterization of exactly which attributes survive over all trees.", "anchors": ["paragami/simplex_patterns.py:SimplexArrayPattern.as_dict", "paragami/psdmatrix_patterns.py:PSDSymmetricMatrixPattern.as_dict", "paragami/pattern_containers.py:PatternDict.as_dict", "paragami/pattern_containers.py:PatternArray.as_dict", "paragami/pattern_containers.py:PatternDict.from_json"]}
{"id": "C31", "title": "Pattern equality is a sound equivalence", "statement": "== on patterns is reflexive, symmetric and transitive, and holds between patterns made from the same numbers, except that PSD patterns whose diag_lb are different NaN objects are different (with the same NaN object they are equal); equal patterns have equal flat lengths and behave identically under fold, flatten and validate_folded with explicit free.", "quantifier": "all pairs and triples of constructible patterns", "why_tests_cant": "All pairs of unbounded trees.", "anchors": ["paragami/base_patterns.py:Pattern.__eq__", "paragami/*:as_dict"]}
{"id": "C32", "title": "Equality of containers", "statement": "Two arrays are equal exactly when the array shapes agree and the base patterns have the same JSON text; two dictionaries exactly when they have the same keys in the same order and members with the same JSON texts.  This is not a congruence for ==: NumericArrayPattern((2,), lb=0) == NumericArrayPattern((2,), lb=0.0), but arrays and dictionaries of them differ.", "quantifier": "all pairs of containers with equal members", "why_tests_cant": "All pairs of unbounded trees.", "anchors": ["paragami/pattern_containers.py:PatternDict.as_dict", "paragami/pattern_containers.py:PatternArray.as_dict", "paragami/base_patterns.py:Pattern.__eq__"]}
{"id": "C33", "title": "JSON registry", "statement": "Over any sequence of register_pattern_json calls: a name already registered is rejected with ValueError and the table is unchanged unless allow_overwrite is set; otherwise the most recent accepted class for a name is the one get_pattern_from_json uses; other names are unaffected.  A JSON text with no 'pattern' entry or an unregistered name raises KeyError.", "quantifier": "all registration histories and all JSON dictionaries", "why_tests_cant": "Unbounded histories.", "anchors": ["paragami/pattern_containers.py:register_pattern_json", "paragami/pattern_containers.py:get_pattern_from_json"]}
{"id": "C34", "title": "JSON type safety", "statement": "C.from_json(text) raises ValueError whenever text was produced by to_json of a pattern of a different class; it never returns a pattern of another class.", "quantifier": "all classes and all patterns", "why_tests_cant": "All patterns times all classes.", "anchors": ["paragami/base_patterns.py:Pattern._validate_json_dict_type", "paragami/base_patterns.py:Pattern.from_json", "paragami/pattern_containers.py:PatternDict.from_json", "paragami/pattern_containers.py:PatternArray.from_json"]}
{"id": "C35", "title": "save_folded / load_folded round trip", "statement": "If save_folded(file, v, pattern, **extra) succeeds then, as long as the file is not overwritten, load_folded of the stored file returns v (on the pattern's keys), a pattern equal to the saved one, and the extra keyword data (except under keys that are another stored key followed by '.npy'), whatever other files are written in between; the npz extension is added exactly when missing on saving, and never on loading; a failing save changes no file; an extra keyword named like a parameter of save_folded raises TypeError, and so does flat_val or pattern_json if the value can be flattened.", "quantifier": "all constructible patterns, values, file names and histories of other saves", "why_tests_cant": "Unbounded patterns, values and interleaved writes.", "anchors": ["paragami/pattern_containers.py:save_folded", "paragami/pattern_containers.py:load_folded"]}
{"id": "C36", "title": "Non-free flat_indices select the marked entries", "statement": "For every pattern, boolean mask b in folded shape and value v, indexing flatten(v, free=False) with flat_indices(b, free=False) yields exactly the entries of v where b is True, in flattening order.", "quantifier": "all constructible patterns, masks and values", "why_tests_cant": "All masks over unbounded trees.", "anchors": ["paragami/*:flat_indices"]}
{"id": "C37", "title": "Free flat_indices over-approximate dependence", "statement": "If two free vectors agree on flat_indices(b, free=True) then the values folded from them agree at every entry where b is True: a coordinate not listed cannot influence a marked entry.", "quantifier": "all constructible patterns, masks, and pairs of free vectors", "why_tests_cant": "All pairs of real vectors, all masks, unbounded trees.", "anchors": ["paragami/*:flat_indices", "paragami/*:fold"]}
{"id": "C38", "title": "flat_indices are sorted, distinct and in range", "statement": "For every pattern, mask and value of free, flat_indices returns strictly increasing integers smaller than flat_length(free); it is empty when no entry is marked and, for non-free, has as many elements as there are marked entries.", "quantifier": "all constructible patterns and masks", "why_tests_cant": "All masks over unbounded trees.", "anchors": ["paragami/*:flat_indices"]}
{"id": "C39", "title": "flat_names line up with the flat vector", "statement": "For every pattern flat_names(free) has exactly flat_length(free) elements, in flattening order; for numeric arrays the i-th name is the bracketed multi-index of the i-th flat entry; a dictionary prefixes each member's names with its key.", "quantifier": "all constructible patterns without empty dictionaries", "why_tests_cant": "Unbounded trees.", "anchors": ["paragami/base_patterns.py:Pattern.flat_names", "paragami/numeric_array_patterns.py:NumericArrayPattern.flat_names", "paragami/pattern_containers.py:PatternDict.flat_names"]}
{"id": "C40", "title": "flat_names are distinct", "statement": "No two coordinates get the same flat name.  (True for leaves, arrays and dictionaries of non-dictionary members whatever the keys; false for nested dictionaries whose keys contain the delimiter; true for nested dictionaries whose keys do not.)", "quantifier": "all patterns and key sets", "why_tests_cant": "All key strings.", "anchors": ["paragami/pattern_containers.py:PatternDict.flat_names"]}
{"id": "C41", "title": "Numeric Jacobians are the derivatives", "statement": "At every strictly interior value, entry (i, j) of freeing_jacobian is the partial derivative of free coordinate i with respect to flat coordinate j, and entry (i, j) of unfreeing_jacobian is the partial derivative of flat coordinate i with respect to free coordinate j, for all bound configurations.", "quantifier": "all numeric patterns, interior values and index pairs", "why_tests_cant": "A derivative at every real point; numerical checks are approximate and sampled.", "anchors": ["paragami/numeric_array_patterns.py:_unconstrain_array_jacobian", "paragami/numeric_array_patterns.py:_constrain_array_jacobian", "paragami/numeric_array_patterns.py:NumericArrayPattern.freeing_jacobian", "paragami/numeric_array_patterns.py:NumericArrayPattern.unfreeing_jacobian"]}
{"id": "C42", "title": "Simplex Jacobians are the derivatives", "statement": "At every strictly positive simplex array value, the entries of SimplexArrayPattern.freeing_jacobian and unfreeing_jacobian are the partial derivatives of the flat-to-free and free-to-flat maps.", "quantifier": "all simplex patterns with at least one simplex, positive values summing to one, and index pairs", "why_tests_cant": "A derivative at every real point for every size.", "anchors": ["paragami/simplex_patterns.py:_constrain_simplex_jacobian", "paragami/simplex_patterns.py:_unconstrain_simplex_jacobian", "paragami/simplex_patterns.py:SimplexArrayPattern.freeing_jacobian", "paragami/simplex_patterns.py:SimplexArrayPattern.unfreeing_jacobian"]}
{"id": "C43", "title": "Container Jacobians", "statement": "The Jacobians of dictionaries and pattern arrays are block diagonal with the members' Jacobians in flattening order, have shape (free length, flat length) and (flat length, free length), and are the derivatives of the container's own flat/free maps; an empty dictionary raises ValueError.", "quantifier": "all container trees of numeric and simplex members without empty containers (unfreeing: also matrices, given that autograd.jacobian is right), all interior values (with finite diagonal bounds where there are matrices)", "why_tests_cant": "Unbounded trees and all points.", "anchors": ["paragami/pattern_containers.py:PatternDict.freeing_jacobian", "paragami/pattern_containers.py:PatternDict.unfreeing_jacobian", "paragami/pattern_containers.py:PatternArray.freeing_jacobian", "paragami/pattern_containers.py:PatternArray.unfreeing_jacobian"]}
{"id": "C44", "title": "Freeing and unfreeing Jacobians are inverse", "statement": "At every interior value freeing_jacobian @ unfreeing_jacobian is the identity of size flat_length(free=True).", "quantifier": "all trees of numeric and simplex patterns without an empty dictionary, array or simplex stack (there the code raises instead of returning a Jacobian), all interior values summing exactly to one", "why_tests_cant": "All real points and unbounded trees.", "anchors": ["paragami/*:freeing_jacobian", "paragami/*:unfreeing_jacobian"]}
{"id": "C45", "title": "Log-determinants", "statement": "For numeric patterns and nested dictionaries of them log_abs_det_freeing_jacobian is the log of the absolute determinant of freeing_jacobian, log_abs_det_unfreeing_jacobian that of unfreeing_jacobian, and the two are negatives of each other; a tree containing any other pattern class (including PatternArray) raises NotImplementedError rather than returning a number.", "quantifier": "all trees, all interior values; where log-determinant and Jacobian are compared, trees on which a Jacobian exists (no empty dictionary)", "why_tests_cant": "All real points and unbounded trees.", "anchors": ["paragami/numeric_array_patterns.py:NumericArrayPattern.log_abs_det_freeing_jacobian", "paragami/pattern_containers.py:PatternDict.log_abs_det_freeing_jacobian", "paragami/base_patterns.py:Pattern.log_abs_det_freeing_jacobian"]}
{"id": "C46", "title": "Input wrappers replace exactly the named arguments", "statement": "A TransformFunctionInput with distinct non-negative argnums called with enough arguments calls the wrapped function exactly once with the same number of positional arguments, where argument argnums[i] is folded (or flattened) by patterns[i] with free[i] and every other argument is passed through unchanged.  Bad constructions (duplicate argnums, length mismatches) raise ValueError and a missing argument raises IndexError before the function is called.", "quantifier": "all numbers of patterns, all argnums in any order, all argument tuples and functions", "why_tests_cant": "All arities and permutations.", "anchors": ["paragami/function_patterns.py:TransformFunctionInput.__init__", "paragami/function_patterns.py:TransformFunctionInput.__call__"]}
{"id": "C47", "title": "Order of patterns and argnums is irrelevant", "statement": "Permuting patterns, free and argnums together does not change the wrapped function's result on any arguments.", "quantifier": "all permutations, functions and successful calls", "why_tests_cant": "All permutations of any length.", "anchors": ["paragami/function_patterns.py:TransformFunctionInput.__call__", "paragami/function_patterns.py:TransformFunctionOutput.__call__"]}
{"id": "C48", "title": "Negative argnums do not follow Python indexing in general", "statement": "Negative argnums are accepted.  In a call with n arguments they follow Python's indexing (the replaced argument is number n + k, all others pass through) if no argnum is -1 and each negative argnum stands for an earlier argument than every non-negative one.  In every other case the call raises or the wrapped function is called with more than n arguments; with argnums=-1 it gets all arguments but the last, the transformed last one, and then all n arguments again.", "quantifier": "all lists of distinct argnums with negative ones, all arities, arguments and functions", "why_tests_cant": "All arities.", "anchors": ["paragami/function_patterns.py:TransformFunctionInput.__call__"]}
{"id": "C49", "title": "Output wrappers replace exactly the named return values", "statement": "TransformFunctionOutput returns a tuple of the same length as the wrapped function's where entry retnums[i] is transformed by patterns[i] and all others are unchanged; a single non-tuple return is transformed by the only pattern and requires retnums == [0]; too few return values raise ValueError, or AttributeError if the wrapped callable has no __name__ (for example another wrapper); an exception of the wrapped function is passed on.", "quantifier": "all functions, retnums and return tuples", "why_tests_cant": "All arities and permutations.", "anchors": ["paragami/function_patterns.py:TransformFunctionOutput.__call__"]}
{"id": "C50", "title": "Fold and flatten wrappers are inverse", "statement": "Flattening the input of a function and then folding it again (FoldFunctionInput of FlattenFunctionInput, with the same patterns, free and argnums) gives a function equal to the original on every admissible argument tuple; likewise the other way round, for outputs, and for the combined input-and-output wrappers.  Admissible are the values that survive the pattern's round trip (see C04, C05, C10, C11).", "quantifier": "all functions and admissible arguments (with finite diagonal bounds for the conversions between free and folded)", "why_tests_cant": "All functions and values.", "anchors": ["paragami/function_patterns.py:FoldFunctionInput", "paragami/function_patterns.py:FlattenFunctionInput", "paragami/function_patterns.py:FoldFunctionOutput", "paragami/function_patterns.py:FlattenFunctionOutput", "paragami/function_patterns.py:FoldFunctionInputAndOutput", "paragami/function_patterns.py:FlattenFunctionInputAndOutput"]}
{"id": "C51", "title": "Eigenvalue truncation is clamping", "statement": "truncate_eigenvalues returns a new vector of the same length whose i-th entry is evals[i] clamped to [ev_min, ev_max] (either side optional); entries already strictly inside are unchanged, order is preserved, the operation is idempotent, and the input is not modified.", "quantifier": "all real vectors and thresholds", "why_tests_cant": "All reals.", "anchors": ["paragami/optimization_lib.py:truncate_eigenvalues"]}
{"id": "C52", "title": "Eigenspace transform", "statement": "For orthonormal eigvecs, the operator returned by transform_eigenspace is linear, multiplies eigvecs[:, k] by transform_function(eigvals)[k], and is the identity on every vector orthogonal to all columns; mismatched dimensions raise ValueError.", "quantifier": "all N, K <= N, orthonormal frames, transform functions and vectors", "why_tests_cant": "All dimensions and vectors.", "anchors": ["paragami/optimization_lib.py:transform_eigenspace"]}
{"id": "C53", "title": "Matrix square roots from a Hessian", "statement": "For a square matrix whose symmetrized, truncated eigenvalues are positive, the pair of operators derived from it are mutually inverse, self-adjoint, and the first applied twice multiplies by the symmetrized matrix with truncated eigenvalues (the symmetrized matrix itself when nothing is truncated).", "quantifier": "all dimensions, matrices and thresholds with positive truncated spectrum", "why_tests_cant": "All matrices.", "anchors": ["paragami/optimization_lib.py:_get_sym_matrix_inv_sqrt_funcs"]}
{"id": "C54", "title": "Preconditioned evaluation over histories", "statement": "After any sequence of preconditioner changes ending with a preconditioner whose two functions are mutually inverse, f_c(precondition(x)) = f(x), f_c(x_c) = f(unprecondition(x_c)), and precondition and unprecondition are inverse; a new object starts with the identity; only the last setter matters.", "quantifier": "all histories of setter calls, functions and points", "why_tests_cant": "Unbounded histories.", "anchors": ["paragami/optimization_lib.py:PreconditionedFunction"]}
{"id": "C55", "title": "Hessian preconditioning whitens", "statement": "set_preconditioner_with_hessian(hessian=H) with H symmetric positive definite makes the Hessian of the preconditioned function at a point where the original function's Hessian is H equal to the identity; it raises ValueError when both or neither of x and hessian are given, and leaves the preconditioner unchanged when it raises.", "quantifier": "all dimensions, positive definite H and twice differentiable functions (stated through the quadratic form)", "why_tests_cant": "All matrices.", "anchors": ["paragami/optimization_lib.py:PreconditionedFunction.set_preconditioner_with_hessian"]}
{"id": "C56", "title": "Matrix representation of the preconditioner", "statement": "get_preconditioner(dim) @ v = unprecondition(v) and get_preconditioner_inv(dim) @ v = precondition(v) for every linear preconditioner and vector, and the two matrices are inverse when the functions are.", "quantifier": "all dimensions, linear operators and vectors", "why_tests_cant": "All vectors.", "anchors": ["paragami/optimization_lib.py:_get_matrix_from_operator", "paragami/optimization_lib.py:PreconditionedFunction.get_preconditioner", "paragami/optimization_lib.py:PreconditionedFunction.get_preconditioner_inv"]}
{"id": "C57", "title": "Optimization objective counting and logging over histories", "statement": "Over any history of evaluations, setter calls and resets, num_iterations() is the number of successful evaluations since the last counter reset, and the log is exactly the list, in order, of (iteration number, x, f(x)) for the evaluations since the last log reset whose iteration number was a multiple of the log_every in force (> 0); printing follows the same rule with print_every; f always returns the objective's value.", "quantifier": "all histories of operations", "why_tests_cant": "Unbounded histories.", "anchors": ["paragami/optimization_lib.py:OptimizationObjective"]}
{"id": "C58", "title": "Log entries record the evaluated point", "statement": "Each log entry holds the point at which the objective was evaluated.  (False when the caller later mutates the array in place: the log keeps a reference; true for every history without in-place mutation of logged arrays.)", "quantifier": "all histories of evaluations and in-place mutations", "why_tests_cant": "Unbounded histories with aliasing.", "anchors": ["paragami/optimization_lib.py:OptimizationObjective.log_value"]}
{"id": "C59", "title": "grouped_sum", "statement": "grouped_sum(x, groups, num_groups) returns, for each group g, the sum of the rows of x whose group is g (zero for empty groups); negative groups count from the end; without num_groups there is one group more than the largest says.  It raises ValueError on a length mismatch, on no groups, on a group number too large and on a negative number of groups, IndexError on a group below minus the number of groups, and returns otherwise; its registered reverse-mode derivative is the adjoint of its forward-mode derivative, which is the derivative along every curve.", "quantifier": "all lengths, group assignments and inputs", "why_tests_cant": "All sizes and assignments.", "anchors": ["paragami/autograd_supplement_lib.py:grouped_sum", "paragami/autograd_supplement_lib.py:_ungroup", "paragami/autograd_supplement_lib.py:grouped_sum_vjp", "paragami/autograd_supplement_lib.py:grouped_sum_jvp"]}
{"id": "C60", "title": "replace and its derivatives", "statement": "replace(x_sub, x, inds) returns a new vector equal to x_sub at inds (the last one for repeated indices) and to x elsewhere and leaves x unchanged; the forward-mode rules are the derivative along every curve; for x the reverse-mode rule is the adjoint of the forward-mode rule, and for x_sub it is exactly if the indices denote distinct positions (with repeated indices it is wrong).", "quantifier": "all lengths, index lists (including negative indices) and inputs", "why_tests_cant": "All index lists.", "anchors": ["paragami/autograd_supplement_lib.py:replace"]}
{"id": "C61", "title": "Sparse products and solvers differentiate consistently", "statement": "For get_sparse_product(Z) the two returned functions compute Z b and Z^T b; for get_differentiable_solver they compute the supplied solves; in both cases the registered forward rule is the derivative and the registered reverse rule is its adjoint, for both returned functions, and the reverse rules compose to all orders.  Scalars count as vectors of length one; a product with an argument of the wrong length or with three or more axes raises ValueError, as does get_sparse_product of anything but a matrix.", "quantifier": "all matrices and vectors", "why_tests_cant": "All matrices and vectors.", "anchors": ["paragami/autograd_supplement_lib.py:get_sparse_product", "paragami/autograd_supplement_lib.py:get_differentiable_solver"]}
{"id": "C62", "title": "Matrix-function forward derivatives", "statement": "The registered forward-mode rules for inv, solve (in both arguments) and slogdet are the derivatives of those functions at every invertible matrix in every direction.", "quantifier": "all dimensions, invertible matrices and directions", "why_tests_cant": "All matrices.", "anchors": ["paragami/autograd_supplement_lib.py:inv_jvp", "paragami/autograd_supplement_lib.py:jvp_solve", "paragami/autograd_supplement_lib.py:slogdet_jvp"]}
{"id": "C63", "title": "Special-function forward derivatives", "statement": "The registered forward-mode rules for gamma, gammaln, rgamma, digamma/psi and polygamma are the derivatives of those functions at every argument that is not a non-positive integer; gammasgn is locally constant there.", "quantifier": "all real arguments off the poles and all orders", "why_tests_cant": "All reals.", "anchors": ["paragami/autograd_supplement_lib.py:defjvp(sp.special.*)"]}
{"id": "C64", "title": "Sparse Hessian preconditioner", "statement": "For a sparse positive definite H with permuted Cholesky factorization L L^T = P H P^T, get_sym_matrix_inv_sqrt_funcs returns (mult_sqrt, mult_inv_sqrt) that are mutually inverse, with <mult_sqrt v, mult_sqrt w> = <v, H w>; used as a preconditioner they turn H into the identity; a dense matrix is rejected with ValueError.", "quantifier": "all dimensions, permutations and positive definite matrices", "why_tests_cant": "All matrices and permutations.", "anchors": ["paragami/sparse_preconditioners_lib.py:get_sym_matrix_inv_sqrt_funcs", "paragami/sparse_preconditioners_lib.py:_get_sparse_square_root_operators", "paragami/sparse_preconditioners_lib.py:_get_cholesky_sqrt_mat"]}
{"id": "C65", "title": "empty values", "statement": "empty(valid=True) is accepted by validate_folded with value checking, flattens in both modes (unless the pattern has an empty container inside), and has the folded shape of the pattern, for every pattern; empty_bool(b) has the folded shape with every entry b.", "quantifier": "all constructible patterns (finite diagonal bounds)", "why_tests_cant": "Unbounded trees and all bounds.", "anchors": ["paragami/*:empty", "paragami/base_patterns.py:Pattern.empty_bool", "paragami/numeric_array_patterns.py:_get_inbounds_value"]}
{"id": "C66", "title": "Triangular unpacking differentiates consistently", "statement": "The registered reverse-mode rule of the lower-triangular unpacking is the adjoint of its forward-mode rule, which is the map itself (it is linear), for every size.", "quantifier": "all sizes, vectors and cotangent matrices", "why_tests_cant": "All sizes.", "anchors": ["paragami/psdmatrix_patterns.py:_unvectorize_ld_matrix_vjp", "paragami/psdmatrix_patterns.py:_unvectorize_ld_matrix_jvp"]}
{"id": "C67", "title": "Which results share memory with arguments", "statement": "The array returned by flatten, and the value returned by fold of a free vector, share no memory with the argument: later in-place writes to one never change the other.  fold of a non-free vector returns views of its argument for every entry outside a PatternArray (a write to one is seen in the other) and copies below a PatternArray.  No two entries of a folded result share memory unless the argument's entries do.", "quantifier": "all patterns, arguments and later in-place writes", "why_tests_cant": "All writes and unbounded trees.", "anchors": ["paragami/numeric_array_patterns.py:_constrain_array", "paragami/numeric_array_patterns.py:_unconstrain_array", "paragami/numeric_array_patterns.py:NumericArrayPattern.fold", "paragami/pattern_containers.py:PatternArray.fold", "paragami/pattern_containers.py:PatternDict.fold"]}
{"id": "C68", "title": "Preconditioner check", "statement": "check_preconditioner(v, tol) raises exactly when the Euclidean distance between v and unprecondition(precondition(v)) exceeds tol; it never raises for mutually inverse functions and non-negative tol.", "quantifier": "all preconditioners, vectors and tolerances", "why_tests_cant": "All vectors.", "anchors": ["paragami/optimization_lib.py:PreconditionedFunction.check_preconditioner"]}
{"id": "C69", "title": "flat_names and the default value of free", "statement": "flat_names(free=None) names the coordinates of the vector that flatten(v, free=None) returns: it is defined whenever flat_length(None) is, and has that many elements.  (False for dictionaries, which pass None on to their members and ignore their own free_default.)", "quantifier": "all constructible patterns", "why_tests_cant": "All trees and all combinations of defaults on the nodes.", "anchors": ["paragami/pattern_containers.py:PatternDict.flat_names", "paragami/base_patterns.py:Pattern.flat_names"]}
{"id": "C70", "title": "A dictionary emptied by deletions is not like a new one", "statement": "A PatternDict that had members, all of which have been deleted, reports the float 0.0 as its flat_length (a never-filled one the integer 0), and every dictionary that contains it, at whatever depth, reports a float too.  Folding a dictionary in which a dictionary with such a length is stored succeeds for no input (with it as the first member every input of the right size raises TypeError), although the same fold succeeds with a never-filled dictionary in its place; every other dictionary folds as its tree does, deletions notwithstanding.", "quantifier": "all finite programs over any number of shared dictionaries, members, keys and inputs", "why_tests_cant": "The tests never delete the last key of a dictionary and then nest it.", "anchors": ["paragami/pattern_containers.py:234-241", "paragami/pattern_containers.py:265-293", "paragami/pattern_containers.py:320-324"]}
{"id": "C71", "title": "Sharing dictionaries is unobservable", "statement": "In any program that stores only patterns and puts no dictionary into itself, every PatternDict object stands for exactly one pattern tree that could have been built without sharing; its cached lengths are that tree's; setting, deleting and locking act on the tree of the object concerned as they would on an unshared copy, raise the same exceptions and leave every other object's tree alone (apart from locking a stored dictionary); and if no key was ever deleted, folding through the cached lengths gives the tree's result.", "quantifier": "all finite programs over any number of shared dictionaries, all inputs", "why_tests_cant": "Aliasing and cache invalidation depend on the whole history of updates; tests use a handful of unshared dictionaries.", "anchors": ["paragami/pattern_containers.py:178-241", "paragami/pattern_containers.py:265-324"]}
{"id": "C72", "title": "Thresholded Hessian preconditioning", "statement": "set_preconditioner_with_hessian(hessian=H, ev_min, ev_max) with H symmetric and truncated eigenvalues positive gives a preconditioned function whose Hessian, at the preconditioned image of a point where the original function's Hessian is H, has the eigenvectors of H and eigenvalues e / clamp(e, ev_min, ev_max); it does not depend on which eigenvectors eigh returns.", "quantifier": "all dimensions, symmetric H, thresholds with positive truncated spectrum, and twice differentiable functions", "why_tests_cant": "All matrices, thresholds and functions; tests check one random matrix numerically.", "anchors": ["paragami/optimization_lib.py:PreconditionedFunction.set_preconditioner_with_hessian", "paragami/optimization_lib.py:_get_sym_matrix_inv_sqrt_funcs", "paragami/optimization_lib.py:truncate_eigenvalues"]}
{"id": "C73", "title": "A one-dimensional Hessian is silently accepted", "statement": "Passing a vector a (for instance the diagonal of a Hessian) as hessian does not raise: it is treated as the matrix with entries (a_i + a_j)/2, which for length at least 2 is never positive definite whatever a is.", "quantifier": "all vectors, thresholds and states", "why_tests_cant": "Tests only pass square matrices.", "anchors": ["paragami/optimization_lib.py:PreconditionedFunction.set_preconditioner_with_hessian", "paragami/optimization_lib.py:_get_sym_matrix_inv_sqrt_funcs"]}
{"id": "C74", "title": "replace with a scalar", "statement": "For a scalar x_sub, which numpy broadcasts, replace and its forward-mode rule are right, but the reverse-mode rule returns one number per index instead of their sum: an array of the wrong shape (), whose entries add up to the adjoint.", "quantifier": "all lengths, lists of distinct indices, inputs and cotangents", "why_tests_cant": "All index lists and cotangents; the tests only use x_sub of the length of inds.", "anchors": ["paragami/autograd_supplement_lib.py:replace"]}
{"id": "C75", "title": "An array of arrays is an array", "statement": "PatternArray(s, PatternArray(t, base)) and PatternArray(s + t, base) behave the same: folding, flattening, validating, flat_indices, flat_length and empty accept the same arguments and return the same results. A PatternArray of NumericArrayPattern or SimplexArrayPattern over a shape without zeros is the same as the single pattern of the concatenated shape; with a zero dimension the PatternArray never flattens.", "quantifier": "all base patterns, shapes, arguments and flags", "why_tests_cant": "Equality of two implementations on every input, for every shape and base pattern.", "anchors": ["paragami/pattern_containers.py:PatternArray", "paragami/numeric_array_patterns.py:NumericArrayPattern", "paragami/simplex_patterns.py:SimplexArrayPattern"]}
{"id": "C76", "title": "Bounds in floating point: numeric patterns", "statement": "In rounded arithmetic, fold(free=True) of a numeric pattern with at most one finite bound never leaves the bounds and never makes NaN out of numbers, so its result passes validate_folded. With two finite bounds it never goes below the lower bound; for bounds of width one such as (0, 1) its result passes validate_folded. In general it can exceed the upper bound: with lb=-1.7 and ub=0.3 every free value from 40 to 700 folds to a number above 0.3, which validate_folded then refuses. Free values whose exp overflows (above 709.8) fold to NaN, which validate_folded accepts.", "quantifier": "all machines with monotone rounding (for the upper bound: binary64 with accurate exp), all shapes, bounds and free vectors", "why_tests_cant": "Every free vector and every machine number as bound; the tests use free values of ordinary size.", "anchors": ["paragami/numeric_array_patterns.py:_constrain_array", "paragami/numeric_array_patterns.py:NumericArrayPattern.fold", "paragami/numeric_array_patterns.py:NumericArrayPattern.validate_folded"]}
{"id": "C77", "title": "Simplexes in floating point", "statement": "In rounded arithmetic the entries of a folded free simplex are always between 0 and 1. For simplexes of at most 500 entries and free values between -1000 and 1000 the computed sums are within the 1e-12 tolerance, so the result passes validate_folded. The restriction is needed: free values (2**30, 2**30) fold to a simplex that validate_folded refuses.", "quantifier": "binary64 machines with exp and log accurate to a unit in the last place and any summation order (range: any machine with monotone rounding); all array shapes and free vectors", "why_tests_cant": "An error bound over all free vectors of a range, for every conforming math library.", "anchors": ["paragami/simplex_patterns.py:logsumexp", "paragami/simplex_patterns.py:_constrain_simplex_matrix", "paragami/simplex_patterns.py:SimplexArrayPattern.fold", "paragami/simplex_patterns.py:SimplexArrayPattern.validate_folded"]}
{"id": "C78", "title": "Diagonals of matrices in floating point", "statement": "_exp_matrix_diagonal computes exp(d) + d - d, which is exactly zero in binary64 for d <= -36: free vectors that differ only in such diagonal entries fold to the same matrix, and if the first one is such, flatten(free=True) of the folded matrix raises. _log_matrix_diagonal computes log(x) + x - x, which is exactly zero for x >= 2**66: flatten(free=True) stores 0 for every such entry of the Cholesky factor.", "quantifier": "binary64 machines with accurate exp and log, all sizes, bounds and free vectors", "why_tests_cant": "Loss of information over whole ranges of inputs; the tests use matrices of ordinary size.", "anchors": ["paragami/psdmatrix_patterns.py:_exp_matrix_diagonal", "paragami/psdmatrix_patterns.py:_log_matrix_diagonal", "paragami/psdmatrix_patterns.py:PSDSymmetricMatrixPattern.fold", "paragami/psdmatrix_patterns.py:PSDSymmetricMatrixPattern.flatten"]}
{"id": "C79", "title": "Free folds in floating point, for every pattern", "statement": "However arithmetic is rounded, fold(free=True) of a vector of the right length succeeds and returns a value of the pattern's shape. With monotone rounding, if the pattern has no simplexes, no two-sided bounds except of width one, and bounds that are machine numbers, a result without NaN passes validate_folded. Without rounding the model's two transcriptions of fold agree.", "quantifier": "all constructible patterns with finite diagonal bounds, all arithmetics, all free vectors", "why_tests_cant": "Every pattern tree and every rounding.", "anchors": ["paragami/pattern_containers.py:PatternDict.fold", "paragami/pattern_containers.py:PatternArray.fold", "paragami/psdmatrix_patterns.py:PSDSymmetricMatrixPattern.fold"]}
{"id": "C80", "title": "How validation rejects", "statement": "validate_folded of a simplex or matrix pattern raises ValueError exactly for arrays of the wrong shape, checked or not; numeric patterns return False instead. PatternArray.validate_folded never raises. PatternDict.validate_folded raises exactly when some member raises and all members before it are present and accepted.", "quantifier": "all constructible patterns and arrays, every validate_value", "why_tests_cant": "All shapes, and all positions of a bad member among the others.", "anchors": ["paragami/simplex_patterns.py:SimplexArrayPattern.validate_folded", "paragami/psdmatrix_patterns.py:PSDSymmetricMatrixPattern.validate_folded", "paragami/numeric_array_patterns.py:NumericArrayPattern.validate_folded", "paragami/pattern_containers.py:PatternDict.validate_folded", "paragami/pattern_containers.py:PatternArray.validate_folded"]}
{"id": "C81", "title": "Truncating complex and integer eigenvalues", "statement": "truncate_eigenvalues on complex arrays keeps, imaginary part included, the entries whose real part is strictly between the thresholds and replaces every other by the clamped real part. On integer arrays at integer thresholds it clamps. At other thresholds cut entries become the threshold rounded towards zero, so the result violates ev_min exactly if some entry is cut and ev_min is positive and not an integer, violates ev_max exactly if some entry is cut and ev_max is negative and not an integer, and never by one or more.", "quantifier": "all arrays of each dtype, all real thresholds (within int64 for integer arrays)", "why_tests_cant": "Silent dtype conversion on assignment shows only for particular combinations of sign and fraction.", "anchors": ["paragami/optimization_lib.py:truncate_eigenvalues"]}
{"id": "C82", "title": "Free transforms keep order", "statement": "For a numeric pattern, entry i of one folded free vector is below entry j of another exactly if the free entries compare that way, and the folded entries come arbitrarily close to both bounds (or infinity). Within a simplex, probabilities are ordered like the free entries with a zero in front.", "quantifier": "all constructible numeric and simplex patterns, all pairs of real free vectors and positions", "why_tests_cant": "Strict monotonicity over a continuum and every combination of bounds.", "anchors": ["paragami/numeric_array_patterns.py:_constrain_array", "paragami/simplex_patterns.py:_constrain_simplex_matrix"]}
{"id": "C83", "title": "The free vector of a matrix is its Cholesky factor", "statement": "For a PSD pattern, folding a free vector r gives L L^T + diag_lb I with L the lower-triangular matrix whose row i is r[i(i+1)/2 .. i(i+1)/2+i], diagonal exponentiated; flattening recovers the row-by-row factor with logarithms on the diagonal; and twice the sum of the diagonal entries of r is the log-determinant of the folded matrix minus diag_lb I.", "quantifier": "all matrix sizes, bounds and free vectors", "why_tests_cant": "All sizes and all real vectors; the determinant identity is an induction over the size.", "anchors": ["paragami/psdmatrix_patterns.py:_unpack_posdef_matrix", "paragami/psdmatrix_patterns.py:_pack_posdef_matrix", "paragami/psdmatrix_patterns.py:_exp_matrix_diagonal", "paragami/psdmatrix_patterns.py:_log_matrix_diagonal"]}
{"id": "C84", "title": "Chain rule for free-wrapped objectives", "statement": "FlattenFunctionInput with one pattern at position k calls the wrapped function with that argument folded, and raises what the fold raises. For a real-valued function of the folded value that is differentiable in flat coordinates with gradient g, the function wrapped with free=True is differentiable with gradient B^T g, B being the matrix unfreeing_jacobian returns.", "quantifier": "all constructible pattern trees with finite diag_lb and no empty blocks, all real free vectors, all functions differentiable there", "why_tests_cant": "Quantifies over all differentiable objectives, all trees and all points.", "anchors": ["paragami/function_patterns.py:FlattenFunctionInput", "paragami/function_patterns.py:TransformFunctionInput.__call__", "paragami/base_patterns.py:Pattern.unfreeing_jacobian"]}
{"id": "C85", "title": "Free flat indices are exact, and masks can be combined", "statement": "For trees without PSD leaves, flat_indices(mask, free=True) lists exactly the free entries that some entry selected by the mask depends on. The indices of the union of two masks are the union of the indices, in both modes; with free=False the same holds for any combination of masks entry by entry; empty_bool(True) selects all indices and empty_bool(False) none.", "quantifier": "all constructible pattern trees (without PSD leaves for exactness), all pairs of masks, all combining functions", "why_tests_cant": "All trees, all masks and all pairs of real free vectors.", "anchors": ["paragami/base_patterns.py:Pattern.flat_indices", "paragami/base_patterns.py:Pattern.empty_bool", "paragami/simplex_patterns.py:SimplexArrayPattern.flat_indices", "paragami/numeric_array_patterns.py:NumericArrayPattern.flat_indices"]}
{"id": "C86", "title": "Wrapping a function twice at different positions is wrapping it once", "statement": "Wrapping the inputs of f with some patterns and the result again with other patterns at other positions (all non-negative) gives the same outcome as wrapping f once with all of them in every call whose named arguments are there and can be transformed; in every other call both raise, whatever f is. The same for outputs of f that are tuples; for a single returned value both raise; exceptions of f are passed on by both.", "quantifier": "all lists of patterns, flags and distinct non-negative positions, all functions, arguments and keyword arguments", "why_tests_cant": "Quantifies over all functions, positions and numbers of arguments.", "anchors": ["paragami/function_patterns.py:TransformFunctionInput.__call__", "paragami/function_patterns.py:TransformFunctionOutput.__call__", "paragami/function_patterns.py:TransformFunctionInput.__init__"]}
{"id": "C87", "title": "Derivative rules for stacks of matrices", "statement": "For stacks of matrices of any leading shape the forward rule of inv is the derivative of the stack of inverses, and the sum of the forward rules of solve is the derivative of the stack of solutions, for right-hand sides that are stacks of vectors or of matrices whose leading shape broadcasts with that of the matrices and has no more axes. When the right-hand side has more axes than the matrix (one matrix, several right-hand sides), the rule for the matrix is wrong: it raises ValueError if the right-hand sides are not square, and returns -y (a^-1 g)^T instead of -a^-1 g y if they are.", "quantifier": "all leading shapes, matrix sizes, curves of matrices and right-hand sides with a velocity", "why_tests_cant": "All shapes and broadcasting combinations, all curves; a derivative is a limit.", "anchors": ["paragami/autograd_supplement_lib.py:inv_jvp", "paragami/autograd_supplement_lib.py:jvp_solve"]}
{"id": "C88", "title": "Printing and logging that raise", "statement": "OptimizationObjective.f raises exactly if the objective, the printing (if due) or the logging (if due) raises, in this order; the counter advances only if f returns; an exception of the objective or of print_value changes nothing, one of log_value leaves only the printed line. If the hooks never raise (with the shipped print_value: if the objective returns numbers or arrays without axes) histories are those of C57. If the objective returns arrays with axes, such as shape (1,), then while print_every is positive f never returns: over every history of calls, resets and changes of log_every the counter stays 0, the log stays empty and each call raises TypeError, unless the objective raises; after set_print_every(n) with n <= 0 f returns its value.", "quantifier": "all objectives, hooks, histories of method calls, intervals", "why_tests_cant": "All histories and all hooks; the blocked state is an invariant of unbounded histories.", "anchors": ["paragami/optimization_lib.py:OptimizationObjective.f", "paragami/optimization_lib.py:OptimizationObjective.print_value", "paragami/optimization_lib.py:OptimizationObjective.log_value"]}
{"id": "C89", "title": "Optimizing over free vectors is optimizing over the constraint set", "statement": "fold(free=True) is a bijection from the real vectors of the free length onto the folded values (as fold returns them) strictly inside the constraint set. Hence, for a function f with a real value at each of these, wrapped with FlattenFunctionInput(f, pattern, True, k) and then with a PreconditionedFunction after any history that leaves it with mutually inverse functions: the result returns at x_c the value of f at fold(unprecondition(x_c)), attains exactly the values of f (at precondition(flatten(w)) for each w), and x_c is a minimizer if and only if fold(unprecondition(x_c)) minimizes f among values strictly inside the constraint set (all of them, if f ignores what the pattern does not describe).", "quantifier": "all pattern trees without empty containers and with finite diagonal bounds, objectives, positions, other arguments, preconditioner histories, points", "why_tests_cant": "Minimality quantifies over all real vectors and all constrained values.", "anchors": ["paragami/function_patterns.py:FlattenFunctionInput.__call__", "paragami/optimization_lib.py:PreconditionedFunction.__call__", "paragami/base_patterns.py:Pattern.fold", "paragami/base_patterns.py:Pattern.flatten"]}
{"id": "C90", "title": "The freeing Jacobian of trees with positive definite matrices", "statement": "Where autograd applies its rules for the operations in the freeing of a matrix: freeing_jacobian(v) times unfreeing_jacobian(v) is the identity in every tree, with matrices, at every value strictly inside the constraint set. If such values depend on a parameter, with flat vectors differentiable in it, then their free vectors are differentiable and their derivative is freeing_jacobian(v) times the derivative of the flat vectors. For a matrix the columns of the entries (i, j) and (j, i) are equal; with two or more rows the result is not the Jacobian of the map from flat vectors to free vectors, which exists but ignores the upper triangle.", "quantifier": "all pattern trees without empty containers and with finite diagonal bounds, interior values, normed parameter spaces and families of values", "why_tests_cant": "Derivatives are limits over all families; a finite difference in a single entry gives a different matrix, so a numerical test of the Jacobian fails although the method is right along valid matrices.", "anchors": ["paragami/base_patterns.py:Pattern.freeing_jacobian", "paragami/base_patterns.py:Pattern._freeing_transform", "paragami/psdmatrix_patterns.py:_pack_posdef_matrix", "paragami/pattern_containers.py:PatternDict.freeing_jacobian", "paragami/pattern_containers.py:PatternArray.freeing_jacobian"]}
{"id": "C91", "title": "What the text of a pattern shows", "statement": "If numbers print as distinct texts without commas, closing parentheses and line breaks, then two patterns without nested dictionaries, and with keys free of closing brackets and line breaks, have the same str() exactly when they have the same classes (up to the numeric subclass), shapes, sizes, bounds, base patterns, and keys in the same order. str() never shows the numeric subclass, default_validate, free_default or the lock. With nested dictionaries it is ambiguous: the later members of an inner dictionary print exactly like members of the outer one. Patterns that compare equal can have different texts, and patterns with equal texts can compare different.", "quantifier": "all pattern trees, keys, bounds and ways to print floats", "why_tests_cant": "That no two of infinitely many patterns share a text, and that every nested dictionary has a differently nested one with the same text, are statements about all pairs of patterns.", "anchors": ["paragami/numeric_array_patterns.py:NumericArrayPattern.__str__", "paragami/simplex_patterns.py:SimplexArrayPattern.__str__", "paragami/psdmatrix_patterns.py:PSDSymmetricMatrixPattern.__str__", "paragami/pattern_containers.py:PatternDict.__str__", "paragami/pattern_containers.py:PatternArray.__str__"]}
{"id": "C92", "title": "Reading what git describe prints", "statement": "From a description TAG-NUM-gHEX, with or without -dirty, exactly the tag without its prefix, the number, the abbreviated name and the state of the tree are read, whatever hyphens the tag has; the date is written in ISO 8601. Conversely a tag is only read from such a description. The style git-describe-long gives the description back, but for the prefix. A bare HEX gives no tag, the number of commits as distance and the first seven characters of the full name. Any other description with a hyphen, or a tag without the prefix, gives the version 'unknown' in every style, even one that does not exist.", "quantifier": "all outputs of git, tags, prefixes, numbers, names, dates and styles", "why_tests_cant": "Tags may contain hyphens, digits and hexadecimal letters in any arrangement; that the regular expression has only one match for each of the infinitely many descriptions cannot be tried out.", "anchors": ["paragami/_version.py:git_pieces_from_vcs", "paragami/_version.py:run_command", "paragami/_version.py:render_git_describe_long", "paragami/_version.py:render"]}
{"id": "C93", "title": "What a version shows", "statement": "In the configured style pep440-post, two commits described by tags without '+', or by none, have the same version exactly when they have the same tag (no tag counting as '0'), distance and state of the tree, are both or neither exactly at a tag and, if not, have the same abbreviated name. With '+' in tags it is ambiguous: every version is also that of some tag. A tag that is only the prefix is shown as no tag in every style. In the styles pep440 and pep440-post the version has at most one '+' if the tag has at most one. Eight styles are accepted, whatever the commit, the others raise ValueError. The style pep440 shows everything, including whether there is a tag, for tags without '+' and names without dots. pep440-old shows tag, distance and state of the tree and hides the name; pep440-pre shows tag and distance and hides the name and the state of the tree; git-describe shows the tag alone at a tag, else what git showed, and without tags the abbreviated name.", "quantifier": "all commits, tags and styles", "why_tests_cant": "That no two of infinitely many commits share a version, and that '+' in tags breaks this for every one, are statements about all pairs.", "anchors": ["paragami/_version.py:render", "paragami/_version.py:render_pep440", "paragami/_version.py:render_pep440_pre", "paragami/_version.py:render_pep440_post", "paragami/_version.py:plus_or_dot"]}
{"id": "C94", "title": "The version of an archive, of a checkout, and of neither", "statement": "In an archive of a commit with tags that start with 'v', the version is the least of them by code points without the 'v' (so v0.10 rather than v0.9), whatever git, the directory and the order of the references; with other tags only it is '0+unknown' with an error; without tags the least branch that starts with 'v' and has a digit is taken for a tag, and without such branches it is '0+unknown'. In a checkout after vTAG the version is TAG.postN[.dev0]+gHEX, or TAG at the tag itself. Without git it is '0+unknown', unless the directory or one of the two above it has a name that starts with 'None'. Importing the package never fails because of the version if git can count commits and give the date where it knows the directory; otherwise it raises TypeError or AttributeError.", "quantifier": "all keyword expansions, outputs and failures of git, and directories", "why_tests_cant": "A test runs in one checkout with one git; the failures occur in other environments, as a git that answers only some of the commands.", "anchors": ["paragami/_version.py:get_versions", "paragami/_version.py:git_versions_from_keywords", "paragami/_version.py:git_pieces_from_vcs", "paragami/_version.py:versions_from_parentdir", "paragami/__init__.py"]}
{"id": "C95", "title": "Derivatives of objectives and the counter", "statement": "grad, hessian and hessian_vector_product of an OptimizationObjective leave no trace in it: counter, log, printed lines and settings after any history of method calls are those of the history without the derivatives, and what a derivative gives does not depend on the history, if what the objective function gives does not depend on its own state. The method f itself can be differentiated (as OptimizationObjective(inner.f) does) only when it does not print: whenever a line is due it raises TypeError and changes nothing, so with the default print_every = 1 no derivative of the outer objective can ever be computed. With printing off every derivative counts in inner as many iterations as autograd calls the function and logs boxes instead of arrays, so that inner.num_iterations() counts derivative evaluations, contrary to its documentation.", "quantifier": "all objective functions, also with state and exceptions, all histories of method calls, any number of calls by autograd", "why_tests_cant": "All histories of calls on nested objectives; the blocked state is an invariant of unbounded histories.", "anchors": ["paragami/optimization_lib.py:OptimizationObjective.__init__", "paragami/optimization_lib.py:OptimizationObjective.f", "paragami/optimization_lib.py:OptimizationObjective.num_iterations", "paragami/optimization_lib.py:OptimizationObjective.print_value"]}
{"id": "C96", "title": "Edited JSON texts", "statement": "Reordering the entries of the dictionaries in a JSON text, at any depth and also inside nested texts, does not change what get_pattern_from_json and from_json give, so the text of a pattern that went through a formatter is still read as that pattern. Unknown entries raise TypeError for the numeric and matrix patterns and are ignored by simplexes, arrays and dictionaries. Missing entries: for numeric and matrix patterns the constructor's default is taken, or TypeError is raised for shape, length or size; for the others KeyError is raised, except for the contents of an empty dictionary. The text of anything but a dictionary raises TypeError; a name that is not a string raises TypeError (list, dictionary) or KeyError in get_pattern_from_json, and ValueError in from_json of a shipped class.", "quantifier": "all JSON values, all registries, all patterns", "why_tests_cant": "All reorderings at all depths of all texts; all dictionaries with a wrong set of entries.", "anchors": ["paragami/pattern_containers.py:get_pattern_from_json", "paragami/base_patterns.py:Pattern.from_json", "paragami/simplex_patterns.py:SimplexArrayPattern.from_json", "paragami/pattern_containers.py:PatternDict.from_json", "paragami/pattern_containers.py:PatternArray.from_json"]}
{"id": "C97", "title": "Folding arrays of any dimension", "statement": "For every pattern but a SimplexArrayPattern, fold of a number or an array without axes is fold of the vector with this one entry, and an array with two or more axes raises ValueError, in the free and in the non-free direction and with any validate_value. A SimplexArrayPattern compares len of its argument: an array without axes raises TypeError; an array whose first axis is as long as the array has entries, such as a column, is treated as the vector of its entries; every other array raises ValueError.", "quantifier": "all patterns, all arrays of all shapes, free or not, every validate_value", "why_tests_cant": "All shapes of arrays for all nestings of patterns.", "anchors": ["paragami/simplex_patterns.py:SimplexArrayPattern.fold", "paragami/numeric_array_patterns.py:NumericArrayPattern.fold", "paragami/psdmatrix_patterns.py:PSDSymmetricMatrixPattern.fold", "paragami/pattern_containers.py:PatternArray.fold", "paragami/pattern_containers.py:PatternDict.fold"]}
{"id": "C98", "title": "Round trips of numeric patterns in floating point", "statement": "With binary64 arithmetic and exp and log accurate to a unit in the last place, flatten(free=True) of numeric patterns followed by fold(free=True) gives every entry v back up to 2**-53 * (|v| + (2 |log(v - lb)| + 8) (v - lb)) above a lower bound, the same below an upper bound, and up to 2**-53 * (|v| + 8 (v - lb) + (3 |log(v - lb)| + 3 |log(ub - v)| + 13) (v - lb)(ub - v)/(ub - lb)) between two bounds; without bounds it is exact. fold followed by flatten gives every free entry t back up to 2**-53 * (2 |t| + 10 + 3 |bound| exp(-t)) for a lower bound (exp(t) for an upper bound), as long as the bound is at most 2**40 times as large as the distance to it; whereas all free values t with exp(t) <= 2**-57 |bound| fold to the bound itself, which flattens to -inf (+inf for an upper bound).", "quantifier": "all shapes; all machine numbers as values and bounds, at most 2**1000 in size and with a distance to the bound of at least 2**-1000 (2**300 and 2**-300 with two bounds); all free vectors with entries up to 690 in size; for the lost free values all bounds between 2**-1000 and 2**1000 in size; all machines that satisfy the accuracy assumptions", "why_tests_cant": "Error bounds over all doubles and all accurate libraries; a test sees one library and a few values.", "anchors": ["paragami/numeric_array_patterns.py:_constrain_array", "paragami/numeric_array_patterns.py:_unconstrain_array", "paragami/numeric_array_patterns.py:NumericArrayPattern.fold", "paragami/numeric_array_patterns.py:NumericArrayPattern.flatten"]}
{"id": "C99", "title": "Floating point against exact arithmetic for numeric patterns", "statement": "With binary64 arithmetic and exp and log accurate to a unit in the last place, the computed fold(free=True) of a numeric pattern differs from the exact one entry by entry by at most 2**-53 * (|v| + 5 |v - bound|) with one finite bound and 2**-53 * (|v| + 14 (v - lb)) with two, v the exact entry; the computed flatten(free=True) differs from the exact one by at most 2**-53 * (2 |y| + 3) with one finite bound, y the exact entry, and by 2**-53 * (3 |log(v - lb)| + 3 |log(ub - v)| + 7) with two.", "quantifier": "all shapes; all machine numbers as values and bounds, at most 2**1000 in size and with a distance to the bound of at least 2**-1000 (2**300 and 2**-300 with two bounds); all free vectors with entries up to 690 in size (60 with two bounds, which are at least 2**-200 apart); all machines that satisfy the accuracy assumptions", "why_tests_cant": "Error bounds over all doubles and all accurate libraries.", "anchors": ["paragami/numeric_array_patterns.py:_constrain_array", "paragami/numeric_array_patterns.py:_unconstrain_array", "paragami/numeric_array_patterns.py:NumericArrayPattern.fold", "paragami/numeric_array_patterns.py:NumericArrayPattern.flatten"]}
{"id": "C100", "title": "Simplexes in floating point, entry by entry", "statement": "With binary64 arithmetic and exp and log accurate to a unit in the last place, for simplexes of k <= 500 entries: logsumexp of numbers of size at most B <= 300 is within 2**-53 * (3 B + 2 k + 31) of the exact one; every entry of fold(free=True) is within 2**-53 * (5 B + 2 k + 45) times the exact entry of it, B the size of the free values; flatten(free=True) of accepted probabilities whose logarithms are at most M in size is within 2**-53 * (6 M + 7) of the exact free values; flatten followed by fold divides every simplex by its sum up to a relative error of 2**-53 * (22 M + 2 k + 70) in every entry; and fold followed by flatten gives the free values back up to 2**-53 * (22 B + 4 k + 150).", "quantifier": "all numbers of simplexes, all shapes, all free vectors (B from 1 to 300, to 100 for the round trip), all probabilities with sums within 1e-13 of one (M up to 210, from 1 to 140 for the round trip), all machines that satisfy the accuracy assumptions", "why_tests_cant": "Error bounds over all doubles and all accurate libraries; a test sees one library and compares with a tolerance that hides small probabilities.", "anchors": ["paragami/simplex_patterns.py:logsumexp", "paragami/simplex_patterns.py:_constrain_simplex_matrix", "paragami/simplex_patterns.py:_unconstrain_simplex_matrix", "paragami/simplex_patterns.py:SimplexArrayPattern.fold", "paragami/simplex_patterns.py:SimplexArrayPattern.flatten"]}
{"id": "C101", "title": "JSON texts character by character", "statement": "For every pattern, to_json gives a text of printable ASCII characters only, whatever characters the keys hold. get_pattern_from_json, and from_json of the pattern's class, read this text, and every other way to write the same JSON value (white space, escapes, repeated keys), as the pattern with exactly the things JSON forgets forgotten; two patterns have the same text exactly if JSON keeps the same of both. Every text of a pattern from which at least one character at the end is missing raises ValueError, never a wrong pattern, and so does every text of a pattern followed by anything but white space. More generally json.loads returns a value exactly if the text is a way to write this value in the JSON grammar (with NaN and Infinity), and any other text, unless it has an escaped surrogate, makes get_pattern_from_json and from_json raise ValueError. A text naming a class registered by a user is passed on to that class unchanged. The only assumption is that repr writes floats with a fraction or an exponent and that float reads them back.", "quantifier": "all patterns of any depth, all keys (any characters, surrogate pairs included), all layouts, all lengths of the part missing, all registries, all contents of user-defined from_json", "why_tests_cant": "Nested texts escape the escapes of the texts inside; only an argument over all texts shows that no key, depth or cut can turn one pattern into another.", "anchors": ["paragami/base_patterns.py:Pattern.to_json", "paragami/base_patterns.py:Pattern.from_json", "paragami/pattern_containers.py:get_pattern_from_json", "paragami/pattern_containers.py:PatternDict.as_dict", "paragami/pattern_containers.py:PatternDict.from_json", "paragami/pattern_containers.py:PatternArray.as_dict", "paragami/pattern_containers.py:PatternArray.from_json"]}
{"id": "C102", "title": "JSON texts grow exponentially with the nesting", "statement": "Because containers put the JSON texts of their members as strings into their own, the text of a pattern whose containers are nested d deep has at least 2**(d + 3) characters.", "quantifier": "all patterns, all depths", "why_tests_cant": "A statement about all depths; tests stop at two or three levels, where nothing is noticed.", "anchors": ["paragami/base_patterns.py:Pattern.to_json", "paragami/pattern_containers.py:PatternDict.as_dict", "paragami/pattern_containers.py:PatternArray.as_dict"]}
{"id": "C103", "title": "Dictionaries with keys that are not strings", "statement": "A PatternDict accepts any hashable keys (strings, Booleans, integers, floats, None, tuples). Apart from texts, everything it does with them is what it would do if the keys were renamed to strings, equal keys (such as True, 1 and 1.0) to the same string and others to different strings: assigning and deleting members, flat_length, validate_folded, fold (of arrays of the right length), flatten, empty, empty_bool, random and flat_indices return the same values under the corresponding keys or raise exceptions of the same class; so all other claims about them carry over, for instance the round trips. What needs strings fails with TypeError as soon as one key is not a string: str, the message about a vector of the wrong length (so that fold raises TypeError instead of ValueError), and flat_names (unless the member under the key has no entries, or a dictionary is empty). to_json fails with TypeError only if a key is a tuple; with numbers, Booleans or None as keys it writes a text which get_pattern_from_json cannot read: it raises KeyError. In that text the list of keys is given with numbers, Booleans and null, and each member stands under its key written as a string (true, false, null, or the number); of keys written in the same way, such as 1 and \"1\", only the last one's member remains.", "quantifier": "all nestings of dictionaries with any keys, and all other patterns in them; all vectors and folded values; all renamings that give two keys the same name exactly if they are equal in Python", "why_tests_cant": "The tests use strings as keys, at most a few of them; the claim is about every method with every combination of keys and values.", "anchors": ["paragami/pattern_containers.py:PatternDict", "paragami/base_patterns.py:Pattern.to_json", "paragami/pattern_containers.py:get_pattern_from_json"]}
{"id": "C104", "title": "What OptimizationObjective prints", "statement": "A finite value of the objective is printed with exactly eight decimals and no superfluous zeros in front; the printed number is the closest such number, at most 5e-9 away, the even one of two equally close; a minus sign is printed exactly for negative values, even before zeros. No other text has these properties. The digits are all zeros exactly for values of at most 5e-9 in absolute value. Larger values never print as smaller numbers, so if a later line shows a larger number the objective did become larger. The printed text has one line break per printed evaluation; two histories that print the same text printed for the same iterations, each time for the same special value (inf, -inf, nan) or for values at most 1e-8 apart.", "quantifier": "all real values and special values, all histories of operations", "why_tests_cant": "The tests do not look at the text; halfway values, very large and very small ones, and the reading of whole outputs need all numbers and all histories.", "anchors": ["paragami/optimization_lib.py:OptimizationObjective.print_value", "paragami/optimization_lib.py:OptimizationObjective.f"]}
{"id": "C105", "title": "Exactly which values survive a free round trip", "statement": "Take any pattern without empty containers and any value that validate_folded accepts and whose matrices have no infinite entries.  If some matrix less diag_lb on the diagonal is not positive definite, flatten(free=True) raises a linear algebra error.  Otherwise fold(flatten(v, free=True), free=True) succeeds and returns v with these changes only: entries on the upper one of two finite bounds become NaN, simplexes with a NaN or with a zero in front become all NaN, other simplexes are divided by their sums.  So v comes back unchanged exactly when no entry is on the upper one of two finite bounds and every simplex is all NaN or has a positive first entry and a sum of exactly one.  The result is accepted again, and further round trips do not change it.", "quantifier": "all patterns of any depth with finite diagonal bounds and without empty containers, all accepted values (NaN and infinite numbers included) with finite matrices, all validate_value settings", "why_tests_cant": "The boundary of the constraint set of a tree has exponentially many faces; whether a value is lost depends on every entry of every leaf.", "anchors": ["paragami/base_patterns.py:Pattern.flatten", "paragami/numeric_array_patterns.py:_unconstrain_array", "paragami/simplex_patterns.py:_unconstrain_simplex_matrix", "paragami/psdmatrix_patterns.py:_pack_posdef_matrix", "paragami/pattern_containers.py:PatternDict.flatten"]}
{"id": "C106", "title": "flat_names for every tree, with and without free", "statement": "Call the patterns that are not dictionaries, reached through dictionaries, the leaves.  flat_names(free) returns exactly when no dictionary above the leaves is empty and every leaf can be named: free is given, or the leaf has a free_default of its own, or it is numeric.  The result is the concatenation of the leaves' own names in the given mode, or without free in each leaf's own default mode, with the keys on the way in front; the free_default of dictionaries plays no part.  The only other failure is the ValueError about free.  For a pattern with free_default b, the number of names without free equals flat_length(None) exactly when every leaf has the same length in the mode it is named in as in mode b; if all leaves that are not numeric have the default b, flat_names(None) equals flat_names(b).", "quantifier": "all patterns, all values of free, all delimiters", "why_tests_cant": "Every combination of defaults on the nodes of every tree.", "anchors": ["paragami/pattern_containers.py:PatternDict.flat_names", "paragami/base_patterns.py:Pattern.flat_names", "paragami/numeric_array_patterns.py:NumericArrayPattern.flat_names"]}
{"id": "C107", "title": "Exactly what validation accepts, NaN and infinities included", "statement": "validate_folded(v, validate_value=True) returns true exactly when v has the pattern's structure and shapes and: every numeric entry is NaN or between the bounds; every simplex has no negative entry and either contains a NaN or consists of real numbers with a sum within 1e-12 of one; every matrix has no NaN, is symmetric, and has a diagonal of at least diag_lb (infinite entries are accepted); containers memberwise.  In particular no value with a NaN in a matrix is ever accepted.", "quantifier": "all patterns with finite diagonal bounds, all values including NaN and infinities", "why_tests_cant": "Comparisons with NaN are false, so whether a NaN passes depends on how every check is written and on the other entries of the same simplex; all positions in all trees.", "anchors": ["paragami/numeric_array_patterns.py:NumericArrayPattern.validate_folded", "paragami/simplex_patterns.py:SimplexArrayPattern.validate_folded", "paragami/psdmatrix_patterns.py:PSDSymmetricMatrixPattern.validate_folded", "paragami/pattern_containers.py:PatternDict.validate_folded", "paragami/pattern_containers.py:PatternArray.validate_folded"]}
{"id": "C108", "title": "Matrices in floating point: how far folds and round trips are off, and when the value is lost", "statement": "On binary64 to nearest even with a matrix product and a Cholesky factorization that are accurate in the usual sense: (1) folding a free vector into an n-by-n matrix differs from the exact fold, entry by entry, by at most 2**-53 * ((3n+17) * s + |m|) plus an underflow term, where m is the exact entry and s the product of rows i and j of the factor's sizes, |y| below the diagonal and exp(y) + |y| on it; (2) if flattening a matrix of machine numbers (diagonal within 2**80 of diag_lb) gives a finite free vector, folding it gives a symmetric matrix whose lower triangle is the flattened one up to 2**-53 * ((8n+19) * s' + |m|) plus an underflow term, where on the diagonal s' uses (1 + exp y) * (exp y + |y|); (3) if the first diagonal entry exceeds diag_lb by 2**132 or more, its logarithm is absorbed by log(x) + x - x, and the matrix that comes back has about 1 + diag_lb there, whatever the entry was.", "quantifier": "all matrix sizes up to 1000 (2**20 for the fold), all diag_lb up to 2**1000, all machines with the stated accuracy, all free vectors (up to 330 on the diagonal and 2**480 below it) and matrices of machine numbers (up to 2**900, computed free diagonal up to 600)", "why_tests_cant": "An error bound is a statement about all rounding patterns at all sizes; tests use small well-scaled matrices with a loose tolerance.", "anchors": ["paragami/psdmatrix_patterns.py:_exp_matrix_diagonal", "paragami/psdmatrix_patterns.py:_log_matrix_diagonal", "paragami/psdmatrix_patterns.py:_unpack_posdef_matrix", "paragami/psdmatrix_patterns.py:_pack_posdef_matrix", "paragami/psdmatrix_patterns.py:PSDSymmetricMatrixPattern.fold", "paragami/psdmatrix_patterns.py:PSDSymmetricMatrixPattern.flatten"]}
{"id": "C109", "title": "How far folding and round-tripping a whole value in floating point is from exact", "statement": "Take any pattern, however nested, whose bounds are machine numbers of moderate size (at most 2**300, two-sided intervals at least 2**-200 wide, simplexes of at most 500 probabilities, matrices of at most 2**20 rows) and any free vector of the right length of machine numbers between -B and B with 1 <= B <= 60.  Then fold(free=True) in binary64 to nearest even and in exact arithmetic both return a value of the pattern's structure and shapes, without NaN or infinities, and every entry computed is within an explicit distance of the exact one: equal for unbounded entries, 2**-53 * (|v| + 5 * distance to the bound) with one bound, 2**-53 * (|v| + 14 * (v - lb)) with two, a relative 2**-53 * (5B + 2k + 45) for k probabilities, and 2**-53 * ((3n + 17) * n * (exp(B) + B)**2 + |v|) plus an underflow term for an n-by-n matrix.  Conversely take any value of such a pattern (no empty arrays of patterns, no empty dictionaries) away from the bounds: numbers of size at most 2**300 and at least 2**-300 from each bound, probabilities of at least exp(-B) whose rows sum to one within 1e-13, symmetric matrices of at most 1000 rows whose computed free vector exists and is at most B, 1 <= B <= 140; dictionary keys in any order.  Then flatten(free=True) succeeds, fold(free=True) of its result succeeds, and every entry is back within an explicit distance: unchanged when unbounded; 2**-53 * (|v| + (2|log(v - lb)| + 8)(v - lb)) with a lower bound, likewise with an upper, a corresponding bound with both; a relative 2**-53 * (22B + 2k + 1000) for k probabilities; 2**-53 * ((8n + 19) n ((1 + exp(B))(exp(B) + B))**2 + |v|) plus an underflow term for matrices.", "quantifier": "all pattern trees with moderate bounds, all free vectors of moderate size, all values away from the bounds, all machines with the stated accuracy", "why_tests_cant": "A bound on rounding errors for all inputs and all nestings cannot be sampled; tests compare to a tolerance at a few points.", "anchors": ["paragami/pattern_containers.py:PatternDict.fold", "paragami/pattern_containers.py:PatternArray.fold", "paragami/numeric_array_patterns.py:_constrain_array", "paragami/simplex_patterns.py:_constrain_simplex_matrix", "paragami/psdmatrix_patterns.py:_unpack_posdef_matrix", "paragami/pattern_containers.py:PatternDict.flatten", "paragami/pattern_containers.py:PatternArray.flatten", "paragami/numeric_array_patterns.py:_unconstrain_array", "paragami/simplex_patterns.py:_unconstrain_simplex_matrix", "paragami/psdmatrix_patterns.py:_pack_posdef_matrix"]}
{"id": "C110", "title": "Log-determinants are the change of variables for densities", "statement": "For a numeric pattern, or nested dictionaries of them (none empty), the map from free vectors to flat vectors is a bijection from all real vectors onto the flat vectors strictly inside the constraint set, and log_abs_det_unfreeing_jacobian is the correction for densities: for every function f, the integral of f over the constraint set equals the integral over all real vectors y of f(unfreed y) * exp(log_abs_det_unfreeing_jacobian at y), one side exists if and only if the other does, and the same holds for nonnegative functions without integrability.  Conversely freeing is the inverse bijection and log_abs_det_freeing_jacobian is its correction.", "quantifier": "all trees of dictionaries of numeric patterns, all integrands", "why_tests_cant": "Integrals over unbounded sets of arbitrary functions, in any dimension.", "anchors": ["paragami/numeric_array_patterns.py:NumericArrayPattern.log_abs_det_unfreeing_jacobian", "paragami/numeric_array_patterns.py:NumericArrayPattern.log_abs_det_freeing_jacobian", "paragami/pattern_containers.py:PatternDict.log_abs_det_unfreeing_jacobian", "paragami/pattern_containers.py:PatternDict.log_abs_det_freeing_jacobian"]}
{"id": "C111", "title": "The free parameterization is analytic", "statement": "For every pattern tree (positive definite matrices included, with finite diagonal bounds and no empty blocks), the map from free vectors to flat vectors is given everywhere by an analytic function that is injective and has an injective derivative at every point; near every flat vector it reaches, the map from flat vectors to free vectors is defined, analytic, and undoes it; and the flat vectors reached are those of the values strictly inside the constraint set.  Consequently a function wrapped by FlattenFunctionInput with free=True has, near the free vector of such a value, as many continuous derivatives (any number, infinitely many, or analytic) as the same function wrapped with free=False has near the flat vector.", "quantifier": "all pattern trees with finite diagonal bounds, all free vectors, all interior values, all orders of differentiability", "why_tests_cant": "Derivatives of every order at every point of maps of any dimension, and the absence of kinks cannot be sampled.", "anchors": ["paragami/numeric_array_patterns.py:_unconstrain_array", "paragami/numeric_array_patterns.py:_constrain_array", "paragami/simplex_patterns.py:_unconstrain_simplex_matrix", "paragami/simplex_patterns.py:_constrain_simplex_matrix", "paragami/psdmatrix_patterns.py:_pack_posdef_matrix", "paragami/psdmatrix_patterns.py:_unpack_posdef_matrix", "paragami/function_patterns.py:FlattenFunctionInput"]}
{"id": "C112", "title": "How sensitive the free vector of a matrix is, and folding then flattening in floating point", "statement": "Let M = L L^T + diag_lb I, with L lower triangular with positive diagonal, and let rho bound the absolute row sums of the inverse of L.  Every symmetric matrix within eps of M, entry by entry, with 16 n rho^2 eps <= 1 can be flattened with free=True; the diagonal entries of its free vector differ from those of M by at most 2 rho^2 eps, and the others by at most 2 rho^2 eps times the absolute sum of their row of L.  In floating point, folding a free vector t and flattening the result either raises or gives a finite vector that is t up to 3 rho^2 eps and the rounding of the logarithm on the diagonal, and up to 2 rho^2 eps times the row sum elsewhere, where eps is 2^-53 ((8 n + 20) S + |diag_lb|) (and an underflow term) and S is the largest sum of squares of a row of sizes of the factor.", "quantifier": "all sizes (n <= 1000 in floating point), all factors, all perturbations, all free vectors in range, every arithmetic with the stated accuracy", "why_tests_cant": "The bound holds for every direction of perturbation and every arithmetic; ill-conditioned matrices are rare in random tests.", "anchors": ["paragami/psdmatrix_patterns.py:_pack_posdef_matrix", "paragami/psdmatrix_patterns.py:_unpack_posdef_matrix", "paragami/psdmatrix_patterns.py:PSDSymmetricMatrixPattern.flatten", "paragami/psdmatrix_patterns.py:PSDSymmetricMatrixPattern.fold"]}
{"id": "C113", "title": "Folding and then flattening a free vector of a whole pattern in floating point", "statement": "Fold a free vector of machine numbers between -B and B (1 <= B <= 60) with any pattern tree without empty containers, whose bounds are machine numbers of moderate size, and flatten the result with free=True, all in floating point.  The fold succeeds and what it returns passes validation.  Flattening returns a free vector of the same length that agrees with the first one entry by entry: for numbers bounded below by a, |u' - u| is at most 2^-53 (2 |u| + 10 + 3 |a| exp(-u)); for numbers between a and b, at most 2^-53 (2 ((|a| + |b|) / (b - a) + 14) (exp(u) + exp(-u) + 2) + 6 |log(b - a)| + 6 |u|); for simplexes of size k, at most 2^-53 (22 B + 4 k + 150); for n by n matrices, at most the explicit bound freeError, which grows with the squared size (1 + B exp(B))^(2 n) of the inverse factor.  The only exception it can raise is one of the Cholesky routine.", "quantifier": "all pattern trees with moderate bounds (as in C109) that do not swallow the free values: single bounds of at most 2**40 exp(-B), ((|a| + |b|)/(b - a) + 14) (exp(B) + exp(-B) + 2) at most 2**40 for two bounds, matrices of at most 1000 rows whose error bound is below one; all free vectors in range, all validate_value arguments, every arithmetic with the stated accuracy", "why_tests_cant": "The bounds hold for every vector and every arithmetic; cancellation near a bound is rare in random tests.", "anchors": ["paragami/base_patterns.py:Pattern.fold", "paragami/pattern_containers.py:PatternDict.fold", "paragami/pattern_containers.py:PatternDict.flatten", "paragami/pattern_containers.py:PatternArray.flatten", "paragami/numeric_array_patterns.py:_constrain_array", "paragami/numeric_array_patterns.py:_unconstrain_array", "paragami/simplex_patterns.py:SimplexArrayPattern.flatten", "paragami/psdmatrix_patterns.py:PSDSymmetricMatrixPattern.flatten"]}
{"id": "C114", "title": "Folding and then flattening a free vector in floating point does not raise", "statement": "In the situation of C113, if the Cholesky routine does not raise for matrices that are positive definite by a margin of 8 n (n + 2) rounding errors of the largest diagonal entry, then flattening the folded free vector raises nothing: it always returns a free vector within the bounds of C113.", "quantifier": "all pattern trees with the bounds of C113, all free vectors in range, all validate_value arguments, every arithmetic with the stated accuracy", "why_tests_cant": "Whether rounding makes a matrix indefinite depends on the size of the inverse factor; tests see only well-conditioned matrices.", "anchors": ["paragami/base_patterns.py:Pattern.fold", "paragami/pattern_containers.py:PatternDict.fold", "paragami/pattern_containers.py:PatternDict.flatten", "paragami/pattern_containers.py:PatternArray.flatten", "paragami/numeric_array_patterns.py:_constrain_array", "paragami/numeric_array_patterns.py:_unconstrain_array", "paragami/simplex_patterns.py:SimplexArrayPattern.flatten", "paragami/psdmatrix_patterns.py:PSDSymmetricMatrixPattern.flatten"]}
{"id": "C115", "title": "Flattening a whole value in floating point", "statement": "Take a value of any pattern tree without empty containers that is away from the bounds: machine numbers of moderate size at least 2^-300 from every bound; probabilities of at least exp(-B) whose sums are within 1e-13 of one; matrices L @ L.T + diag_lb I with |log L_ii| <= B and |L_ij| <= B, small enough for the error bound to be below one.  Flattening it with free=True in floating point succeeds, and gives a vector of the same length as exact arithmetic, entry by entry close: for one bound |y - u| is at most 2^-53 (2 |u| + 3); for bounds a and b at most 2^-53 (6 |log(b - a)| + 3 |u| + 12); for simplexes at most 2^-53 (6 B + 7); for matrices at most the explicit bound flattenError.  Folding the computed vector again, in floating point, returns the value up to the bounds of C109 (for B <= 24).", "quantifier": "all pattern trees with moderate bounds (as in C109), B from 1 to 60, all values away from the bounds, all validate_value arguments, every arithmetic with the stated accuracy", "why_tests_cant": "The bounds hold for every value and every arithmetic, including trees of any depth; tests compare a handful of values with loose tolerances.", "anchors": ["paragami/pattern_containers.py:PatternDict.flatten", "paragami/pattern_containers.py:PatternArray.flatten", "paragami/numeric_array_patterns.py:_unconstrain_array", "paragami/numeric_array_patterns.py:NumericArrayPattern.flatten", "paragami/simplex_patterns.py:_unconstrain_simplex_matrix", "paragami/simplex_patterns.py:SimplexArrayPattern.flatten", "paragami/psdmatrix_patterns.py:_pack_posdef_matrix", "paragami/psdmatrix_patterns.py:PSDSymmetricMatrixPattern.flatten"]}
{"id": "C116", "title": "Which arrays function wrappers pass on", "statement": "Suppose the wrapped function writes to its arguments in place.  With FoldFunctionInput, and with FlattenFunctionInput of free values, the arrays passed at the named positions are never changed: the function gets copies.  With FlattenFunctionInput of non-free values the function gets views of the caller's vector, so exactly the entries outside PatternArrays can be overwritten.  Arguments that are not named, and keyword arguments, are passed on as they are.  The same for results: an output wrapper hands out exactly those arrays of the wrapped function that it does not transform, and views of those it folds as non-free values; everything else is new, and no array is changed.  Wrapping a function that does not write to its arguments gives such a function.", "quantifier": "all patterns and wrappers with non-negative positions, all arguments and memories, all functions that write only to their arguments", "why_tests_cant": "All functions, all memories and unbounded trees; aliasing bugs do not show in returned values.", "anchors": ["paragami/function_patterns.py:TransformFunctionInput.__call__", "paragami/function_patterns.py:TransformFunctionOutput.__call__", "paragami/numeric_array_patterns.py:NumericArrayPattern.fold", "paragami/pattern_containers.py:PatternArray.fold", "paragami/pattern_containers.py:PatternDict.fold"]}
{"id": "C117", "title": "Which arrays a PreconditionedFunction holds on to", "statement": "set_preconditioner_matrix(a, a_inv) keeps references: after later in-place writes to a, unprecondition and __call__ multiply by what a contains then, and precondition by what a_inv contains then; if a_inv was not given, precondition keeps using the inverse of the old contents, and then the two operators are inverse to each other (as check_preconditioner finds out) exactly if a holds its old contents.  set_preconditioner_with_hessian keeps no reference: later writes to the Hessian have no effect.  With the identity preconditioner the original function gets the caller's own array and can overwrite it; with a matrix or a Hessian it gets a new one.  After set_preconditioner_functions the methods call the two functions with the caller's own array and the original function gets the object a_times returned.  A setting call that raises leaves the preconditioner as it was.  As long as nobody writes to an array, every history of calls, checks and settings gives the results of the value-level model for the contents of the arrays, and writes to no array.", "quantifier": "all matrices, histories of uses and in-place writes, original functions and vectors", "why_tests_cant": "All histories and matrices; tests set a preconditioner and use it without writing to the matrix again.", "anchors": ["paragami/optimization_lib.py:PreconditionedFunction.set_preconditioner_matrix", "paragami/optimization_lib.py:PreconditionedFunction.set_preconditioner_with_hessian", "paragami/optimization_lib.py:PreconditionedFunction.set_preconditioner_functions", "paragami/optimization_lib.py:PreconditionedFunction.check_preconditioner", "paragami/optimization_lib.py:PreconditionedFunction.set_identitity_preconditioner", "paragami/optimization_lib.py:PreconditionedFunction.__call__", "paragami/autograd_supplement_lib.py:get_sparse_product"]}
{"id": "C118", "title": "Jacobians in floating point", "statement": "For values at least 2**-300 away from the bounds, freeing_jacobian computed in floating point has the shape and the zeros of the exact Jacobian and every entry within 7 * 2**-53 of the exact one, relative to its size.  unfreeing_jacobian has entries within (2600 + 10 * kappa) * 2**-53 if no value is nearer to the upper one of two bounds than 1 / kappa of the interval, and no probability that near to one.  The log determinants of n numbers in dictionaries with m members are within n * (439 + 425 * (n + m)) * 2**-53 and n * (5625 + 20 * kappa + 425 * (n + m)) * 2**-53 of the exact ones.  The condition on kappa is needed: for a value strictly between two bounds whose distance from the upper bound is at most 2**-56 of its distance from the lower bound, the entry of unfreeing_jacobian is zero and log_abs_det_unfreeing_jacobian is minus infinity, although the exact ones are a positive number and a number.", "quantifier": "all patterns with moderate bounds (as in C109) and without positive definite matrices (for log determinants: nested dictionaries of numeric patterns with n + m at most 2**20), all values inside with probabilities of at least exp(-690) (exp(-340) for unfreeing), kappa up to 2**40, all sufficiently accurate machines, binary64 among them", "why_tests_cant": "All values near and far from the bounds; tests compare Jacobians with autograd at a few points, to a tolerance.", "anchors": ["paragami/numeric_array_patterns.py:_unconstrain_array_jacobian", "paragami/numeric_array_patterns.py:_constrain_array_jacobian", "paragami/numeric_array_patterns.py:NumericArrayPattern.log_abs_det_unfreeing_jacobian", "paragami/numeric_array_patterns.py:NumericArrayPattern.log_abs_det_freeing_jacobian", "paragami/simplex_patterns.py:_constrain_simplex_jacobian", "paragami/simplex_patterns.py:_unconstrain_simplex_jacobian", "paragami/pattern_containers.py:PatternDict.freeing_jacobian", "paragami/pattern_containers.py:PatternArray.unfreeing_jacobian"]}
{"id": "C119", "title": "Preconditioners in floating point", "statement": "The operator of transform_eigenspace, computed in floating point, is within (2n + 2k + 4) * 2**-53 of v + U @ ((d - 1) * (U.T @ v)), relative to the sizes of the terms that are added up; without rounding it is equal to it.  If the eigenvalue bounds of set_preconditioner_with_hessian are between 4**-p and 4**p, or there are none and the eigenvalues of a symmetric Hessian are, then check_preconditioner accepts the preconditioner for all vectors of size up to V and all tolerances of at least 30 * n**2 * (1 + g**2 * 2**p)**2 * (2**-53 + eta) * V, where eta is how far the eigenvectors that eigh returns are from orthonormal and g bounds the sums of their rows and columns.  Some such condition is needed: if an eigenvector is an axis, as for diagonal Hessians, and its eigenvalue is at least 2**110, unprecondition sets that entry of every vector to zero; if it is at most 2**-110, precondition does; and check_preconditioner raises ValueError for all vectors whose entry on that axis is twice the tolerance.  A preconditioner given as a matrix a with an inverse b is accepted if a @ b is near the identity.", "quantifier": "all Hessians with up to 2**19 rows and finite entries up to 2**1000, all vectors up to 2**60, all tolerances, all sufficiently accurate machines, binary64 among them, all eigh that return nearly orthonormal eigenvectors", "why_tests_cant": "All Hessians, conditioned well or badly, and all vectors; tests check one random vector with a few random matrices.", "anchors": ["paragami/optimization_lib.py:transform_eigenspace", "paragami/optimization_lib.py:truncate_eigenvalues", "paragami/optimization_lib.py:_get_sym_matrix_inv_sqrt_funcs", "paragami/optimization_lib.py:PreconditionedFunction.set_preconditioner_with_hessian", "paragami/optimization_lib.py:PreconditionedFunction.set_preconditioner_matrix", "paragami/optimization_lib.py:PreconditionedFunction.check_preconditioner"]}
{"id": "C120", "title": "Data types of arrays", "statement": "flatten(v, free=False) returns a vector of the largest data type (bool < int < float) among the arrays that the pattern names, with the entries of v converted to it; it fails exactly if flattening the bare numbers fails, with the same error.  fold(x, free=False) keeps the data type of the vector, except that the arrays of PatternArrays without items are float arrays.  Folding the vector of flatten with the same validate_value succeeds, all arrays of the result have the data type of the vector, and the numbers are those of v if and only if no array of v is a float array or all integers in v are floating point numbers.  In double precision integers up to 2**53 always survive; an odd integer beyond 2**53 does not survive in a dictionary that also has a float array, even an empty one.  flatten(v, free=True) has the largest type among the types of the arrays of unbounded numeric patterns and float for every other array; its numbers are those of flattening v converted to floats.", "quantifier": "all patterns built through the API whose bounds are floating point numbers, all values with Boolean, integer and float arrays, all validate_value, all sane machines, binary64 among them", "why_tests_cant": "All integers, all mixtures of data types and all nestings; tests use small numbers and float arrays.", "anchors": ["paragami/pattern_containers.py:PatternDict.flatten", "paragami/pattern_containers.py:PatternDict.fold", "paragami/pattern_containers.py:PatternArray.fold", "paragami/numeric_array_patterns.py:NumericArrayPattern.flatten", "paragami/numeric_array_patterns.py:_unconstrain_array"]}
{"id": "C121", "title": "Second derivatives, stationary points and convexity under freeing", "statement": "The flat vectors of the values strictly inside the constraint set of a pattern form a convex set.  Wrap a real-valued function of a folded value with FlattenFunctionInput, once with free=False and once with free=True.  If near the flat vector of v the first is a function with gradient g and Hessian H, then near the free vector of v the second is a function with gradient B'g and Hessian B'HB + sum_j g_j T_j, where B is what unfreeing_jacobian returns and T_j is the Hessian of entry j of the flat vector as a function of the free vector.  At every stationary point of the second function the sum is zero, even if g is not (simplexes, matrices), so that the Hessian is B'HB there, which is positive definite if H is.  If the first function is convex strictly inside the constraint set, the second has no stationary points other than global minima, although it need not be convex.", "quantifier": "all patterns built through the API with finite diagonal bounds and no empty blocks, all values strictly inside, all positions, all functions with the derivatives in question", "why_tests_cant": "All trees of patterns, all values and all twice differentiable functions; a test evaluates a few Hessians numerically.", "anchors": ["paragami/function_patterns.py:FlattenFunctionInput", "paragami/base_patterns.py:Pattern.unfreeing_jacobian", "paragami/numeric_array_patterns.py:_constrain_array", "paragami/simplex_patterns.py:_constrain_simplex_matrix", "paragami/psdmatrix_patterns.py:_unpack_posdef_matrix"]}
{"id": "C122", "title": "Sparsity of gradients and Hessians with respect to free vectors", "statement": "Let a real-valued function of a folded value be a sum of terms, each of which depends only on the entries marked in a Boolean mask of its own.  Wrapped with FlattenFunctionInput(f, pattern, free=True) it is a sum of terms, each of which depends only on the free coordinates listed in flat_indices(mask, free=True).  The gradient of a term is zero at all other coordinates, and an entry (i, j) of the Hessian of the sum can be non-zero only if i and j are both listed for one of the masks.", "quantifier": "all patterns built through the API with finite diagonal bounds and no empty containers, all masks of the right structure, all numbers of terms, all functions", "why_tests_cant": "All trees, masks and functions; a test checks the zeros of a few Hessians.", "anchors": ["paragami/base_patterns.py:Pattern.flat_indices", "paragami/pattern_containers.py:PatternDict.flat_indices", "paragami/pattern_containers.py:PatternArray.flat_indices", "paragami/function_patterns.py:FlattenFunctionInput"]}
{"id": "C123", "title": "True, 1 and 1.0 are one key, and == of dictionaries", "statement": "Keys of a PatternDict that are equal in Python are one key, whatever their types. Assigning under a key equal to an old one replaces the member and leaves the old key, with its type and place; any other key is added last. Deleting removes the one key that is equal to the given one, or raises KeyError. What fold, empty, empty_bool and random return has the keys of the pattern with the same types and in the same order. Two PatternDicts are equal (==) exactly if their keys are equal, in the same order, and their members have the same data and classes, where in members that are dictionaries the keys must also be of the same types: {True: p} == {1: p}, but {'a': {True: p}} != {'a': {1: p}}. The comparison raises TypeError if some member has a tuple as a key. A PatternDict does not equal a pattern of another class, and two patterns of other classes are equal exactly if they have the same class and data. Equal dictionaries fold, flatten and validate in the same way.", "quantifier": "all nestings of dictionaries with strings, Booleans, integers, finite floats, None and tuples as keys, and all other patterns in them; all updates", "why_tests_cant": "The tests compare dictionaries with strings as keys; the claim is about all pairs of trees and all mixtures of key types.", "anchors": ["paragami/pattern_containers.py:PatternDict.__setitem__", "paragami/pattern_containers.py:PatternDict.__delitem__", "paragami/pattern_containers.py:PatternDict.as_dict", "paragami/base_patterns.py:Pattern.__eq__"]}
{"id": "C124", "title": "Optimizing a preconditioned function", "statement": "If the two functions of a PreconditionedFunction are inverse to each other, it has the same values as the original function, and unprecondition and precondition map the minimizers of one to those of the other. For a preconditioner given by an invertible matrix A, the gradient and the Hessian are multiplied as Aᵀ∇f and AᵀHA, and the Newton steps of the preconditioned function lead, after unprecondition, to the same points as those of the function. With set_preconditioner_with_hessian and a positive definite Hessian at x, one gradient step of length one from precondition(x) is the Newton step of the function at x; for a quadratic function such a step leads from every point to its only minimizer. If the Hessian at another point is between a and b times the Hessian used, all eigenvalues of the Hessian of the preconditioned function at its image are between a and b.", "quantifier": "all dimensions, all preconditioners of the stated kinds, all functions with the stated derivatives, all starting points", "why_tests_cant": "The tests check on one quadratic function that the preconditioned Hessian is the identity; the claim is about all functions, points and steps.", "anchors": ["paragami/optimization_lib.py:PreconditionedFunction.__call__", "paragami/optimization_lib.py:PreconditionedFunction.set_preconditioner_with_hessian", "paragami/optimization_lib.py:PreconditionedFunction.precondition", "paragami/optimization_lib.py:PreconditionedFunction.unprecondition"]}
{"id": "C125", "title": "Minima on the boundary, and convex functions", "statement": "Call a value admissible if it satisfies the constraints including their boundaries: entries on the bounds, probabilities that are zero, singular matrices. Its flat vector folds with free=False, validated or not. The flat vectors of admissible values are exactly the limits of flat vectors of values strictly inside. A sequence of free vectors whose flat vectors approach a vector that is not strictly inside grows beyond all bounds. If a function of the flat vector is continuous on the admissible vectors, then the function of the free vector built by FlattenFunctionInput with free=True has the same lower bounds, comes arbitrarily near to every value on the boundary, and approaches a lower bound that is not attained strictly inside only for free vectors that grow beyond all bounds. If the function of the flat vector is convex, every local minimum over the free vectors is a global one, and if it is strictly convex there is at most one, without any assumption on derivatives.", "quantifier": "all patterns with finite diagonal bounds and without empty blocks, all functions, argument positions, other arguments, sequences and points", "why_tests_cant": "The claim is about limits, and about all free vectors at once: no finite number of calls can show that a minimum is not attained or that there is no other local minimum.", "anchors": ["paragami/function_patterns.py:FlattenFunctionInput.__call__", "paragami/pattern_containers.py:PatternDict.fold", "paragami/numeric_array_patterns.py:_constrain_array", "paragami/simplex_patterns.py:_constrain_simplex_matrix", "paragami/psdmatrix_patterns.py:_unpack_posdef_matrix"]}
{"id": "C126", "title": "Sizes and shapes that are not natural numbers", "statement": "PSDSymmetricMatrixPattern accepts every finite size. For a size above -1 the flat length, validation, empty, flatten, and fold with free=False are those of the pattern of size int(size). The free length is int(size * (size + 1) / 2) of the size before truncation: it is right, and then fold, flat_indices and flat_names are too, exactly when size * (size + 1) is less than two above the product for int(size). Otherwise (for example size 2.5) flat_length(free=True) is too large, fold with free=True raises ValueError for every argument, and flatten with free=True returns vectors of another length than flat_length(free=True). Such a pattern is nevertheless == to the pattern made from its JSON, which folds free vectors as the pattern of size int(size). For a size of -1 or less, validate_folded, flatten, empty and fold with free=False raise ValueError for all arguments, but for size -(m+1) fold with free=True is that of the pattern of size m. An infinite size raises OverflowError and NaN raises ValueError, also as simplex_size. The constructor of numeric arrays raises for every shape with a negative entry. SimplexArrayPattern truncates simplex_size and requires the result to be 2 or more; it and PatternArray accept negative entries in array_shape, and then every value is rejected, and fold and flatten raise ValueError for all vectors in both parameterizations. empty of a PatternArray with one negative entry and no zero in its shape returns an array without entries that validate_folded rejects, and raises ValueError otherwise. Without negative entries all is as for natural numbers.", "quantifier": "all finite, infinite and NaN sizes, all shapes of integers, all diagonal bounds, base patterns, arrays, vectors and settings", "why_tests_cant": "Whether the free length is right depends on where the size lies between two integers, and the claims that nothing can be folded or flattened are about all arrays of all shapes.", "anchors": ["paragami/psdmatrix_patterns.py:PSDSymmetricMatrixPattern.__init__", "paragami/psdmatrix_patterns.py:PSDSymmetricMatrixPattern.fold", "paragami/simplex_patterns.py:SimplexArrayPattern.__init__", "paragami/simplex_patterns.py:SimplexArrayPattern.fold", "paragami/pattern_containers.py:PatternArray.__init__", "paragami/pattern_containers.py:PatternArray.empty", "paragami/numeric_array_patterns.py:NumericArrayPattern.__init__"]}
{"id": "C127", "title": "Infinite and NaN bounds on the diagonal", "statement": "PSDSymmetricMatrixPattern accepts diag_lb = inf and diag_lb = NaN for every size. With inf, validating validate_folded accepts exactly the symmetric matrices without NaN whose diagonal entries are all inf; with NaN it accepts all symmetric matrices without NaN, whatever their diagonal. fold(free=True) of a finite vector returns the matrix that the pattern with diag_lb = 0 returns, with the diagonal replaced by diag_lb; validation accepts it for inf, and rejects it for NaN unless the size is 0 or nothing is checked. Vectors that differ in the last entry only are folded to the same matrix, so for a positive size no function at all is an inverse of fold(free=True). What empty(valid=True) returns is rejected by a validating validate_folded, except for sizes 0 and 1 with inf and for size 0 with NaN.", "quantifier": "all sizes, all finite free vectors, all matrices of floats, all settings", "why_tests_cant": "The accepted matrices and the free vectors that are folded to the same matrix are infinite sets, and that no inverse exists is a claim about all functions.", "anchors": ["paragami/psdmatrix_patterns.py:PSDSymmetricMatrixPattern.__init__", "paragami/psdmatrix_patterns.py:PSDSymmetricMatrixPattern.validate_folded", "paragami/psdmatrix_patterns.py:PSDSymmetricMatrixPattern.fold", "paragami/psdmatrix_patterns.py:PSDSymmetricMatrixPattern.empty"]}
{"id": "C128", "title": "Which free coordinates the entries of a matrix depend on", "statement": "For a PSDSymmetricMatrixPattern with finite diag_lb, the entry (i, j) of fold(y, free=True) depends on exactly the free coordinates i(i+1)/2 + k and j(j+1)/2 + k with k <= min(i, j): changing any other one never changes the entry, and for each of these there are two vectors that differ in it only and fold to matrices with different entries (i, j). flat_indices(mask, free=True) lists all free coordinates whenever the mask has a marked entry (the code's comment says this is probably too many). The list has no superfluous coordinate exactly if for every a some marked entry (i, j) has min(i, j) = a.", "quantifier": "all sizes, all finite diag_lb, all entries, all masks", "why_tests_cant": "That an entry does not depend on a coordinate is a claim about all pairs of real vectors, for every size and every mask.", "anchors": ["paragami/psdmatrix_patterns.py:PSDSymmetricMatrixPattern.flat_indices", "paragami/psdmatrix_patterns.py:PSDSymmetricMatrixPattern.fold", "paragami/psdmatrix_patterns.py:_unpack_posdef_matrix"]}
{"id": "C129", "title": "Nested dictionaries are the sequence of their leaves", "statement": "Let the leaves of a pattern be the patterns in its nested dictionaries that are not dictionaries, in order, each with the keys that lead to it. flatten(v, free) of the whole succeeds with x exactly if no dictionary is empty, v[k1][k2]... is there for every leaf, each leaf flattens what is there, and x is the vectors of the leaves one after the other. fold(x, free) succeeds exactly if x is made of consecutive parts that the leaves can fold, each as long as the leaf's flat_length, and the result has at each leaf what the leaf folds from its own part. Without empty dictionaries, the freeing and unfreeing Jacobians are block diagonal with the Jacobians of the leaves as blocks, and log_abs_det_freeing_jacobian and log_abs_det_unfreeing_jacobian are the sums over the leaves (there is one exactly if every leaf is there and has one). So key names and grouping do not matter: two patterns with the same leaves in the same order, with values that agree at the leaves, have the same flat lengths, flat values, Jacobians and log-determinants, fold the same vectors, and fold them to values that agree at the leaves.", "quantifier": "all patterns that can be built with any nesting of dictionaries, all values, all vectors, free or not, any validate_value; for the Jacobians, leaves whose Jacobians are matrices", "why_tests_cant": "A test has one nesting depth and one set of keys; the claim relates all ways of grouping the same leaves, with the offsets that each level computes for itself.", "anchors": ["paragami/pattern_containers.py:PatternDict.flatten", "paragami/pattern_containers.py:PatternDict.fold", "paragami/pattern_containers.py:PatternDict.freeing_jacobian", "paragami/pattern_containers.py:PatternDict.unfreeing_jacobian", "paragami/pattern_containers.py:PatternDict.log_abs_det_freeing_jacobian", "paragami/pattern_containers.py:PatternDict.log_abs_det_unfreeing_jacobian"]}
{"id": "C130", "title": "The sign of zero", "statement": "numpy has two zeros. With bounds that are not -0.0, fold, flatten and validate_folded give, for values and vectors with negative zeros, the same verdicts, messages and errors and the same numbers up to signs of zeros as with positive zeros, whichever zero np.max picks. The same holds for unfreeing_jacobian and both log-determinants of numeric patterns with any bounds, and for the unfreeing Jacobian of simplexes. freeing_jacobian is the only place where the sign shows: an entry is -inf instead of inf for the value -0.0 at a lower bound 0.0 and for the value 0.0 at an upper bound -0.0, and the column of an entry -0.0 of a simplex has the opposite signs; everything else is unchanged. Values that fold has made are never such values.", "quantifier": "all patterns, all values and vectors of any shape whose zeros have any signs, free or not, any validate_value; for the Jacobians, the entry-wise transforms of numeric patterns with lb < ub and of simplex rows of any length", "why_tests_cant": "Comparisons in tests treat the two zeros as equal, so they see neither the agreement nor the exceptions; the claim covers every mixture of signs.", "anchors": ["paragami/numeric_array_patterns.py:_unconstrain_array", "paragami/numeric_array_patterns.py:_unconstrain_array_jacobian", "paragami/numeric_array_patterns.py:_constrain_array", "paragami/numeric_array_patterns.py:_constrain_array_jacobian", "paragami/simplex_patterns.py:logsumexp", "paragami/simplex_patterns.py:_unconstrain_simplex_jacobian", "paragami/psdmatrix_patterns.py:_exp_matrix_diagonal", "paragami/psdmatrix_patterns.py:_unpack_posdef_matrix"]}
{"id": "C131", "title": "The order of the keys", "statement": "Take two patterns that have the same leaves (C129) under the same keys, inserted in any order at any level. There is one permutation of the coordinates for free and one for other vectors, depending only on the two patterns, that carries everything over: flatten(v) of the second is flatten(v) of the first with its entries permuted, for every value v; a vector that the first folds is, permuted, folded by the second, to a value with the same entries at every leaf; flat_names are permuted in the same way; and the rows and columns of freeing_jacobian and unfreeing_jacobian are permuted. flat_length and both log-determinants are the same, for infinite and NaN ones too.", "quantifier": "all patterns that can be built without empty dictionaries, nested to any depth, with the same leaves in any order; all values, vectors, modes, delimiters and validate_value; for the Jacobians, values for which those of the leaves are matrices of the right sizes", "why_tests_cant": "Tests fix one order of keys and compare with vectors written in that order; the claim is about all orders at once and says that one permutation serves all values, names and derivatives.", "anchors": ["paragami/pattern_containers.py:PatternDict.flatten", "paragami/pattern_containers.py:PatternDict.fold", "paragami/pattern_containers.py:PatternDict.flat_names", "paragami/pattern_containers.py:PatternDict.freeing_jacobian", "paragami/pattern_containers.py:PatternDict.unfreeing_jacobian", "paragami/pattern_containers.py:PatternDict.log_abs_det_freeing_jacobian", "paragami/pattern_containers.py:PatternDict.log_abs_det_unfreeing_jacobian"]}
{"id": "C132", "title": "Sparse storage", "statement": "The argument sparse of freeing_jacobian and unfreeing_jacobian changes neither the entries nor the exceptions, and the class of the result depends only on it and on the class of the pattern: with sparse=False a SimplexArrayPattern returns an np.matrix where everything else returns an ndarray, with sparse=True a numeric pattern returns a dia_matrix where everything else returns a coo_matrix. A returned coo_matrix stores no position twice and none outside the matrix, and it stores at most as many entries as there are pairs of a flat and a free coordinate of the same number, simplex or matrix. The functions of get_sparse_product depend on the matrix only: the order of the stored entries, repeated positions and stored zeros do not matter.", "quantifier": "all patterns, nested to any depth, all values, both values of sparse, scipy versions that store the zeros of dense blocks and those that do not, any autograd.jacobian that returns matrices of the right size; all sparse matrices stored in any way, all right-hand sides", "why_tests_cant": "Tests compare the dense form of a few Jacobians; stored entries, repeated positions and the class of the result are not visible there.", "anchors": ["paragami/base_patterns.py:Pattern.freeing_jacobian", "paragami/base_patterns.py:Pattern.unfreeing_jacobian", "paragami/numeric_array_patterns.py:NumericArrayPattern.freeing_jacobian", "paragami/simplex_patterns.py:SimplexArrayPattern.freeing_jacobian", "paragami/simplex_patterns.py:SimplexArrayPattern.unfreeing_jacobian", "paragami/pattern_containers.py:PatternDict.freeing_jacobian", "paragami/pattern_containers.py:PatternArray.unfreeing_jacobian", "paragami/autograd_supplement_lib.py:get_sparse_product"]}
{"id": "C133", "title": "Texts of the exceptions of patterns", "statement": "The message of validate_folded is empty exactly when the value is valid. For a PatternArray of the right shape it gives the position of the first element that is not valid and repeats the message of that element, and both can be read off it; for the wrong shape it calls the shape of the value the expected one and the expected shape the one it got. The message of a PatternDict names the first missing key, but for the first member that is not valid it repeats that member's message and never the key, so renaming the keys changes nothing. fold raises the exception of the first element or member that cannot be folded unchanged, so its message has neither position nor key; for a vector of the right length it is the rule of one of the leaves, and for a vector of the wrong length what is said depends on the class of the pattern. flatten raises ValueError with the message of validate_folded. For a matrix of the wrong shape validate_folded raises ValueError with the shape it should have, and that passes through dictionaries unchanged; otherwise the message of a matrix is about its diagonal, with the bound, or about its symmetry.", "quantifier": "all patterns, nested to any depth, all values and vectors, any way of printing floats, validate_value None, True or False", "why_tests_cant": "Tests use assertRaisesRegex on a few messages of single patterns; which element a message speaks of depends on the position of the first failure in arbitrary nesting.", "anchors": ["paragami/numeric_array_patterns.py:NumericArrayPattern.validate_folded", "paragami/psdmatrix_patterns.py:PSDSymmetricMatrixPattern.validate_folded", "paragami/simplex_patterns.py:SimplexArrayPattern.validate_folded", "paragami/pattern_containers.py:PatternDict.validate_folded", "paragami/pattern_containers.py:PatternArray.validate_folded", "paragami/pattern_containers.py:PatternDict.fold", "paragami/pattern_containers.py:PatternArray.fold"]}
{"id": "C134", "title": "Texts of the exceptions of TransformFunctionOutput", "statement": "When the wrapped function returns one value and retnums is a single position other than 0, the message contains a literal pair of braces and speaks of multiple retnums; with two or more positions the exception is numpy's and that message never appears. When the wrapped function returns too few values, the message contains two literal pairs of braces where the name and the number of values should be, and the name where retnums should be, so it is the same for all retnums, all patterns and any number of values. Otherwise the texts change neither what is returned nor the classes of the exceptions.", "quantifier": "all constructed TransformFunctionOutput objects, all names, any values returned by the wrapped function, any way of printing retnums", "why_tests_cant": "Tests check that ValueError is raised and not what it says.", "anchors": ["paragami/function_patterns.py:TransformFunctionOutput.__call__"]}
{"id": "C135", "title": "Iterating over a PatternDict", "statement": "PatternDict has __getitem__ and keys but neither __iter__ nor __contains__. Iterating over one (for, list, unpacking) therefore always ends with KeyError: with n the least natural number that is not a key, the members with the keys 0, ..., n-1 are produced and then KeyError(n) is raised; with strings as keys that is KeyError(0) at once. x in d is never False: it is True if x is or equals one of those members, and raises KeyError(n) if not, also when x is a key. dict(d) never raises and has the members under their keys, in order, and f(**d) works exactly if all keys are strings.", "quantifier": "all PatternDict objects with string, Boolean, integer, float, None or tuple keys, all objects x, whatever comparing x with a member returns or raises", "why_tests_cant": "Tests use keys() and items with string keys; what happens with integer keys depends on which of them are present.", "anchors": ["paragami/pattern_containers.py:PatternDict.__getitem__", "paragami/pattern_containers.py:PatternDict.keys"]}
{"id": "C136", "title": "Assigning to free_default and default_validate", "statement": "Pattern objects are shared: however many dictionaries and arrays one is stored in, assigning to its default_validate or free_default is seen through all of them, also if they are locked, and through nothing else, and never raises. A new default_validate is what fold, flatten and validate_folded use when validate_value is not given, is never seen when it is given, and never by lengths or by folding free vectors; on containers assigning to it does nothing. A new free_default is used only by the pattern assigned to, when free is not given; containers that it is stored in do what they did.", "quantifier": "all programs of any length that make patterns of any kind and nesting, store them in dictionaries and arrays with sharing, delete, lock and assign; all values, vectors and arguments", "why_tests_cant": "Tests assign to free_default of single patterns; what is shared with what, and through how many levels, is not bounded.", "anchors": ["paragami/base_patterns.py:Pattern.__init__", "paragami/base_patterns.py:Pattern._free_with_default", "paragami/numeric_array_patterns.py:NumericArrayPattern.validate_folded", "paragami/pattern_containers.py:PatternDict.__setitem__", "paragami/pattern_containers.py:PatternArray.__init__"]}
{"id": "C137", "title": "Writing into the arrays a function wrapper was made from", "statement": "A wrapper made from lists, tuples or single objects never changes. One made from numpy arrays sees what is written into them later. Writing into the arrays of patterns or of free has exactly the effect of making the wrapper anew from the present contents. Writing into argnums or retnums has that effect if the positions keep their order; if not (or if two become equal) nothing is checked, and the wrapped function gets more arguments than the wrapper (and the caller more results), as long as no position is negative: changing [0, 1] to [1, 0] makes four arguments of two.", "quantifier": "all arguments that the constructor accepts, any sharing, any number of writes of any values, all wrapped functions, arguments and results", "why_tests_cant": "Tests pass lists and never change them; whether the order of the positions is kept depends on all of them.", "anchors": ["paragami/function_patterns.py:TransformFunctionInput.__init__", "paragami/function_patterns.py:TransformFunctionInput.__call__", "paragami/function_patterns.py:TransformFunctionOutput.__init__", "paragami/function_patterns.py:TransformFunctionOutput.__call__"]}
{"id": "C138", "title": "Copies of a dictionary", "statement": "copy.copy(d) shares the members of d for ever: whatever is done afterwards, the two have the same keys and members. The lengths, the lock and free_default belong to each object alone and change only by statements on that object, so after d[k] = p or del d[k] the length is right for d and is the old one for its copies. If an object says m while its members take n numbers, fold raises ValueError for vectors of other than m elements, folds the first n and silently ignores the rest if m > n, and always raises ValueError if m < n; what the object flattens it never folds. Locking freezes the members only if every dictionary sharing them is locked; a copy made before locking still changes a locked dictionary. copy.deepcopy(d) is independent in both directions. In a program without copy.copy every dictionary always has the right lengths and nothing done to one changes another.", "quantifier": "all programs of creating, setting, deleting, locking, copying and deep copying, any members, any vectors, both values of free, any validate_value", "why_tests_cant": "Tests never copy a dictionary; the claims are about all later programs.", "anchors": ["paragami/pattern_containers.py:PatternDict.__init__", "paragami/pattern_containers.py:PatternDict.__setitem__", "paragami/pattern_containers.py:PatternDict.__delitem__", "paragami/pattern_containers.py:PatternDict.lock", "paragami/pattern_containers.py:PatternDict.fold", "paragami/base_patterns.py:Pattern.flat_length"]}
{"id": "C139", "title": "Texts of the exceptions with free=True", "statement": "fold(x, free=True) of a vector succeeds if and only if its length is flat_length(free=True). Otherwise it raises ValueError with the text of the outermost pattern alone, with the free length in it (numeric, array, dictionary; a dictionary adds its description) or with none (simplex, matrix). An array of two or more dimensions gets the same text for free=True and free=False, except from simplexes. The texts of the ValueErrors of flatten(v, free=True) are exactly the messages validate_folded returns with False or raises; a value it accepts gives neither ValueError nor KeyError, but at most LinAlgError, or IndexError when there is nothing to concatenate. Results and classes of exceptions are those of the model without texts.", "quantifier": "all patterns, all values, all vectors and arrays, any validate_value, any rendering of floats", "why_tests_cant": "Tests match no text of a free fold, and never compare what flatten raises with validate_folded over all values.", "anchors": ["paragami/numeric_array_patterns.py:NumericArrayPattern.fold", "paragami/simplex_patterns.py:SimplexArrayPattern.fold", "paragami/psdmatrix_patterns.py:PSDSymmetricMatrixPattern.fold", "paragami/pattern_containers.py:PatternArray.fold", "paragami/pattern_containers.py:PatternDict.fold", "paragami/pattern_containers.py:PatternDict.flatten"]}
{"id": "C140", "title": "Texts of the exceptions of from_json", "statement": "C.from_json of the text of a pattern of another class D raises ValueError with a message that names both C and D. If a JSON text contains anywhere, at any depth of arrays and dictionaries, a pattern of a class that is not registered, get_pattern_from_json raises KeyError, always with the same text: 'Before converting from JSON, the pattern {} must be registered ...' with the braces left in it, so that the missing class can not be told from it. If nothing is missing and the registered classes read their own texts, the whole text is read. Registering a new name never makes another class missing.", "quantifier": "all patterns and classes, all nestings of arrays and dictionaries with members of any other classes, all registries in which the shipped classes are registered, all from_json functions of user classes", "why_tests_cant": "The tests check that KeyError is raised for one text, not what it says, and never nest classes that are not registered.", "anchors": ["paragami/pattern_containers.py:get_pattern_from_json", "paragami/pattern_containers.py:PatternDict.from_json", "paragami/pattern_containers.py:PatternArray.from_json", "paragami/base_patterns.py:Pattern._validate_json_dict_type", "paragami/pattern_containers.py:register_pattern_json"]}
{"id": "C141", "title": "Texts of the exceptions of flat_indices", "statement": "flat_indices(mask, free) raises exactly when validate_folded(mask, validate_value=False) raises or returns False, and then with the same text; for arrays and dictionaries this holds for all masks, for the other patterns for masks with a true entry. A mask of a numeric pattern, simplex or matrix that has no true entry gives no indices whatever its shape. Neither depends on free.", "quantifier": "all patterns, all well-formed masks of any shape, both values of free", "why_tests_cant": "Tests call flat_indices with masks of the right shape and compare no texts.", "anchors": ["paragami/numeric_array_patterns.py:NumericArrayPattern.flat_indices", "paragami/simplex_patterns.py:SimplexArrayPattern.flat_indices", "paragami/psdmatrix_patterns.py:PSDSymmetricMatrixPattern.flat_indices", "paragami/pattern_containers.py:PatternArray.flat_indices", "paragami/pattern_containers.py:PatternDict.flat_indices"]}
{"id": "C142", "title": "Wrappers made of patterns that were saved or compare equal", "statement": "FoldFunctionInput, FlattenFunctionInput, FoldFunctionOutput and FlattenFunctionOutput made with patterns that were written to JSON and read back are the same functions as those made with the original patterns: the constructors raise the same exceptions, and the wrappers return and raise the same for all arguments, positional and keyword, provided that every free is True or False. The same holds for patterns that compare equal with ==, and for FoldFunctionInputAndOutput and FlattenFunctionInputAndOutput. With free=None it does not hold: the pattern read back has lost its free_default and the wrapper made of it raises ValueError, where the original wrapper works as with free=free_default.", "quantifier": "all arrays of patterns, all wrapped functions, all free and argnums arguments, all calls", "why_tests_cant": "Tests wrap the original patterns and compare JSON round trips by == of the patterns only.", "anchors": ["paragami/function_patterns.py:TransformFunctionInput", "paragami/function_patterns.py:TransformFunctionOutput", "paragami/pattern_containers.py:get_pattern_from_json", "paragami/function_patterns.py:FoldFunctionInputAndOutput", "paragami/function_patterns.py:FlattenFunctionInputAndOutput"]}
{"id": "C143", "title": "The other methods of patterns that were saved or compare equal", "statement": "A pattern that was written to JSON and read back agrees with the original not only in fold, flatten, validate_folded and flat_length (C29) but also in shape, empty, empty_bool, random (for the same random numbers), flat_indices and flat_names with an explicit free, freeing_jacobian, unfreeing_jacobian and the two log determinants, results and exceptions alike, and it prints the same. Patterns that compare equal with == agree in all of these except printing: patterns with the bounds 0 and 0.0 are equal and print differently.", "quantifier": "all patterns, all values, masks, delimiters, random draws and autograd Jacobian functions", "why_tests_cant": "Tests compare the patterns with == and call no method of the pattern that was read.", "anchors": ["paragami/pattern_containers.py:get_pattern_from_json", "paragami/base_patterns.py:Pattern", "paragami/pattern_containers.py:PatternDict", "paragami/pattern_containers.py:PatternArray", "paragami/psdmatrix_patterns.py:PSDSymmetricMatrixPattern", "paragami/simplex_patterns.py:SimplexArrayPattern", "paragami/numeric_array_patterns.py:NumericArrayPattern"]}
{"id": "C144", "title": "Which exceptions the main methods can raise", "statement": "Whatever array fold is given, on whichever pattern and with whatever free and validate_value, the only exception it can raise is a ValueError; the one case beside this is a SimplexArrayPattern given a zero-dimensional array, which always raises TypeError. For a value of the right kinds (arrays where the pattern wants arrays, dictionaries where it wants dictionaries; shapes, entries and keys arbitrary) validate_folded and flat_indices can only raise ValueError. For such a value flatten of a pattern without empty containers can only raise ValueError, or, when free is true and there is a PSDSymmetricMatrixPattern inside, the LinAlgError of the Cholesky decomposition (the decomposition of a matrix that is not finite is left open). A pattern with an empty container (a PatternDict without members or a PatternArray with a zero in its shape) anywhere inside flattens nothing: with free=False every value that validation accepts raises IndexError, and with free=True every value raises.", "quantifier": "all patterns of any nesting, all arrays, all values of the right kinds, all free and validate_value", "why_tests_cant": "That no other exception is possible is a statement about all inputs; tests see the exceptions of the inputs they try.", "anchors": ["paragami/pattern_containers.py:PatternDict", "paragami/pattern_containers.py:PatternArray", "paragami/psdmatrix_patterns.py:PSDSymmetricMatrixPattern", "paragami/simplex_patterns.py:SimplexArrayPattern", "paragami/numeric_array_patterns.py:NumericArrayPattern"]}
{"id": "C145", "title": "Validation decides whether there is a result, never which", "statement": "For every pattern, flatten with any validate_value is, for the values that validate_folded accepts with this setting, flatten with validate_value=False (the same vector, or the same exception), and raises for all other values; in both directions of free. fold with free=False and any validate_value returns a value exactly if fold with validate_value=False returns the same value and validate_folded accepts it; with free=True the setting does not matter. So what fold or flatten return with validate_value=True they return with every other setting, and validate_folded accepts with validate_value=None whatever it accepts with True, and with False whatever it accepts with None.", "quantifier": "all patterns of any nesting with any default_validate of the members, all values and arrays, all free and validate_value", "why_tests_cant": "The containers validate at every level and hand the setting down; tests compare results with and without validation for a few values of single patterns.", "anchors": ["paragami/pattern_containers.py:PatternDict", "paragami/pattern_containers.py:PatternArray", "paragami/psdmatrix_patterns.py:PSDSymmetricMatrixPattern", "paragami/simplex_patterns.py:SimplexArrayPattern", "paragami/numeric_array_patterns.py:NumericArrayPattern"]}
{"id": "C146", "title": "Texts of the exceptions of the wrapper constructors", "statement": "TransformFunctionInput and TransformFunctionOutput report exactly one fault of their arguments, always with ValueError: first a free that numpy cannot broadcast to the shape of patterns (with numpy's message), then 'patterns must be a 1d vector.', '<name> must be a 1d vector.', '<name> must not contain duplicated values.' and '<name> must be the same length as patterns.' in this order, where <name> is argnums or retnums; without any of these faults they construct the wrapper with the given patterns, the broadcast flags and the given positions (0, 1, ... if none are given). The two further messages about free in the source are never raised.", "quantifier": "all arrays of patterns, of free flags and of positions with any number of axes and elements", "why_tests_cant": "Tests try single faults; which of several faults is reported, and that two of the checks are dead code, are statements about all combinations of shapes.", "anchors": ["paragami/function_patterns.py:TransformFunctionInput.__init__", "paragami/function_patterns.py:TransformFunctionInput._validate_args", "paragami/function_patterns.py:TransformFunctionOutput.__init__", "paragami/function_patterns.py:TransformFunctionOutput._validate_args"]}
