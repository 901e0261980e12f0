# Formal model of rgiordan/paragami in Lean 4

Sources: `/repo/paragami/*.py` at the pinned commit (nothing is executed; the model is a reading of the text).
Lean project: `/verif/lean`.  Theorems for the properties of `properties.jsonl` live in `lean/Verif/Props/*.lean`,
the model in `lean/Verif/Model/*.lean`, the independent specifications in `lean/Verif/Spec/*.lean`, helper lemmas in
`lean/Verif/Proofs/*.lean`.  `MANIFEST.json` maps properties to theorem names.

## 1. Trusted base

* Lean 4.33.0's kernel, and the three standard axioms `propext`, `Classical.choice`, `Quot.sound`
  (`#print axioms` on every property theorem shows a subset of these).  No axiom of our own, no `sorry`,
  no `native_decide`, no `bv_decide`.
* The reading of the Python source.  Every model definition cites file and lines.
* The following assumptions about the runtime, each visible in a definition:
  - **Numbers.**  A Python/numpy float is modelled by `Flt`: an exact real, `+inf`, `-inf` or `NaN`, with the IEEE rules
    for the special values and *exact* arithmetic on reals (no rounding, no overflow, no signed zero: every zero is `+0`,
    so `x / 0` is `+inf` for `x > 0`).  Results are therefore "up to floating-point rounding", as in the upstream docs.
    C130 shows, with numbers that have both zeros (`Model/SignedZero.lean`), what the single zero leaves out.
    C76–C79, C98–C100, C108, C109, C112–C115, C118 and C119 are the exception: there every operation of the free folds (and, in C98–C100, C108, C109 and C112–C115, of the free flattening, in C118 of the Jacobians, in C119 of the preconditioners) is rounded by a machine `Arith`, about which only
    `Arith.Sane` (monotone idempotent rounding, signs and special values of `exp`, sums of nonnegative numbers at least
    each term, `C @ C.T` computed symmetrically, `cholesky` failing on a non-positive corner) and, where stated,
    `Arith.Accurate` (binary64 to nearest even; `exp`, `log`, sums accurate to a unit in the last place per operation) and
    `Arith.LogAccurate` (the same for `log` of all positive numbers), `Arith.DotAccurate` (entries of a matrix product) and
    `Arith.CholAccurate` (`cholesky` is backward stable) and `Arith.CholSucceeds` (C114, C115: it does not raise for matrices that are
    positive definite by a margin) and `Arith.SumAccurate` (C118: `np.sum`, in any order) and `Arith.DotSparse` (`C119_lost`: adding zeros to one product
    is exact) are assumed; of `eigh`, C119 assumes that it returns finite, nearly orthonormal eigenvectors (`EighSound`, checked for diagonal matrices).  A concrete binary64 machine is proved to satisfy them.
    `Model/LinAlg.lean` (optimization, autograd rules, preconditioners) works with exact reals only; C119 treats the preconditioners of
    `Model/RoundingOptimization.lean` separately and shows that without rounding the two agree.
  - **numpy arrays** are a shape plus row-major data; `reshape`, `flatten`, `atleast_1d`, `hstack`, `concatenate`,
    `ravel_multi_index`, `tril_indices`, boolean-mask indexing follow the numpy documentation.  Which operations return
    views and which return copies (`Model/Memory.lean`, `Model/WrapperMemory.lean`, `Model/PrecondMemory.lean`, `Model/WrapperArrays.lean`: C67, C116, C117, C137) is also taken from there.
  - **`np.linalg.cholesky`** reads the lower triangle and returns the lower-triangular factor with positive diagonal
    when there is one and raises `LinAlgError` otherwise (existence for positive definite input and uniqueness are *proved*).
  - **`np.linalg.eigh`** returns an orthonormal eigenbasis (`EighSpec`; existence is Mathlib's spectral theorem), `inv`,
    `solve` are exact; for stacks `solve` follows numpy 1 (a right-hand side with one axis less is a stack of vectors).
  - **scipy.special** functions (`gammaln`, `digamma`, ...) and their derivatives are taken as specified.
  - **CHOLMOD** (`sksparse`): `CholmodSpec`, a permutation and a lower-triangular factor with `P A P^T = L L^T`.
  - **autograd** applies exactly the rules registered with it.  `autograd.jacobian`, used by the generic
    `Pattern.*_jacobian` (PSD matrices only), is an oracle: `AutogradSpec` says it returns the derivative of the unfreeing
    transform where there is one.  For the freeing transform `AutogradCholesky` says it applies autograd's reverse rules, written out
    in `Model/CholeskyRule.lean` from autograd 1.  The rule for `cholesky` symmetrises the gradient, so the result is *not* the
    derivative of the map as computed (proved, `C90_not_derivative`), but it is the derivative along valid matrices
    (`C90_along_values`).  That both assumptions can be met together is proved.
  - **json**: `loads(dumps(x)) = x` with tuples turned into lists; two texts are equal iff the trees are (int and float
    literals distinct).  JSON text nested in JSON text is kept as a tree in a wrapper constructor.  For texts of patterns these
    assumptions are *proved* in C101, where texts are lists of characters and `json` is transcribed from the standard library
    (`Model/JsonText.lean`); what remains assumed is that `float.__repr__` writes a fraction or an exponent and `float` reads it back
    (`Faithful`), that strings have no lone surrogates, and that the recursion limit is not reached.
  - **npz files** store and return the arrays and strings unchanged, under the member names used by `numpy.savez`.
  - **scipy.sparse**: matrices are identified with their dense contents, except in C132 (`Model/Sparse.lean`: triplets, and the classes of
    results), which shows that this loses nothing; 0 x 0 blocks are allowed in `block_diag`; `block_diag([])` raises `ValueError`.
  - **Sizes and shapes** are natural numbers, except in C126 (`Model/Sizes.lean`: any numbers as sizes, exact arithmetic on them, any integers in shapes;
    `np.reshape` takes one negative entry as the unknown dimension).
  - **Data types**: arrays are lists of numbers without a data type, except in C81 (eigenvalue arrays) and C120 (Booleans, integers and floats; how
    `np.hstack`, slices and `np.array` treat these is assumed as in `Model/DTypes.lean`).

## 2. What is modelled

| file | modelled | not modelled |
|---|---|---|
| `base_patterns.py` | `_free_with_default`, `__eq__`, `flat_length`, `random`, `empty_bool`, `to_json`, `from_json`, `flat_names`, `log_abs_det_*` (raises) | docstrings, autograd of the generic Jacobian |
| `numeric_array_patterns.py` | everything | – |
| `simplex_patterns.py` | everything | – |
| `psdmatrix_patterns.py` | everything | `flatten(free=True)` with an infinite or NaN `diag_lb`; the autograd registration mechanism (the registered rules are modelled) |
| `pattern_containers.py` | everything; dictionaries both as immutable trees and as shared mutable objects on a heap | dictionary keys that are infinite floats, NaN, nested tuples or other objects; subclasses of `PatternDict` |
| `function_patterns.py` | everything except `__str__` | `__name__`/`__doc__` of the wrappers |
| `optimization_lib.py` | everything; of the autograd-made derivatives of `OptimizationObjective` the calls they make, not the numbers | integer eigenvalues beyond int64 |
| `autograd_supplement_lib.py` | all registered rules and functions, stacks of matrices included | `slogdet` of stacks (its rule raises) |
| `sparse_preconditioners_lib.py` | everything | CHOLMOD itself (spec assumed) |
| `_version.py` | everything that `get_versions` does with the answers of git, and all styles | starting processes and decoding; printing when verbose; `git_get_keywords` (unused by the package); non-ASCII white space and digits; signs and underscores in `int` |
| `versioneer.py`, `setup.py` | – | packaging only, no library behaviour |

## 3. Plan per property

(C-numbers refer to `properties.jsonl`.)

* C01–C03: `Model/Numeric.lean` transcribes the four bound cases over `Flt`; round trips by real analysis on each case;
  boundary cases by evaluating the special values; the false half of C03 is refuted with a witness.
* C04–C12, C21–C23, C28, C36–C39, C65: `Model/Pattern.lean` has one inductive type of pattern trees and the methods as
  structural recursions returning `Except Err`; proofs are mutual structural inductions over the tree, with the leaf
  classes as base cases and two layout lemmas (concatenation for dictionaries, equal-size blocks for arrays).
* C13: refuted for numeric and simplex with a general theorem plus a witness; proved for PSD.
* C14–C17: `Model/Simplex.lean`; softmax algebra over finite sums.
* C18–C20, C66: `Model/PSD.lean`; triangular index bijection by induction; Cholesky existence and uniqueness.
* C24–C27: `Model/DictHeap.lean`; heap of mutable pattern objects, invariants by induction over the operation list.
* C29–C35: `Model/Json.lean`, `Model/Files.lean`; encode/decode round trip by induction over trees; registry and file
  store as state machines.
* C40: string reasoning on the last delimiter.
* C41–C45: `Model/Jacobian.lean`; Jacobians as matrices of `Flt`; Fréchet-derivative statements about the model's own
  fold/flatten (`HasJacobian`), by induction over the tree with the leaf derivatives as base cases; inverse and
  determinant statements from the chain rule and uniqueness of derivatives.
* C46–C50: `Model/FunctionPatterns.lean`; Python slicing and indexing on integer positions, induction over the sorted argnums.
* C51–C58, C68: `Model/Optimization.lean`; Mathlib matrices for the linear algebra, state machines with history induction
  for `PreconditionedFunction` and `OptimizationObjective` (and a reference/heap variant for C58).
* C59–C63: `Model/AutogradSupplement.lean`; adjointness as an identity of inner products, derivatives by Mathlib calculus.
* C64: `Model/AutogradSupplement.lean`.
* C67: `Model/Memory.lean`; `fold` and `flatten` transcribed again over a memory of cells with addresses (an array is a
  list of addresses, a view shares them); a refinement theorem relates them to the value-level model, and the aliasing
  statements are invariants of the same induction.
* C69: default of `free` in `flat_names`; C70, C71: the heap model of dictionaries (float lengths after deletions, sharing);
  C72–C74: eigenvalue thresholding and `replace` edge cases.
* C75: arrays of arrays (`Spec/Regroup.lean`).
* C76–C79: `Model/Rounding.lean`; monotonicity arguments for what always holds, forward error analysis for the simplex sums,
  absorption lemmas for the failures; binary64 rounding to nearest even is defined on the reals and its laws proved.
* C80: when validation raises and when it returns false.
* C81: `Model/Truncation.lean`, eigenvalue arrays by dtype.  C82: monotonicity of the leaf transforms.  C83: the packed Cholesky
  factor, determinants of triangular matrices.
* C84: composition of C43's derivative with the wrapper.  C85: exactness of free indices from injectivity of the leaf transforms, and
  masks combined entry by entry.  C86: nested wrappers, from the characterisation of the replacement in C46 and C49.
* C87: `Model/Stacks.lean`, broadcasting of leading shapes by recursion; reduced to the rules for one matrix (C62).  The wrong case
  (right-hand side with more axes) is characterised exactly and refuted as a derivative.
* C88: `Hooks` in `Model/Optimization.lean`, an invariant of histories.
* C95: `Model/Tracing.lean`; derivatives as calls of a function with state on boxes, nested objectives, invariants of histories.
* C96: `Proofs/JsonEdit.lean`; `from_json` depends only on lookups, induction over the relation "same but for the order".
* C97: `Props/FoldShape.lean`; cases over the classes, from the unfolding equations of `fold`.
* C98, C99: `Model/RoundingFlatten.lean`, `Proofs/RoundingTrip.lean`; forward error analysis with purely relative error terms,
  one entry at a time, then lifted to arrays.
* C100: `Proofs/RoundingSoftmax.lean`; the same for `logsumexp` and the rows of simplexes.
* C101: `Model/JsonText.lean`; the grammar as an inductive relation (`Writes`), induction over derivations for reading and for texts cut
  off, over the steps of the parser for the converse (what is read was written,
  `Proofs/JsonTextSound.lean`); reading by characters refines reading by trees (`Proofs/JsonTextPattern.lean`), so C29–C34 and C96 carry
  over.  C102: the number of quotation marks and backslashes doubles with every level.
* C103: `Model/Keys.lean`; renaming the keys commutes with every method (`Proofs/Keys.lean`), by induction over the dictionaries; the texts by
  cases on whether all keys are strings.
* C104: `Model/PrintText.lean`; correct rounding is determined by closeness and parity, digits by their value; lines are split at characters that
  cannot occur before.
* C105: `Proofs/Settle.lean`; the leaves from C03, C16 and C19, containers by induction as for C10, with the first error of a list of blocks or
  members; survivors and idempotence by induction over the relation `Settles`.
* C106: induction over trees; the list of leaves with the keys that lead to them.
* C107: induction over trees; sums of non-negative numbers are NaN exactly with a NaN and infinite exactly with an infinity.
* C108: `Spec/RoundingMatrix.lean` (`DotAccurate`, `CholAccurate`); error of `exp(y) + y - y` and `log(x) + x - x`, then of a sum of products of perturbed
  factors, row by row; the loss of large entries by absorption (`2 ** 66 + log(2 ** 66)` rounds back).
* C109: `Spec/RoundingClose.lean` (`foldError`, `Near`, `Moderate`; `tripError`, `Comfortable`, `Returned`); induction over trees, running the exact and the
  computed fold (`C109_fold`), or the computed flatten and fold (`C109_trip`), side by side, with C99, C100 and C108 at the leaves.
* C110: `Spec/Densities.lean` (`inside`); the derivative of C43 and the determinant of C45 in Mathlib's change-of-variables theorem.
* C111: the derivative calculus (`Proofs/JacobianCalc.lean`, `DiffAt`) also says that analytic families have analytic images; `Props/Analytic.lean`
  reads that off for whole trees and for wrapped functions.
* C112: `Proofs/CholeskyPerturb.lean` bounds the change of a Cholesky factor when the matrix changes; `Props/Conditioning.lean` turns that into the
  sensitivity of `flatten(free=True)` and, with C108, into a bound on folding and flattening a free vector in floating point.
* C113: `Spec/RoundingFree.lean` says how close a free vector is to the one that was folded; `Proofs/RoundingTwoSided.lean` bounds one number between two
  bounds, `Proofs/TriangularInverse.lean` the inverse of a factor, and `Props/RoundingFreeTrip.lean` does the induction over the tree.
* C114: `Proofs/CholeskyMargin.lean` shows that a computed fold is positive definite by a margin; `Props/RoundingFreeTotal.lean` concludes that
  flattening it does not raise.
* C115: `Spec/RoundingFlattenClose.lean` says which values are away from the bounds and how close a computed free vector is to the exact one;
  `Props/RoundingFlattenClose.lean` proves it by induction over the tree, and derives the hypotheses of C109.
* C116: `Model/WrapperMemory.lean` transcribes the two `__call__` loops over the memory of C67; the proofs refine the value-level loops and
  keep track, along the loop, of which cells of the caller are in the list of new arguments.
* C117: `Model/PrecondMemory.lean` transcribes `PreconditionedFunction` over array objects: what the closures hold is an object of the
  caller, an array of their own, or nothing; histories include in-place writes.
* C118: `Model/RoundingJacobian.lean` transcribes the Jacobians with every operation rounded; `Proofs/RoundingJacobian.lean` has the error of
  one entry, `Props/RoundingJacobian.lean` carries relations between matrices through `block_diag` and up the tree.
* C119: `Model/RoundingOptimization.lean` transcribes the preconditioners with every operation rounded; `Proofs/RoundingOptimization.lean` has the error
  of one application, `Proofs/RoundingPrecond.lean` of going there and back and of `check_preconditioner`, `Proofs/RoundingEigen.lean` the roots of
  eigenvalues and what gets lost.
* C120: `Model/DTypes.lean` gives every array a data type and transcribes what `np.hstack`, slices and `np.array` do to it; `Proofs/DTypes.lean` shows
  that flattening with types is flattening followed by one conversion, and that conversions keep values valid; `Proofs/DTypesFree.lean` has the free
  vectors.
* C121: `Proofs/Convex.lean` shows by induction over patterns that mixing the flat entries of two values strictly inside gives another; the free-to-flat map is
  analytic onto that convex set (C111), so its second derivative lies in the range of the first.
* C122: from C37, C89 and translation invariance of functions that do not depend on a coordinate.
* C123: `Model/Keys.lean`, `Props/EqualKeys.lean`; `to_json` is injective up to what it leaves out, by reading back the list of keys and then cutting the
  text of `contents` at the ends of its strings.
* C124: `Props/Newton.lean`, over the model of C51–C56; gradients and Hessians are unique, so a Newton step does not depend on how they are found.
* C125: `Spec/Admissible.lean`, `Proofs/Closure.lean`, `Props/Boundary.lean`: the admissible values are defined from the constraints, without the model's validation; the interior of C19 and C121 is dense in them.
* C126: `Model/Sizes.lean` has the constructors and methods for sizes that are any numbers and shapes of any integers; `Props/Sizes.lean` says when they are those of `Model/Pattern.lean` and what happens otherwise.
* C127: `Props/PSDNonfinite.lean`; infinities and NaN absorb the finite numbers they are added to.
* C128: `Props/PSDIndices.lean`; the entry is a sum of products of entries of the factor, and strictly increasing in each of them where all are positive.
* C129: `Props/Leaves.lean`; by induction over the tree, with the block diagonal matrix of block diagonal matrices flattened.
* C130: `Model/SignedZero.lean`, `Props/SignedZero.lean`; the transforms once more with a negative zero, and a homomorphism that forgets it (naturality of every array helper, then induction over the tree).
* C131: `Proofs/Reorder.lean`, `Props/Reorder.lean`; from the description by leaves (C129, C106), with an explicit index vector for reordered blocks.
* C132: `Model/Sparse.lean`, `Spec/Sparse.lean`, `Proofs/Sparse.lean`, `Proofs/SparseProduct.lean`, `Props/Sparse.lean`; a refinement of the dense Jacobians by triplets, by structural induction.
* C133: `Model/Messages.lean`, `Spec/Messages.lean`, `Proofs/Messages.lean`, `Proofs/MessagesFold.lean`, `Props/Messages.lean`; the functions are written again with the values put into the messages, related to the first model by structural induction, and first failures by induction over the list of elements.
* C134: `Model/Messages.lean`, `Props/WrapperMessages.lean`; by cases and by induction over the positions.
* C135: `Model/Protocols.lean`, `Props/Protocols.lean`; the iterator as an inductive relation, which ends because only so many numbers can be keys.
* C136: `Model/Attributes.lean`, `Props/Attributes.lean`; a heap in which every pattern is an object, trees with identities, and what an assignment does to them.
* C137: `Model/WrapperArrays.lean`, `Props/WrapperArrays.lean`; the wrapper with the order found at construction and the arrays as they are now; the length of the new list of arguments is followed along the loop.
* C138: `Model/Copies.lean`, `Props/Copies.lean`, `Props/CopiesFold.lean`; objects with their own cached lengths and locks that refer to shared tables of members; invariants over all programs, and `fold` with a cached length that is not that of the members.
* C139: `Model/MessagesFree.lean`, `Props/MessagesFree.lean`; `fold` and `flatten` with `free=True` with their texts, related to the versions without by induction on patterns.
* C140: `Model/JsonTexts.lean`, `Spec/JsonTexts.lean` (trees with members of other classes), `Props/JsonTexts.lean`; mutual induction over the trees and the lists of their members.
* C141: `Model/MessagesIndices.lean`, `Props/MessagesIndices.lean`; related to `flat_indices` without texts by induction on patterns, and to `validate_folded` by the totality of `flat_indices` on masks of the right shape (C36–C38).
* C142: `Props/WrapperPatterns.lean`; construction sees the patterns only through the shape of their array, the loops by induction on the sorted positions, then C29 and C31.
* C143: `Props/JsonRest.lean`; each method is unchanged when all `free_default`s are dropped and when a dictionary is locked (induction on patterns), and a pattern and what JSON keeps of it are the same up to that.
* C144: `Props/Exceptions.lean` (`Spec/Exceptions.lean`); a predicate `Only S r` (an exception of `r` satisfies `S`) carried through every bind, by induction on patterns; empty containers in `Props/Validating.lean`.
* C145: `Props/Validating.lean`; acceptance is monotone in `validate_value`, and accepted values are flattened alike (induction on patterns); folds through the characterization of successful folds.
* C146: `Model/WrapperTexts.lean` and `Props/WrapperTexts.lean`; the constructor with its messages, compared with the one without and evaluated case by case.
* C89: from the two free round trips (C10, C11), C84's wrapper equation and C54's evaluation rule.
* C90: `Model/CholeskyRule.lean`; the rule is the adjoint of the derivative on symmetric directions (Murray's identity), hence a left
  inverse of the unfreeing Jacobian leaf by leaf, then block by block; the Cholesky factor is differentiable by its recursion.
* C91: `Model/Str.lean`; unique readability by splitting at delimiters that cannot occur in the preceding part.
* C92-C94: `Model/Version.lean`; texts as lists of characters, what git prints as input.  The regular expression is read from the end, and is
  proved equivalent to the existence of the documented form (`Spec.Describes`).  Injectivity by splitting as in C91.

No property is planned as not applicable.  Partial claims (theorem names ending in `_partial`): C03, C08, C13, C16, C69; the
stated property is false in full generality there, the theorems prove the part that holds and refute the rest by witness.

## 4. Wrong-program tests

`seeded/LOG.jsonl` lists edits made to a scratch copy of the model, each imitating a realistic bug, with the theorems that
stopped proving and what was tightened when none did.
