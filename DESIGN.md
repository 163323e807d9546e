# Formal model of matcouply: design

Source: `/repo` (MarieRoald/matcouply, pinned). Everything here was written by reading the source as text; nothing was
executed. Properties are in `properties.jsonl`, claims and theorem names in `MANIFEST.json`, mutation tests in
`seeded/LOG.jsonl`, Lean sources under `lean/Verif/`.

## 1. Trusted base

* Lean 4.33.0's kernel, and Mathlib for definitions used in statements (matrices, finite sums, real numbers, lists).
* Axioms: only `propext`, `Classical.choice`, `Quot.sound` (Lean/Mathlib's standard ones). No axiom is added, no `sorry`,
  no `native_decide`, no `bv_decide`. Section 6 lists what each theorem depends on.
* The hand translation Python -> Lean. Every definition cites file and lines; simplifications are listed beside it
  and in section 3.
* Contracts of external code, always explicit hypotheses of theorems or fields of structures, never axioms: section 4.

## 2. How the code is modelled

* **Numbers.** Exact arithmetic. Functions needing only + - * / and comparisons are generic over a linearly ordered
  field `K` (so they run on rationals). Functions needing square roots, norms or an SVD use the real numbers. Floating-point
  rounding and overflow are modelled for C99 and C102-C105 only (section 3). Elsewhere NaN and infinities appear only in the diagnostics and stopping rules (`PyF` = nan, inf or a number). `float("inf")` as a clipping bound is modelled as "no bound".
* **Division.** Lean's `x / 0 = 0` differs from numpy (`inf`/`nan`). No theorem relies on it: each theorem about a
  division has the hypothesis that the divisor is nonzero, or shows that it is.
* **Exceptions** are values: `Except PyErr α`, with the Python exception class as constructor.
* **Arrays.** Two layers. (a) Dynamic: a tensor has a run-time shape list and an entry function, Python values are an inductive type
  with tensor / None / other constructors; used for validation and conversion. (b) Typed:
  `Matrix (Fin m) (Fin n) ℝ`, ragged lists of matrices as `(i : Fin I) → Matrix (Fin (J i)) (Fin R) ℝ`; used for numerics. Shape
  errors raised by numpy for wrongly shaped data cannot be expressed in layer (b); they are covered only where layer (a) is used, and by `Verif/Shapes` (C111).
* **Loops** are folds or recursion on a counter (`for i in range(n)`), or fuel recursion with a proof that the fuel suffices
  (`while` in PAVA, `mro`).
* **In-place updates.** Numerics are modelled purely (`Verif/ADMM`, `Verif/Loop`). A second model, `Verif/Alias/Model.lean`, runs the same updates on a
  heap: arrays and lists are cells with addresses, `index_update` and list assignment change the cell, everything else allocates. C47 proves
  that it computes what the pure model computes if the caller's objects are distinct; C45, C46, C64 say which of the caller's objects change.
* **Specification versus model.** `Verif/Spec/*` holds the definitions property statements use (unimodal, nearest point, minimiser,
  norm, represented entry, well-shaped, C3 order, ...). They do not mention model functions.
  Property theorems live in `Verif/Props/*`; helper lemmas elsewhere.

## 3. Simplifications that matter

* TensorLy backends other than numpy are not modelled (numpy semantics of `index_update`: writes in place, returns the same array).
* `Verif/Alias`: penalty updates return new arrays. `Alias/Model` gives no heap for a call that raises; `Alias/Trace` records the heap after every operation
  and raises where the code does (C89_record: same results and exceptions as `Alias/Model`).
* dtype is modelled in unimodal regression (C05), as a rounding function applied when a level is stored, and in `Verif/Dtype` (C100, C101): arrays are int64 or float64, and writing into an integer array truncates. Everywhere else all arrays are of type float. int64 overflow and float32 are not modelled.
* Arithmetic is exact, except in C99 and C102-C105: the model of unimodal regression assumes nothing about its number type, and C99 takes any operations and the comparisons of IEEE 754. C102 does the same for the whole loop (`Verif/FloatFit`), where linear solvers, norms and stopping decisions are any functions; with the exact ones it is the loop of `Verif/Raise` (C102_exact). C103-C105 write out the linear systems, the diagnostics and the stopping rules (`FloatFit/Full`); open are the library functions that add many numbers, and the singular value decomposition. With exact ones the linear systems, the reconstruction error and the L2 terms are those of `Verif/ADMM` (C105_exact). Printing, the front end and the initialisation are not part of `FloatFit`; the C-update of an empty list of matrices, which raises, is not covered.
* Printed lines are a log of values (`Loop/Model`), not strings.
* Random numbers: a draw is an arbitrary function argument; theorems quantify over all draws (uniform draws in [0,1)).
* Datasets (`Verif/Data/Etch`): a data frame is its labels, its number of rows and its entries; names of indices, `print`, reading JSON and MATLAB files, and
  `squeeze` of a file with one sample are not modelled. A time stamp is its hour since the start of 2021 in UTC.
* `tl.decomposition.parafac*` initialisations are arbitrary outputs (any weights and factors of the right shapes, or an exception).
* ADMM updates work on typed matrices. In `Verif/ADMM` and `Verif/Loop` the penalties always return; `Verif/Raise` is the same code with updates and values that may
  raise, and C97 relates the two. The initialisation uses matrix shapes only.
* The outer loop returns its full state; `Loop/Return` builds the returned value from it.
* Classes (`Verif/Mro`) have a resolution order, a namespace and abstract names; class bodies are lists of definitions, assignments and deletions.
* Dataset cache: the world is one folder, its files and a log of requests. Writing never fails by itself, and contents arrive byte by byte.
* `initialize_cmf` is modelled twice: on typed matrices (`Loop/Init`, used by the whole call) and on run-time shapes (`CMF/Initialize`); C72_refines relates the two. In the
  typed model every initialisation gives factors of the requested rank; C72_svd says when the SVD initialisations do.
* Argument parsing: scalars, vectors and matrices are values (`Leaf`); lists, tuples and generators of the caller are heap cells. A generator is exhausted before
  its values are checked. In `Verif/Parse/Front` the steps of `cmf_aoadmm` before the loop are parameters, only their order is modelled there.
* Whole call (`Verif/Whole`): parsing on the heap, initialisation, and the loop composed. Initial variables are given by name (`aux_init`, `dual_init` are strings); the
  caller's own penalties are arbitrary operations. A norm matrix of the wrong size raises when the penalty is set up (in the code: at the first loss).
* Simulated data: exact densities; the draws are arguments, and the noise is assumed not to be all zero.

## 4. Contracts assumed of external code

* `svd_fun(M)` returns `U, s, Vh` with `U diag(s) Vh = M`, `UᵀU = 1`, `Vh Vhᵀ = 1`, `s ≥ 0`, of the sizes
  documented by TensorLy (`min(m,n)` or `n_eigenvecs` columns). Theorems quantify over all such outputs. Shown satisfiable.
* In `initialize_cmf`, `svd_fun(M, n_eigenvecs=R)` returns `min(m,R)` left and `min(n,R)` right singular vectors (`SvdContract`).
* `scipy.optimize.bisect(f, a, b)`: modelled as the published C loop (halving, 100 iterations, xtol, rtol).
* `condat_tv.tv_denoise_matrix(Y, lam)`: each row of the output minimises `||x-y||^2 + lam * TV(x)`; section 7 says what happens otherwise.
* `np.clip`, `np.roll`, `np.concatenate`, `reshape`, `tl.unfold`, `np.stack`: modelled by their documented definitions.
* `requests.get`, the file system and `loadmat` are parameters / explicit state.

## 5. Per-property plan

Unimodal regression (`Verif/Unimodal`): model the arrays as lists of blocks per prefix, transcribing the while loop.
* C01, C02, C04: invariant of the merge loop: blocks of every prefix are increasing means, each block's fit is optimal (every proper prefix mean of a
  block is at least the block mean) => KKT inequality => nearest point. Errors equal block sums of squares. Then the minimum over split points.
* C03: columns as functions; induction over nothing, follows from C01/C02 per column. Error value: sum over blocks.
* C05: expected false: levels are truncated when the array is integer. Negation with a witness, and `_partial` for inputs for which no rounding happens. `C05_exact` says exactly when the property holds without `non_negativity`: when the nearest unimodal vector consists of integers. With `non_negativity` not even then (`C05_nonneg_false`). For all integer arrays the result is an integer unimodal vector, and feasible arrays are returned as they are (`C05_feasible_partial`).

Factorization class and conversions (`Verif/CMF`): dynamic layer.
* C06, C08, C09, C10, C11, C12, C13: entrywise equalities; index arithmetic for unfold/vec; prefix sums for `pad=False`.
* C07: model `_validate_cmf` statement by statement; iff theorem with an independent `WellShaped` predicate.
* C14: entrywise algebra with nonzero norms.

Penalties (`Verif/Penalties`):
* C15-C18, C22: elementwise prox inequalities; projection via the variational inequality.
* C19: intermediate: `f` antitone and Lipschitz; bracket signs; bisect loop invariant; KKT for the exact root.
* C20: `U diag(s) Uᵀ = M` derived from the SVD contract and positive semidefiniteness; normal equation; strict convexity.
* C21: TV is positively homogeneous and additive along the clipping decomposition.
* C23, C24: SVD contract gives orthonormality of `U Vh`; trace inequality for Procrustes; weighted mean; induction on `n_iter`.
* C25, C26: model `init_aux`/`init_dual` statement by statement on dynamic values; iff theorems.

AO-ADMM numerics (`Verif/ADMM`):
* C27, C28: SVD solve gives the normal equations; the objective is a convex quadratic, so they give the minimiser.
* C29: from C27 by induction. C30: expected false for l2 > 0 (fit term normalised only in the report); negation and `_partial` for l2 = 0.
* C31, C32: general consensus-ADMM theorems in an inner product space (energy decrease), instantiated for the three updates.
* C33: fuel recursion with early exit. C34: expected false without l2 (zero row of A); negation and `_partial`; `C34_exact` characterises the solvable systems.
* C35, C36: trace identities.

Outer loop (`Verif/Loop`): the loop is modelled over an abstract state with an arbitrary `step`, `gaps`, `rec`, `loss`, following every branch.
* C37, C38, C43: induction on iterations. C39: invariant on auxiliary variables plus gap test. C42: frame invariant.
* C40: expected false (losses are skipped on infeasible iterations); negation and `_partial`. C41: expected false; negation and `_partial`.
* C75: invariant on the printed lines (`Loop/Print`). C76: from C37 and C75.
* C44: true for user-given factorizations; false for CP/PARAFAC2 results with weights; negation and `_partial`.

Aliasing (`Verif/Alias`): frames ("only these old cells changed") for every step (`Frame`, `Steps`, `Steps2`), simulation of the pure loop (`Refine`).
* C45, C46: false when `inner_n_iter_max >= 2` resp. without constant feasibility penalty; negations and `_partial`s. C47: refinement. C64: from the frame.
* C89: the same frame for every recorded heap (`TraceFrame`), by induction over the operations and without assuming distinct objects. C45, C46 and C64 speak about calls that
  return, C89 about calls that are cut off anywhere.

Argument parsing (`Verif/Parse`): Python argument values as an inductive type, the caller's lists as heap cells.
* C48: frame invariant on old addresses, and the content of the new lists. C49: the three documented forms.
* C50, C51: inversion of the parser for one mode; constraint sets and values of the built penalties. C52: first exception of the parser; trace of the call up to the loop.
* C53: maximum of a list. C54: binding of arguments to the two signatures.

Data (`Verif/Data`): C55 state machine over a file map and a server function; C56 expected false (write is not atomic); negation and `_partial`. C63: as C56, for bad answers. C57: roll is a permutation; noise scaling identity; unimodality refuted for wrapped columns.
C69, C70 (`Verif/Data/Etch`): position-wise inversion of the comprehensions; distinct keys make a dictionary its list of pairs.

`Verif/Mro`: C58: fuel recursion; termination by total length; order preservation by induction. C62: docstring inheritance on top of it. C77, C78: class statements (`Mro/Classes`), induction over the body.

Objects and initialisation (`Verif/CMF/Object`, `Verif/CMF/Initialize`): C71 sequence protocol, idempotent construction, methods; C72 shapes and exceptions of every `init`;
C73 singular vectors; C74 `init_params`.

C39 for UnitSimplex (`Props/LoopSimplex`): the model of the loop has total updates, so the update is replaced by the centre of the simplex for inputs with an entry above `b` and
where the code raises. The contract says something about the code only for executions whose inputs to the update are bounded by `b` (at most 1e18); that they are is not proved.
C98 (`Props/Raise`) needs no such bound: it runs the real update, which may raise, and its `b` bounds the returned auxiliary plus dual variables, which is what the last update got.

Unimodal regression in floating-point arithmetic (C99, `Props/UnimodalFloat`, `Unimodal/FloatLemmas`): the invariant is only about comparisons that the code made, "the level of a
block is not `<=` the level of the block before it", so it survives any rounding. The order is `Spec/FloatOrder`: NaN compares with nothing, everything else is ordered.

Integer arrays (`Verif/Dtype`, C100, C101): both expected false, since `create_padded_tensor`, `cmf_to_tensor` and `admm_update_A` write into arrays that exist. Truncation is the identity
exactly on integers, so the true part is an equivalence (C100_exact_partial), and for a fit an invariant of the inner and the outer loop (C101_integer, C101_aux_integer).

Constraints in floating-point arithmetic (`Verif/FloatFit`, C102): a returned auxiliary variable is the result of the last update of its penalty, for any arithmetic; the update ends with
`tl.clip` or with unimodal regression, so only the comparisons matter. `np.clip` lets NaN through, so NaN is excepted in every claim.

Diagnostics in floating-point arithmetic (`FloatFit/Full`, `Props/FloatDiag`, `Props/FloatRun`): C103 expected true and found false, since `max(0, x)` of Python drops NaN; C104 from
the same `max`; C105 because the updates do not read what the diagnostics write. Examples run in `QF`, the rational numbers with the infinities and NaN of IEEE 754.

Documented objective (`Props/DocObjective`, C106): the weights of the matrices do not matter for A and B, whose updates separate over the matrices; they matter for C. C66 is about the
loss as the docstring of the diagnostics has it, normalised by all data.

Documented stopping rules (`Props/DocStop`, C107): read off C33; the partial theorems use the triangle inequality for the norm of all entries.

L2 penalties on some modes (`Props/LoopBalance`, C108): the data term changes at the same rate when a component is scaled in any of the modes, so at a stationary point the penalties
of the modes agree; limits of convergent iterates are stationary as in C88.

Norm-based regularisation (`Props/NormAll`, C127): every mode has a constraint set and a penalty function; three conditions on them (independent of scale, shrinking with scale, bounding the
norm) are proved for the penalties of the package. Scaling two modes down and the third up leaves the represented matrices as they are; with all norms bounded a minimising sequence
has a limit. Total variation alone does not bound the norm.

Lists, tuples and three-axis arrays of B factor matrices (`Loop/Container`, `Props/Container`, C128): the model follows the kinds of the two containers that `admm_update_B` swaps; the values are those of
`Verif/ADMM`. Dropping the kinds maps runs to runs of `Verif/Loop`, as long as no tuple is assigned to. An array with three axes is taken to hold floats; writing an entry copies the matrix into it, and no views of it are kept, so the numbers are those of a list.

Representations of penalties (`Repr/Model`, `Props/Repr`, C129): strings are lists of characters; `repr` of a value and `isinstance(value, str)` are parameters. The attributes of the nine classes are listed in the order
of the assignments in the constructors. The list of shown items is recovered from the string by splitting at the last comma, so the first argument (such as a norm matrix) may contain commas.

Exceptions of penalties (`Verif/Raise`, C97): the raising operations are compared with any total operations that agree with them where they return, first for
one step, then by induction over inner iterations and rounds.

Laws of the updates (`Props/PenaltyLaws`): C79 by comparing the update with the input and with the shrunk input; C80 from the variational inequality of convex
proximal steps. UnitSimplex only up to its tolerance in C79, not in C80; PARAFAC2 is in C24.

Test classes (`Verif/Kit`, `Props/Kit`, C109): a test is the proposition that the method returns without an exception, with the draws of fixtures and generators as arguments.
C109 follows from C25 and C79; the converse fails for two wrong penalties. Not modelled: the class hierarchy (`PenaltyType`, overridden tests), single-precision tolerances,
stacked 1 × n rows. Parafac2 is not put under test.

PARAFAC2 with few rows (`Penalties/P2Any`, `Props/Parafac2Short`, C110): as `p2Update` with both updates, with SVDs whose numbers of vectors are only known at run time; products of
matrices that do not fit raise ValueError. Not modelled: `update_basis_matrices=False` and `update_coordinate_matrix=False` with such SVDs.

Shapes (`Verif/Shapes`, `Props/Shapes`, `Props/ShapesRank`, C111): the loop with every array replaced by its shape, with numpy's rules for products, sums and indices, so that exceptions for arrays that do not fit
can be expressed; the typed models cannot. Numbers of iterations are arguments; the gaps of the inner stopping rule are always computed if it is used. Not modelled:
arrays that are not matrices. C111 is about penalties that keep shapes. `Shapes/Kinds` and `Props/ShapesKinds` (C130) add all penalty classes: norm matrices, tuples of PARAFAC2 variables, missing row updates and the values
of the penalties, for factors that fit the data. Every step is shown to return, with the same shapes, exactly under a condition (`Yields`); the conditions are combined along the call.

Indeterminacies (`Props/Indeterminacy`, C112): the claims of `docs/coupled_matrix_factorization.rst` lines 25-85, about `Factors.recon`; C112_data connects it with the model of `cmf_to_matrices`.

Uniqueness (`Props/Parafac2Unique`, C124): the claim of `docs/coupled_matrix_factorization.rst` lines 70-79. `FourRows A` says that a form of degree four which is zero at all rows of A is zero; it needs at least R(R+1)(R+2)(R+3)/24 rows. Two PARAFAC2 factorizations of the same matrices are related by an invertible matrix S; the cosine between two columns of a B matrix is the same for all matrices, which is an identity of degree four in the rows of A; evaluated at unit vectors it says that S has one entry in each column. C124_objects states it for the model of the factorization class and `to_matrices`.

Recovery (`Props/Recovery`, C125): C124 and compactness. `component F r` is the list of matrices of component r. C125_call combines it with C65 (a matrix list with equal cross products within the reported gap) and C37 (the recorded error).
No new code is modelled. Uniqueness of C for PARAFAC2 is not proved.

Costs (`Verif/Unimodal/Steps`, `Verif/Shapes/Cost`, `Props/Linear`, C113): copies of the model of unimodal regression and of one product with counters, proved to give the same results. Counted are
passes of loops, entries written by slice assignments, and scalar multiplications; not time.

Standing still (`Verif/ADMM/Periodic`, `Props/LoopFixed`, C114): no new code is modelled. `Unchanged` compares factors, dual variables and auxiliary variables as matrices and ignores the weights, which
every update sets to `None`. `rowMult`, `ragMult` turn scaled dual variables into multipliers.

Limits (`Verif/ADMM/Limit`, `ADMM/LimitModes`, `Props/LoopLimit`, C115): no new code is modelled. One inner iteration is continuous in the fixed factors and in the variables; the number of inner
iterations of an update is not, so a subsequence with a constant number is taken. That the run converges is assumed, not proved; the case shown converges without reaching its limit.

Examples (`Verif/Examples`, `Props/CustomPenalty`, C116): the penalty class of `examples/plot_custom_penalty.py` lines 220-231 in exact arithmetic, with `tl.clip(x, 0)` as the maximum with 0. The class is
fitted through the same contract as the penalties of the package (`PenB.Into`). Plots and data of the examples are not modelled. C117 (`Examples/Select`, `Props/Select`): the loops over
random initialisations, with the fits as a function of the number of the start (`startsFrom` for those of the package); losses may be NaN or infinite; unbound variables raise NameError.
C118 (`Examples/Order`, `Props/Order`): standardising, normalising and ordering; `np.argsort` is any function that returns an ascending permutation; how much a component explains is the sum of
squares of its own matrices.

Rates (C119, C120, C121: `ADMM/Rate`, `ADMM/RateModes`, `Props/ADMMRate`, `Props/InnerStops`) use the same abstract step as C32. For any number of convex penalties the step is non-expansive, so
the changes decrease and the energy inequality gives `1/N`. For one penalty `z + u` is contracted: the proximal operator is monotone, the gradient of the fit is co-coercive and strongly monotone.
The feasibility penalty is a multiple of the trace of the system, so the factor does not depend on the size of the data. With several penalties no geometric rate is claimed.
Runs that update one mode are warm started (C59), so the rates hold for whole runs (`Props/LoopRate`, C122). `Props/Unchecked` (C123) describes values of `l2_penalty` and
`feasibility_penalty_scale` for which the updates are no minimisers.

Whole call (`Verif/Whole`): C65 from C39 and the constraint sets of C50; C66 from C37 and the values of C51; C67 from success of the parser and C61; C81 (`Props/WholeStart`) reads the set-up of the loop off the call; C82 (`Props/WholeSolve`) from C68, C50 and C51.

Termination: C83 (`Props/LoopStops`, `Props/WholeStops`) from convergence of the loss and the gaps and the exact stopping rule of C41; the limits must not be zero where there are
penalties (the gaps are relative to the factor). C84 (`Props/LoopBound`, `Props/WholeBound`) from C30 and C41. Both need diagnostics and both loss tolerances, for the reasons in
the findings about C41.

C88 (`Props/LoopRidge`, `Props/WholeRidge`): an exact minimiser of a quadratic function with ridge `l` decreases it by `l / 2` times the squared change; summation, compactness, and
passing to the limit in the optimality of each update. `C83_ridge` follows because the reported losses of successive iterations approach each other.

Symmetries of the loop: C90 (`Loop/Continue`, `Props/LoopContinue`): the loop from iteration n on is the loop from a shifted start. C91 (`Loop/Transform`, `Props/LoopPerm`): a map
of states that commutes with the operations of the loop commutes with the loop. C131 (`Props/LoopLocal`): the same for a selection of the matrices if C is fixed. C135 (`Props/LoopColumns`): the same for a selection of the columns if A and B are fixed. C132 (`Props/LoopExact`): factors that reproduce the data and that the penalties keep are an invariant of every step. C133 (`Props/LoopExplained`): the normal equations of the last update, tested with multiples of the factor. C136 (`Props/LoopLowRank`, `Props/WholeLowRank`, `Spec/LowRank`): the Eckart-Young bound for the stacked matrix, proved from an eigendecomposition of its Gram matrix, and uniqueness of the updates at the factors that reach it. C137 (`Props/LoopLasso`, `Props/WholeLasso`): the optimality conditions of the limit of C68 for L1 penalties, entry by entry. C138 (`Props/LoopBox`, `Props/WholeBox`): the same for bounds and non-negativity. C139 (`Props/LoopBall`, `Props/WholeBall`): the same for bounded column norms, with a multiplier for each column. C140 (`Props/LoopTV`, `Props/WholeTV`): the same for total variation, by summation by parts. C141 (`Props/LoopGenL2`, `Props/WholeGenL2`): the linear equations for generalised L2 penalties. C134 (`Props/LoopSymmetry`): starts that C91 or C95 map to themselves. C93 (`Props/LoopRegs`): the same for the order of the penalties. C94 (`Props/LoopIso`): the C142 (`Props/LoopStationary`): the minimisation in each mode of C115 gives a variational inequality per mode, and the derivative of the joint objective is the sum of the derivatives per mode. C143 (`Props/LoopKKT`): C115 and the conditions of C138 in all modes at once. C144 (`Props/LoopSparse`): the same with the conditions of C137; the derivative times the entry, summed over a component, is the same in all modes up to the L2 penalty, which gives the balance. C145 (`Props/LoopEnergy`): the balance of C144 with strength 0, summed over the components.
same for isometric maps of the rows and columns. C95 (`Props/LoopLabels`) and C96 (`Props/LoopUnits`): the same for the labels and signs of the components and for units, where
the SVD function gets other matrices, so the systems have to be uniquely solvable in every iteration. C92 (`Props/LoopSvd`): uniquely solvable systems, induction on the iterations; uniqueness of the
polar factor for PARAFAC2.

Random factors and utilities: C85 (`Props/RandomDraws`) with a stream of numbers as random state; C86 and C87 (`Verif/Utils`, `Props/Utils`). Of `testing/` the functions
`random_length` and the factorization fixtures are modelled; `seed`, `rng`, `random_matrix` and `random_matrices` are not. A random state is any state machine whose
`randint` stays in its range. `get_svd` is modelled for both forms of `tl.SVD_FUNS`; in the whole call it appears as the parameter `knownSvd`.

Outer loop (`Verif/Loop`): C59 warm starts, C60 one updated mode, C61 success of the loop. C68: multipliers by separation of the shifted problems (`ADMM/Saddle`),
minimisers by coercivity, then C60.

### Reading `seeded/LOG.jsonl`

An entry means that after the edit the definitions still compiled and the named theorems did not. A failing proof script is evidence that the theorem depends on the
edited behaviour, not a proof that the theorem became false; theorems downstream of a failing one were not rebuilt. Edits whose definition does not compile are not kills
and are not logged: two such entries (`Mro.merge`, `innerTerm`) were found in an audit of the log and replaced by edits that compile.

## 6. Axioms per theorem

Checked with `#print axioms` by the gate: every theorem depends on a subset of `propext`, `Classical.choice`, `Quot.sound`.

## 7. Findings

Points where the code or its documentation differs from what a property or a docstring says.

**Backed by a theorem** (name in brackets):

* Unimodal regression truncates for integer dtypes (C05_integer_dtype_false). With `non_negativity` it may even miss an integer solution, because a mean between -1 and 0 is stored as 0, is not recognised as negative, and its error is recorded in place of that of the zero vector: `[-3, 0, 1]` gives `[0, 0, 0]` in place of `[0, 0, 1]` (C05_nonneg_false).
* `cmf_to_tensor` and `create_padded_tensor` give the tensor the number type of the first matrix; later matrices are truncated if that is an integer type (C100_false).
* An integer array as initial A, or as auxiliary variable of mode 0 without constant feasibility penalty, truncates every update (C101_false, C101_integer); constraints can be violated by the returned auxiliary variables (C101_box_false).
* The unimodality update is not non-expansive: inputs at squared distance 0.02 with outputs at squared distance more than 0.5 (C80_unimodal_false).
* Box constraint with crossed bounds (C16_crossed). Unit simplex without rows raises ValueError (C19_no_rows). Unit simplex can raise RuntimeError for huge ranges (C19_never_fails_false), also in a fit: data (0, -1.5e31) with UnitSimplex on mode 2 (C97_raises).
* Initialisation: a list with a non-tensor raises AttributeError, no matrices raise IndexError (C25); `Parafac2.init_aux` with
  `random_state=None` raises AttributeError (C26_false); with fewer rows than the rank the bases are not orthonormal (C26_short).
* The reported loss is normalised by the squared norm of the data, the updates are not (C30_false).
* The documentation divides the error of each matrix by the norm of that matrix; the updates and the reported loss do not, so with matrices of different norms the C-update does not minimise
  the documented objective (C106_false).
* The documented inner stopping rule compares the factor with the previous auxiliary variable, the code with the previous factor; the inner loop can stop far from the solution (C107_false).
  The docstring requires `losses[-2] < absolute_tol`, the code `losses[-1]` (C107_loss_false).
* The documented PARAFAC2 parametrisation does not exist if a matrix has fewer rows than the rank (C110_parametrisation_false). Updates of such matrices raise ValueError, or return matrices
  that violate the constraint, depending on how many singular vectors the SVD function returns (C110_full, C110_false). With TensorLy's `truncated_svd` a call of `cmf_aoadmm` fails in its first iteration (C130_parafac2).
* A given factorization is not compared with the data or the rank: if only C is updated, a factorization of the first matrices is accepted and the other matrices are ignored; without penalties
  another `rank` is ignored (C111_false); with penalties `rank=1` is accepted by broadcasting (C111_broadcast), unless A has a penalty without constant feasibility penalty (C111_rank_exact).
* The documentation says the sign of a column of one B matrix can be flipped together with all columns that are not orthogonal to it. Flipping is possible exactly if all pairs of non-orthogonal
  columns are flipped together, which may reach columns that are orthogonal to the first one (C112_flip_false). It also says non-negative A fixes the signs, which fails where A is 0 (C112_nonneg_false).
- The documentation says that the PARAFAC2 constraint is used to obtain uniqueness. It does so for enough matrices (C124_unique), but not for one (C124_one) or two matrices: C124_two gives two non-negative PARAFAC2
  factorizations of the same two matrices whose columns of C are no multiples of each other. `parafac2_aoadmm` does not check the number of matrices.
* The test classes for penalties loop over `zip`, so updates and initialisations that return too few matrices pass; mode 2 is left out of the input validation; a wrong projection passes
  (C109_init_false, C109_false). The generators of the tests for generalised L2 and total variation penalties can draw matrices for which the tests of a right penalty fail (C109_unlucky).
* A zero row of A without ridge gives a singular system (C34_false). C34_exact says exactly when the linear systems are uniquely solvable.
* NaN or infinite gaps are dropped by the feasibility check (C38_false, C39_false).
* Factors with NaN have the recorded reconstruction error of a perfect fit, because `max(0, nan)` is 0 (C103_hidden). With a zero row of a fixed A, and no penalties, the B-update gives NaN and the call reports that it has converged, with error 0 (C103_false).
* "converged in k iterations" prints one less than the number of iterations (C75, prints_example).
* `get_svd` accepts every attribute of `tl.tenalg.svd`, also those that are not SVD functions, if `SVD_FUNS` is not a dictionary (C87_false).
* The fixtures bound the rank by the rows only, so it can exceed the number of columns (C86_columns).
* Class keyword arguments raise TypeError, `__prepare__` accepts them (C77_rejects).
* `return_errors=False` skips losses of infeasible iterations (C40_false).
* `if tol:` means `absolute_tol` alone never stops; `tol` with `absolute_tol=None` raises TypeError (C41_false, C61_tol).
* Weights of a CP or PARAFAC2 initialisation are lost in the first update (C44_false).
* A download without answer raises the exception of the network library, not RuntimeError (C55_false).
* An interrupted write leaves a truncated file that is read for ever (C56_false); so does an unreadable answer with status 200 (C63_false).
* Simulated data: the B matrices are not unimodal after the cyclic shift (C57_false, C57_false_all).
* Etch machine data: with a repeated sample name the metadata of later samples come from other samples (C69_repeated).
* Bike data: the columns of every city get the hours of Oslo, also if the city has other hours (C70_other_hours).
* `init="svd"` and `"threshold_svd"` raise ValueError if the rank exceeds the number of rows of some matrix (C72_svd).
* A given `init` is compared with neither the data nor the rank (C72_given); wrong weights are broadcast instead of rejected (C72_broadcast).
* The caller's `init_params` is changed (C74_changed); a key `random_state` in it raises TypeError.
* Negative indices of a factorization raise IndexError (C71_sequence).
* The resolution order helper rejects falsy classes (C58_falsy). A missing ancestor docstring is copied as None (C62).
* With two or more inner iterations the caller's array A is overwritten and the entries of the caller's list of B factor matrices are replaced (C45_false).
* Without constant feasibility penalty for mode 0 the caller's auxiliary array is overwritten (C46_false, C46_overwritten); one array
  passed for two penalties gives results that differ from those of the algorithm (C47_alias).
* If a factor becomes zero, the feasibility check depends on the order of its penalties (C93_false).
* Without diagnostics and with a relative tolerance, continuing a fit differs from one longer fit (C90_noErrors).
* A call that raises may already have overwritten the caller's array A (C89_typeError) or auxiliary arrays of mode 0 (C89_attributeError).
* `regs`: an inner tuple raises TypeError (C48_tuple), fewer than three entries (C48_short) and a generator (C48_generator) IndexError.
* A single matrix as `generalized_l2_penalty` always raises ValueError, because an array is an iterable of rows (C49_matrix); documented.
* `l2_norm_bound=0` is ignored (C50_false). Without `condat_tv` a negative `tv_penalty` raises ModuleNotFoundError (C52_false).
* A matrix-wise penalty on A without constant feasibility penalty raises AttributeError (C53_matrixwise).
* `parafac2_aoadmm` and `cmf_aoadmm` agree in the first 13 positional arguments only, and exchange two later ones (C54_false, C54_order_false).

* The documented custom penalty `UnimodalAllExceptLast` raises ValueError for models with one component, although the constraint is then empty (C116_false).

* Two examples compare the loss of a start with the stored reconstruction error of an earlier one, so the worst start can be kept (C117_sim_false); they raise NameError if no start satisfies the stopping conditions (C117_sim_partial).
* In the example on the number of components a number for which all losses are NaN reports the gaps of the previous number (C117_examine_false), and the fit score uses half of the relative error (C117_score_false).

* The etching example orders the components so that the first explains least, contrary to its comment (C118_etch_false, C118_tv_false).
* The inner loop never stops by itself if the solution of the subproblem is zero, because gaps and changes are relative to the factor (C121_zero, C121_zero_false).
* Negative `l2_penalty` is not rejected: a call can return the maximiser of an objective without lower bound (C123_l2_false). `feasibility_penalty_scale` is not checked either: with 0 the
  penalties are ignored (C123_zero_A/B/C), with a negative number a non-negative factor can tend to minus infinity (C123_scale_false).
- The docstring of `compute_feasibility_gaps` divides by the norm of the auxiliary variable, `docs/optimization.rst` and the code by that of the factor (C126_false). A reported gap g below 1 puts the other one
  between g/(1+g) and g/(1-g) (C126_matrix_partial, C126_B_partial). A gap equal to the tolerance does not pass (C126_equal).
- A tuple of B factor matrices raises TypeError in the second inner iteration of the first B-update, which assigns the entries of the caller's container (C128_false, C128_default).
- The representation of every penalty ends with a closing parenthesis that was not opened (C129_parentheses). Given starting values are all shown as `given_init`, so different penalties can have the same representation
  (C129_false).

**Read off the source, no theorem:**

* L2Ball docstring order; Parafac2 docstrings say (coordinate, bases), the code uses (bases, coordinate).
* TV uses `2 alpha / rho` where L1 uses `l1 / rho`; correct under the convention assumed in section 4.
* `get_semiconductor_etch_machine_data` documents a dictionary, and returns a tuple of four.
* `super().__prepare__(name, bases, *kwds)` should be `**kwds` (no effect).
