{"id": "C01", "title": "Unimodal regression returns the nearest unimodal vector", "statement": "For a non-empty floating-point vector y, unimodal_regression(y) is unimodal (non-decreasing up to some index, non-increasing after it) and no unimodal vector of the same length is closer to y in Euclidean distance.", "quantifier": "for every length n >= 1, every vector y of that length and every competing unimodal vector", "why_tests_cant": "optimality is a comparison with infinitely many competitors for every y and every length; the tests compare against a slow reference implementation on random vectors", "anchors": ["src/matcouply/_unimodal_regression.py:unimodal_regression", "src/matcouply/_unimodal_regression.py:_unimodal_regression", "src/matcouply/_unimodal_regression.py:prefix_isotonic_regression", "src/matcouply/_unimodal_regression.py:_get_best_unimodality_index", "src/matcouply/_unimodal_regression.py:_compute_isotonic_from_index"]}
{"id": "C02", "title": "Non-negative unimodal regression returns the nearest non-negative unimodal vector", "statement": "For a non-empty floating-point vector y, unimodal_regression(y, non_negativity=True) has no negative entry, is unimodal, and no non-negative unimodal vector is closer to y.", "quantifier": "for every length n >= 1, every y and every competing non-negative unimodal vector", "why_tests_cant": "same infinite comparison; the early replacement of negative levels by the cumulative error is only correct because of an argument over all prefixes", "anchors": ["src/matcouply/_unimodal_regression.py:unimodal_regression", "src/matcouply/_unimodal_regression.py:prefix_isotonic_regression"]}
{"id": "C03", "title": "Unimodal projection of matrices works column by column and reports the true error", "statement": "For a matrix (or higher-order array) the result has the same shape, and every first-mode fibre of the result is the unimodal regression of the corresponding fibre of the input, so the result is the nearest array with unimodal fibres; the error value computed for each fibre equals the squared distance between the fibre and its fit.", "quantifier": "for every number of rows >= 1 and columns, every input, and both values of non_negativity", "why_tests_cant": "reshape/stack bookkeeping and error bookkeeping must agree for every shape and every merge history", "anchors": ["src/matcouply/_unimodal_regression.py:unimodal_regression", "src/matcouply/_unimodal_regression.py:_unimodal_regression", "src/matcouply/penalties.py:Unimodality.factor_matrix_update"]}
{"id": "C04", "title": "Prefix isotonic regression is optimal for every prefix", "statement": "prefix_isotonic_regression(y, weights) returns, for every prefix length k, an error equal to the smallest weighted squared error of any non-decreasing fit of the first k samples (any non-decreasing non-negative fit when non_negativity=True), and the stored level sets reconstruct a fit attaining it.", "quantifier": "for every length, every y, all positive weights, every prefix length and every competing fit", "why_tests_cant": "the in-place merging keeps an invariant over all prefixes simultaneously, which only induction over the run can establish", "anchors": ["src/matcouply/_unimodal_regression.py:prefix_isotonic_regression", "src/matcouply/_unimodal_regression.py:_merge_intervals_inplace", "src/matcouply/_unimodal_regression.py:_compute_isotonic_from_index"]}
{"id": "C05", "title": "Unimodal regression does not depend on the number type of the input", "statement": "unimodal_regression of an integer array equals unimodal_regression of the same values stored as floats, i.e. it is still the nearest unimodal vector.", "quantifier": "for every integer-valued vector", "why_tests_cant": "random float test data never reaches the integer path, whose levels are stored in an integer buffer", "anchors": ["src/matcouply/_unimodal_regression.py:prefix_isotonic_regression", "src/matcouply/_unimodal_regression.py:unimodal_regression"]}
{"id": "C06", "title": "Matrices represented by a factorization", "statement": "to_matrices() returns one matrix per B_i, the i-th having shape (rows of B_i, rows of C) and entries X_i[j,k] = sum_r w_r A[i,r] B_i[j,r] C[k,r] (w = 1 when weights is None); to_matrix(i), to_slice and slices agree with it, negative indices count from the end and any other index raises IndexError.", "quantifier": "for every valid factorization (any number of matrices, ragged row counts, any rank including 0, weights present or None) and every integer index", "why_tests_cant": "an identity over all shapes and all real entries, including the two different places where weights are absorbed", "anchors": ["src/matcouply/coupled_matrices.py:cmf_to_matrix", "src/matcouply/coupled_matrices.py:cmf_to_matrices", "src/matcouply/coupled_matrices.py:cmf_to_slice", "src/matcouply/coupled_matrices.py:cmf_to_slices", "src/matcouply/coupled_matrices.py:CoupledMatrixFactorization.to_matrix"]}
{"id": "C07", "title": "Validation accepts exactly the well-shaped factorizations", "statement": "Constructing a CoupledMatrixFactorization succeeds if and only if weights is None or a vector of length R, A is a matrix with R columns, C is a matrix with R columns, every B_i is a matrix with R columns and the number of B_i equals the number of rows of A; on success shape and rank are the shapes of the represented matrices and R; a component of the wrong kind raises TypeError and a wrong shape raises ValueError.", "quantifier": "for every candidate (weights, (A, B_is, C)) where each component is None, a non-tensor object or a tensor of any shape", "why_tests_cant": "completeness (everything accepted is usable, everything usable accepted) quantifies over all malformed inputs", "anchors": ["src/matcouply/coupled_matrices.py:_validate_cmf", "src/matcouply/coupled_matrices.py:CoupledMatrixFactorization.__init__"]}
{"id": "C08", "title": "Dense tensor is the zero-padded stack of the matrices", "statement": "to_tensor() has shape (I, max_i J_i, K); entry [i,j,k] equals X_i[j,k] when j < J_i and 0 otherwise; so stacking and padding the output of to_matrices() (create_padded_tensor) gives the same tensor.", "quantifier": "for every valid factorization with at least one matrix", "why_tests_cant": "index arithmetic over all ragged shapes", "anchors": ["src/matcouply/coupled_matrices.py:cmf_to_tensor", "src/matcouply/_utils.py:create_padded_tensor", "src/matcouply/_utils.py:get_padded_tensor_shape"]}
{"id": "C09", "title": "Unfolded and vectorized forms keep every entry in its place", "statement": "to_unfolded(mode) and to_vec() are the TensorLy unfolding / vectorization of to_tensor(): every entry X_i[j,k] appears at its documented position and all other positions are 0; with pad=False, to_unfolded(2) is the column-wise concatenation of the transposed matrices and to_vec concatenates the row-major matrices, of total length sum_i J_i K, so every matrix can be recovered from it; pad=False with mode 0 or 1 raises ValueError.", "quantifier": "for every valid factorization, every mode and both values of pad", "why_tests_cant": "positions are computed by mixed-radix and prefix-sum index arithmetic over all ragged shapes", "anchors": ["src/matcouply/coupled_matrices.py:cmf_to_unfolded", "src/matcouply/coupled_matrices.py:cmf_to_vec"]}
{"id": "C10", "title": "Conversion from a CP tensor keeps the represented data", "statement": "from_CPTensor(cp) represents the matrices X_i[j,k] = sum_r w_r A[i,r] B[j,r] C[k,r], i.e. the slices of the CP tensor; with shapes the i-th matrix is the first J_i rows of that slice; it raises ValueError exactly when the tensor is not third order, the number of shapes differs from the first mode length, some K differs from the third mode length, or some J_i exceeds the second mode length.", "quantifier": "for every CP tensor and every list of (non-negative) shapes", "why_tests_cant": "identity and error conditions over all shapes", "anchors": ["src/matcouply/coupled_matrices.py:CoupledMatrixFactorization.from_CPTensor"]}
{"id": "C11", "title": "Conversion from a PARAFAC2 tensor keeps the represented data and the PARAFAC2 constraint", "statement": "from_Parafac2Tensor represents the matrices P_i B diag(a_i * w) C^T, and if every projection matrix has orthonormal columns then the resulting B_i all have the same cross product B^T B.", "quantifier": "for every PARAFAC2 tensor", "why_tests_cant": "matrix identity for all shapes and entries", "anchors": ["src/matcouply/coupled_matrices.py:CoupledMatrixFactorization.from_Parafac2Tensor"]}
{"id": "C12", "title": "Scaling and permutation indeterminacies leave the represented data unchanged", "statement": "Absorbing the weights into A, moving a nonzero factor s of column r between A, C and all B_i (or between one B_i and row i of A), permuting the components of every factor at once, or flipping signs in pairs does not change any represented matrix.", "quantifier": "for every factorization, every nonzero scaling and every permutation of the components", "why_tests_cant": "the documentation states these invariances for all models", "anchors": ["src/matcouply/coupled_matrices.py:cmf_to_matrix", "src/matcouply/coupled_matrices.py:cmf_to_matrices", "docs/coupled_matrix_factorization.rst:Factor weights and the scale indeterminacy"]}
{"id": "C13", "title": "Padded data tensor is faithful", "statement": "create_padded_tensor(matrices) has shape (number of matrices, largest number of rows, common number of columns), its i-th slice holds matrix i in its first rows and zeros below, distinct lists with the same shapes give distinct tensors, and it raises ValueError exactly when two matrices have different numbers of columns.", "quantifier": "for every non-empty list of matrices", "why_tests_cant": "quantifies over all ragged shapes", "anchors": ["src/matcouply/_utils.py:create_padded_tensor", "src/matcouply/_utils.py:get_padded_tensor_shape"]}
{"id": "C14", "title": "Random factorization generator: normalization does not change the data", "statement": "random_coupled_matrices with a given seed represents the same matrices whatever normalise_factors and normalise_B are; with normalise_factors every column of A, C and every B_i has unit Euclidean norm, all entries are non-negative, the shapes are those requested, and ValueError is raised exactly when the requested column counts differ.", "quantifier": "for every list of shapes, rank, and every draw for which no column of B_i, of the rescaled A or of C is entirely zero", "why_tests_cant": "needs an algebraic identity for all draws, not a sample of them", "anchors": ["src/matcouply/random.py:random_coupled_matrices"]}
{"id": "C15", "title": "NonNegativity update is the exact projection", "statement": "factor_matrix_update and factor_matrix_row_update of NonNegativity return the unique nearest non-negative matrix / row, whatever the feasibility penalty and the previous auxiliary variable are; feasible input is returned unchanged.", "quantifier": "for every shape and every input", "why_tests_cant": "nearest among infinitely many feasible points", "anchors": ["src/matcouply/penalties.py:NonNegativity"]}
{"id": "C16", "title": "Box update is the exact projection", "statement": "With min_val <= max_val (None meaning unbounded) the Box update returns the unique nearest matrix with all entries in the interval; feasible input is unchanged.", "quantifier": "for every shape, every interval and every input", "why_tests_cant": "nearest among infinitely many feasible points", "anchors": ["src/matcouply/penalties.py:Box"]}
{"id": "C17", "title": "L1 update is the exact proximal operator", "statement": "For reg_strength >= 0 and feasibility penalty rho > 0 the L1Penalty update is the unique minimiser of penalty(x) + rho/2 ||x - y||^2, over all x, or over all non-negative x when non_negativity=True.", "quantifier": "for every shape, strength, rho > 0 and input", "why_tests_cant": "minimality over all competitors", "anchors": ["src/matcouply/penalties.py:L1Penalty"]}
{"id": "C18", "title": "L2Ball update is the exact projection", "statement": "For norm_bound > 0 every column of the L2Ball update has norm at most norm_bound (and is non-negative when requested), and it is the unique nearest such matrix; a feasible matrix is unchanged.", "quantifier": "for every shape, bound and input, with and without non_negativity", "why_tests_cant": "with non_negativity the class documentation argues for projecting in the other order, which is not the projection; only a proof separates the two orders", "anchors": ["src/matcouply/penalties.py:L2Ball"]}
{"id": "C19", "title": "UnitSimplex update is a projection onto the simplex up to the bisection tolerance", "statement": "The UnitSimplex update never fails for a non-empty matrix (the bisection bracket always contains a sign change), returns non-negative columns whose sum differs from one by at most (number of rows) * (bisection tolerance), and would be exactly the nearest point of the simplex if the root were exact.", "quantifier": "for every matrix with at least one row", "why_tests_cant": "bracketing must hold for every input, including negative and zero maxima, where the 0.9/1.1 widening behaves differently", "anchors": ["src/matcouply/penalties.py:UnitSimplex", "src/matcouply/penalties.py:UnitSimplex._compute_lagrange_multiplier"]}
{"id": "C20", "title": "GeneralizedL2 update is the exact proximal operator", "statement": "For a symmetric positive semidefinite norm matrix and rho > 0 the update is the unique minimiser of penalty(x) + rho/2 ||x - y||^2, and penalty(x) is the non-negative sum of x_r^T M x_r over the columns.", "quantifier": "for every size, every such matrix, every valid SVD of it, rho > 0 and input", "why_tests_cant": "the code uses only the left singular vectors, which is right only because of positive semidefiniteness; a test set cannot cover all SVDs of degenerate matrices", "anchors": ["src/matcouply/penalties.py:GeneralizedL2Penalty"]}
{"id": "C21", "title": "Total variation update composes the TV and L1 proximal operators correctly", "statement": "If the external solver returns the minimiser of ||x - y||^2 + lambda * sum|x_n - x_(n-1)| for each row it is given, then the TotalVariationPenalty update is a minimiser of penalty(x) + rho/2 ||x - y||^2, where penalty includes the L1 term.", "quantifier": "for every shape, strengths, rho > 0 and input", "why_tests_cant": "the claim that thresholding after TV denoising solves the joint problem is a theorem of convex analysis", "anchors": ["src/matcouply/penalties.py:TotalVariationPenalty"]}
{"id": "C22", "title": "Matrix update and row updates of row-wise penalties agree", "statement": "For NonNegativity, Box and L1Penalty, updating a whole matrix gives row by row the same result as the row update, so using constant_feasibility_penalty or not does not change the operator; the update of a list of matrices updates each matrix with its own feasibility penalty.", "quantifier": "for every penalty parameter, shape and input", "why_tests_cant": "separately coded code paths must agree for all inputs", "anchors": ["src/matcouply/penalties.py:RowVectorPenalty.factor_matrix_update", "src/matcouply/penalties.py:MatrixPenalty.factor_matrices_update", "src/matcouply/penalties.py:NonNegativity", "src/matcouply/penalties.py:Box", "src/matcouply/penalties.py:L1Penalty"]}
{"id": "C23", "title": "PARAFAC2 auxiliary matrices satisfy the PARAFAC2 constraint", "statement": "After a Parafac2 update with update_basis_matrices=True and n_iter >= 1 on matrices with at least as many rows as the rank, every basis matrix has orthonormal columns and all auxiliary matrices P_i Delta have the same cross product.", "quantifier": "for every list of matrices, feasibility penalties, previous auxiliary variable and n_iter >= 1", "why_tests_cant": "must hold for every SVD the backend may return, including rank-deficient inputs", "anchors": ["src/matcouply/penalties.py:Parafac2.factor_matrices_update", "src/matcouply/penalties.py:Parafac2.auxes_as_matrices"]}
{"id": "C24", "title": "Each PARAFAC2 projection iteration never moves further away", "statement": "In a Parafac2 update the basis matrices are, for the given coordinate matrix, the orthonormal matrices minimising sum_i rho_i ||X_i - P_i Delta||^2, and the coordinate matrix is its minimiser for the given bases, so this distance never increases over the iterations, for any n_iter.", "quantifier": "for all inputs with J_i >= R, positive feasibility penalties, any starting auxiliary variable with orthonormal bases and any n_iter", "why_tests_cant": "an optimality statement (orthogonal Procrustes) over all orthonormal matrices plus an induction on the iterations", "anchors": ["src/matcouply/penalties.py:Parafac2.factor_matrices_update"]}
{"id": "C25", "title": "Auxiliary and dual initialization is validated and shaped correctly", "statement": "init_aux and init_dual return variables of shape (I, R), [(J_i, R)] or (K, R) for modes 0, 1, 2 for the three named schemes; a given tensor (modes 0, 2) or list (mode 1) is accepted if and only if its shape(s) match, and returned as is; a non-integer rank or mode, or a kind that does not fit the mode, raises TypeError; an unknown mode, unknown scheme or wrong shape raises ValueError.", "quantifier": "for every mode, rank, list of data matrices and init value", "why_tests_cant": "acceptance conditions over all malformed inputs, with generator/zip truncation involved", "anchors": ["src/matcouply/penalties.py:ADMMPenalty.init_aux", "src/matcouply/penalties.py:ADMMPenalty.init_dual"]}
{"id": "C26", "title": "PARAFAC2 auxiliary initialization starts feasible", "statement": "Parafac2.init_aux returns bases with orthonormal columns (identity columns for the named schemes, validated up to 1e-8 for a given tuple) and an R x R coordinate matrix, only for mode 1; every data matrix with at least R rows gets an orthonormal basis; the documented default random_state=None works.", "quantifier": "for every list of matrices, rank, mode and init value", "why_tests_cant": "accept/reject conditions over all inputs and the never-tested default argument", "anchors": ["src/matcouply/penalties.py:Parafac2.init_aux"]}
{"id": "C27", "title": "Unregularized factor updates are exact least-squares minimisers", "statement": "With no penalties on a mode, the update of that mode (A, all B_i, or C) returns the minimiser of 1/2 sum_i ||X_i - B_i D_i C^T||^2 + l2/2 ||factor||^2 with the other factors fixed, after one inner iteration.", "quantifier": "for all data, factors, l2 >= 0 such that the normal matrix is invertible, and every valid SVD", "why_tests_cant": "global optimality over all competing factors", "anchors": ["src/matcouply/decomposition.py:admm_update_A", "src/matcouply/decomposition.py:admm_update_B", "src/matcouply/decomposition.py:admm_update_C"]}
{"id": "C28", "title": "Each inner iteration performs one step of the documented ADMM scheme", "statement": "With penalties, the factor computed in an inner iteration is the minimiser of the augmented Lagrangian for the current auxiliary and dual variables, the new auxiliary variable is the proximal operator of each penalty at factor + dual with the feasibility penalty used in the system, and the dual is increased by factor - auxiliary.", "quantifier": "for all data, factors, penalties, auxiliary and dual variables, rho > 0 and every valid SVD", "why_tests_cant": "optimality over all competitors, for three separately coded update functions", "anchors": ["src/matcouply/decomposition.py:admm_update_A", "src/matcouply/decomposition.py:admm_update_B", "src/matcouply/decomposition.py:admm_update_C"]}
{"id": "C29", "title": "Unconstrained fitting never increases the objective", "statement": "With no constraints and l2 >= 0 the objective 1/2 sum_i ||X_i - X_hat_i||^2 + 1/2 sum l2 ||factor||^2 after any number of outer iterations is at most its value before, for any choice of update_A, update_B_is, update_C.", "quantifier": "for all data, initialisations, numbers of outer and inner (>= 1) iterations, as long as the linear systems met are invertible", "why_tests_cant": "induction over arbitrarily many iterations on real-valued states", "anchors": ["src/matcouply/decomposition.py:cmf_aoadmm", "src/matcouply/decomposition.py:admm_update_A", "src/matcouply/decomposition.py:admm_update_B", "src/matcouply/decomposition.py:admm_update_C"]}
{"id": "C30", "title": "The reported regularized loss is the objective that is minimised", "statement": "Without constraints the regularized_loss values in the diagnostics never increase from one iteration to the next.", "quantifier": "for all data, initialisations and l2 >= 0", "why_tests_cant": "tests only look at final values; the relative normalisation of the fit term is not applied in the updates", "anchors": ["src/matcouply/decomposition.py:cmf_aoadmm", "src/matcouply/decomposition.py:_compute_l2_penalty"]}
{"id": "C31", "title": "Fixed points of the inner ADMM are solutions of the regularized subproblem", "statement": "If an inner iteration leaves the auxiliary and dual variables unchanged and all penalties on the mode are convex, then the factor equals every auxiliary variable and minimises the regularized least-squares subproblem of that mode.", "quantifier": "for all data, any number of convex penalties, and all states", "why_tests_cant": "a statement about all fixed points and all competitors", "anchors": ["src/matcouply/decomposition.py:admm_update_A", "src/matcouply/decomposition.py:admm_update_B", "src/matcouply/decomposition.py:admm_update_C"]}
{"id": "C32", "title": "The inner ADMM converges for convex penalties", "statement": "Repeating the inner iteration with convex penalties for which the subproblem has a saddle point drives the feasibility gap and the distance of the factor to the subproblem's minimiser to zero, and the documented energy never increases.", "quantifier": "for all data, starting auxiliary and dual variables and every rho > 0", "why_tests_cant": "convergence is a limit statement over infinite executions", "anchors": ["src/matcouply/decomposition.py:admm_update_A", "src/matcouply/decomposition.py:admm_update_B", "src/matcouply/decomposition.py:admm_update_C"]}
{"id": "C33", "title": "Inner loop iteration count and early stopping", "statement": "The inner loop runs at most inner_n_iter_max iterations; with inner_tol None, zero or negative it runs exactly that many; with a positive inner_tol it stops early only when the relative change of the factor is at most inner_tol and every feasibility gap of that mode is below inner_tol, and it stops at the first such iteration.", "quantifier": "for every state, tolerance and limit", "why_tests_cant": "control-flow property over all executions", "anchors": ["src/matcouply/decomposition.py:_check_inner_convergence", "src/matcouply/decomposition.py:admm_update_A", "src/matcouply/decomposition.py:admm_update_B", "src/matcouply/decomposition.py:admm_update_C"]}
{"id": "C34", "title": "The linear systems are always solvable", "statement": "The systems solved in the updates have an invertible matrix, so no division by a zero singular value can occur.", "quantifier": "for all data, factors and l2 >= 0", "why_tests_cant": "the failure needs an exactly zero row/column, which random tests never produce", "anchors": ["src/matcouply/decomposition.py:admm_update_A", "src/matcouply/decomposition.py:admm_update_B", "src/matcouply/decomposition.py:admm_update_C"]}
{"id": "C35", "title": "Reconstruction error is exact in both code paths", "statement": "rec_errors holds sqrt(sum_i ||X_i - X_hat_i||^2) / sqrt(sum_i ||X_i||^2) for the current factorization, both when it is computed from scratch and when the intermediate products of the A-update are reused, and whatever multiplication order is chosen.", "quantifier": "for all data with nonzero norm and all factorizations (with weights for the direct path)", "why_tests_cant": "algebraic identity for all shapes; the reuse path is only right because B and C are not modified after the A-update", "anchors": ["src/matcouply/decomposition.py:_cmf_reconstruction_error", "src/matcouply/decomposition.py:cmf_aoadmm"]}
{"id": "C36", "title": "Feasibility gaps measure the distance to the auxiliary variables", "statement": "compute_feasibility_gaps returns, for every penalty of every mode, ||x - z|| / ||x|| with x the factor (all B_i together for mode 1) and z the auxiliary matrices; it is zero exactly when factor and auxiliary variable coincide.", "quantifier": "for all factorizations with nonzero factors, penalties and auxiliary variables, including PARAFAC2", "why_tests_cant": "identity for all shapes and penalties; the two documentation pages disagree on the denominator", "anchors": ["src/matcouply/decomposition.py:compute_feasibility_gaps", "src/matcouply/decomposition.py:_root_sum_squared_list"]}
{"id": "C37", "title": "Diagnostics have one entry per iteration plus the initial one", "statement": "With return_errors=True, rec_errors, feasibility_gaps and regularized_loss all have length n_iter + 1 and entry t describes the factorization after t iterations, with regularized_loss[t] = 0.5 rec_errors[t]^2 + L2 terms + penalties.", "quantifier": "for all inputs, tolerances and stopping histories", "why_tests_cant": "control flow with several continue/break branches over all executions", "anchors": ["src/matcouply/decomposition.py:cmf_aoadmm", "src/matcouply/decomposition.py:DiagnosticMetrics"]}
{"id": "C38", "title": "Iteration count and stopping report are consistent", "statement": "n_iter <= max(n_iter_max, 0); if satisfied_stopping_condition is True then the final feasibility gaps are all below feasibility_tol and the loss criterion named in the message holds for the reported losses; if it is not True, then exactly n_iter_max iterations were run and the message says so; it is None exactly when neither tolerance is set.", "quantifier": "for all inputs, tolerances and executions", "why_tests_cant": "control flow over all executions", "anchors": ["src/matcouply/decomposition.py:cmf_aoadmm", "src/matcouply/decomposition.py:_check_feasibility"]}
{"id": "C39", "title": "A satisfied feasibility condition certifies near-feasible factors", "statement": "If the diagnostics report satisfied_feasibility_condition=True (at least one outer and inner iteration), then every factor carrying a hard constraint is within feasibility_tol times its own norm of a matrix that satisfies the constraint exactly.", "quantifier": "for all data, penalties and executions", "why_tests_cant": "combines the loop invariant 'auxiliary variables are outputs of the projections' with the gap test, over all executions", "anchors": ["src/matcouply/decomposition.py:cmf_aoadmm", "src/matcouply/decomposition.py:compute_feasibility_gaps", "src/matcouply/decomposition.py:_check_feasibility", "src/matcouply/penalties.py:NonNegativity", "src/matcouply/penalties.py:Box", "src/matcouply/penalties.py:L2Ball", "src/matcouply/penalties.py:Unimodality", "src/matcouply/penalties.py:Parafac2"]}
{"id": "C40", "title": "Requesting diagnostics does not change the result", "statement": "The returned factorization is the same whatever return_errors, return_admm_vars and verbose are.", "quantifier": "for all inputs and tolerances", "why_tests_cant": "needs two executions compared for all inputs; differences appear only when infeasible and feasible iterations interleave", "anchors": ["src/matcouply/decomposition.py:cmf_aoadmm"]}
{"id": "C41", "title": "Each loss tolerance works on its own", "statement": "Setting only absolute_tol (tol=None) stops the fitting once the loss is below absolute_tol and the gaps are feasible; setting only tol (absolute_tol=None) stops once the relative decrease is below tol.", "quantifier": "for all inputs", "why_tests_cant": "configuration combinations not covered by the tests", "anchors": ["src/matcouply/decomposition.py:cmf_aoadmm"]}
{"id": "C42", "title": "Modes that are not updated keep their factor", "statement": "With update_A=False (update_B_is, update_C likewise) the returned factorization has exactly the initial factor of that mode, whatever the other settings are, and no constraints are applied to it.", "quantifier": "for all inputs and numbers of iterations", "why_tests_cant": "frame property over all executions", "anchors": ["src/matcouply/decomposition.py:cmf_aoadmm"]}
{"id": "C43", "title": "Zero iterations return the initial factorization", "statement": "With n_iter_max <= 0 the returned factorization is the initial one, n_iter is 0 and the diagnostics hold only the initial values.", "quantifier": "for all inputs and all n_iter_max <= 0", "why_tests_cant": "boundary behaviour for all configurations", "anchors": ["src/matcouply/decomposition.py:cmf_aoadmm"]}
{"id": "C44", "title": "Initial weights are honoured", "statement": "The fitting starts from the factorization given (or computed) as initialisation: the initial weights are absorbed, so the factors entering the first update represent the same matrices as the initialisation.", "quantifier": "for all initialisations with weights", "why_tests_cant": "the default initialisations have unit weights, so tests never see a difference", "anchors": ["src/matcouply/decomposition.py:initialize_cmf", "src/matcouply/decomposition.py:admm_update_A", "src/matcouply/decomposition.py:admm_update_B", "src/matcouply/decomposition.py:admm_update_C"]}
{"id": "C45", "title": "The caller's initial factors are not modified", "statement": "cmf_aoadmm does not modify the arrays or lists the caller passes as init.", "quantifier": "for all inputs", "why_tests_cant": "needs a model of aliasing and in-place writes over all iteration counts", "anchors": ["src/matcouply/decomposition.py:initialize_cmf", "src/matcouply/decomposition.py:admm_update_A", "src/matcouply/decomposition.py:admm_update_B"]}
{"id": "C46", "title": "The caller's auxiliary initialisation is not modified", "statement": "cmf_aoadmm does not modify arrays the caller passes as auxiliary initialisation of a penalty.", "quantifier": "for all penalties and inputs", "why_tests_cant": "needs a model of aliasing and in-place writes", "anchors": ["src/matcouply/decomposition.py:admm_update_A", "src/matcouply/penalties.py:ADMMPenalty.init_aux"]}
{"id": "C47", "title": "In-place updates compute the same result as the mathematical algorithm", "statement": "When the initial arrays are distinct objects, the in-place, buffer-swapping implementation returns the same factors, auxiliary and dual variables as the purely functional ADMM iteration, for every number of inner iterations.", "quantifier": "for all inputs and iteration counts", "why_tests_cant": "refinement between a heap program and a pure one over all executions", "anchors": ["src/matcouply/decomposition.py:admm_update_A", "src/matcouply/decomposition.py:admm_update_B"]}
{"id": "C48", "title": "The caller's penalty list is not modified and order is kept", "statement": "The penalties used for mode m are those built from the keyword arguments followed by the caller's regs[m] in order; the caller's lists are unchanged after the call.", "quantifier": "for all regs and keyword arguments", "why_tests_cant": "all combinations of arguments, with aliasing", "anchors": ["src/matcouply/decomposition.py:_parse_all_penalties"]}
{"id": "C49", "title": "Keyword arguments accept the documented forms", "statement": "A regularization argument may be None or a single value (used in all modes), a list of three values (one per mode) or a dictionary (missing modes get None); an iterable of another length raises ValueError.", "quantifier": "for every argument value", "why_tests_cant": "covers all iterable and mapping values", "anchors": ["src/matcouply/decomposition.py:_listify", "src/matcouply/_utils.py:is_iterable"]}
{"id": "C50", "title": "Every requested constraint is imposed", "statement": "For each mode the penalties built from the keyword arguments impose exactly what was requested: a matrix lies in the intersection of the constraint sets of the built penalties if and only if it satisfies the requested non_negative, bounds, l2_norm_bound and unimodal requests; PARAFAC2 is imposed on mode 1 only.", "quantifier": "for every combination of argument values", "why_tests_cant": "2^n combinations of interacting options (non-negativity is merged into other penalties)", "anchors": ["src/matcouply/decomposition.py:_parse_mode_penalties", "src/matcouply/decomposition.py:_parse_all_penalties"]}
{"id": "C51", "title": "Requested penalty terms are counted exactly once", "statement": "For each mode the sum of the penalty values of the built penalties equals the documented objective terms: l1_penalty * sum|x| + tv_penalty * TV(x) + generalized L2 term, whether or not l1 and TV are combined.", "quantifier": "for every combination of argument values and every matrix", "why_tests_cant": "interaction of options; only values are tested on samples", "anchors": ["src/matcouply/decomposition.py:_parse_mode_penalties", "src/matcouply/penalties.py:L1Penalty.penalty", "src/matcouply/penalties.py:TotalVariationPenalty.penalty", "src/matcouply/penalties.py:GeneralizedL2Penalty.penalty", "src/matcouply/penalties.py:HardConstraintMixin.penalty"]}
{"id": "C52", "title": "Invalid penalty arguments are rejected", "statement": "Negative l1_penalty, tv_penalty or l2_norm_bound raise ValueError; regs that is not an iterable of iterables of ADMMPenalty raises TypeError; constant_feasibility_penalty given as a string other than 'A' or 'B' raises ValueError; all before any factor is updated.", "quantifier": "for every argument value", "why_tests_cant": "rejection must hold for every malformed input and every combination with valid ones", "anchors": ["src/matcouply/decomposition.py:_parse_all_penalties", "src/matcouply/decomposition.py:_parse_mode_penalties", "src/matcouply/decomposition.py:cmf_aoadmm", "src/matcouply/penalties.py:L1Penalty.__init__", "src/matcouply/penalties.py:L2Ball.__init__", "src/matcouply/penalties.py:TotalVariationPenalty.__init__"]}
{"id": "C53", "title": "Constant feasibility penalty semantics", "statement": "With constant_feasibility_penalty enabled for a mode every row (matrix) uses the maximum of the individual feasibility penalties, which is at least each of them and non-negative; 'A' and 'B' enable it for only that mode; matrix-wise penalties on A work when it is enabled.", "quantifier": "for all data, factors and scale >= 0", "why_tests_cant": "all inputs and option values", "anchors": ["src/matcouply/decomposition.py:cmf_aoadmm", "src/matcouply/decomposition.py:admm_update_A", "src/matcouply/decomposition.py:admm_update_B"]}
{"id": "C54", "title": "parafac2_aoadmm is cmf_aoadmm with the PARAFAC2 constraint", "statement": "parafac2_aoadmm(args) behaves as cmf_aoadmm(args, parafac2=True), with the same defaults.", "quantifier": "for all arguments", "why_tests_cant": "argument forwarding for every parameter", "anchors": ["src/matcouply/decomposition.py:parafac2_aoadmm", "src/matcouply/decomposition.py:cmf_aoadmm"]}
{"id": "C55", "title": "Dataset cache uses local files first", "statement": "get_semiconductor_etch_raw_data performs no network access for files that exist locally and none at all with download_data=False; it leaves the file system unchanged with save_data=False; after a successful call with save_data=True a later call needs no network and returns the same data; a failed download raises RuntimeError and stores nothing for that file.", "quantifier": "for every initial file-system state and every server behaviour", "why_tests_cant": "sequences of calls against arbitrary server behaviour", "anchors": ["src/matcouply/data.py:get_semiconductor_etch_raw_data"]}
{"id": "C56", "title": "Dataset cache survives interruption", "statement": "If a call is interrupted at any point, a later call still returns the server's data.", "quantifier": "for every interruption point", "why_tests_cant": "crash points between open and write cannot be scheduled by the tests", "anchors": ["src/matcouply/data.py:get_semiconductor_etch_raw_data"]}
{"id": "C57", "title": "Simulated data satisfy the stated model", "statement": "get_simple_simulated_data returns factors whose B_i all have the same cross product (PARAFAC2 constraint), non-negative C, A entries at least 0.1, and noisy matrices whose distance to the noise-free ones is exactly noise_level times the norm of the noise-free data; the columns of the B_i are unimodal.", "quantifier": "for every random draw with nonzero noise and every noise_level >= 0", "why_tests_cant": "identity over all draws; unimodality after cyclic shift is claimed for every i", "anchors": ["src/matcouply/data.py:get_simple_simulated_data"]}
{"id": "C58", "title": "Method resolution order helper implements C3", "statement": "mro(*bases) returns a duplicate-free tuple containing exactly the classes of the input linearizations, in an order that respects every input linearization and the order of the bases; it raises TypeError instead of looping when the merge gets stuck.", "quantifier": "for all lists of base linearizations without duplicates", "why_tests_cant": "termination and order preservation for all hierarchies", "anchors": ["src/matcouply/_doc_utils.py:mro"]}
{"id": "C59", "title": "Outer iterations are warm started", "statement": "If only one mode is updated, the factor, auxiliary variables and dual variables of that mode after n outer iterations are exactly those obtained by continuing one single sequence of inner iterations from the initial values: nothing is re-initialised or lost between outer iterations. After n outer iterations at least n and at most n * inner_n_iter_max inner iterations have been made, and exactly n * inner_n_iter_max without an inner tolerance.", "quantifier": "for all data, penalties, initial values and all n", "why_tests_cant": "a dropped dual variable only slows or biases convergence; every single run still looks plausible", "anchors": ["src/matcouply/decomposition.py:cmf_aoadmm", "src/matcouply/decomposition.py:admm_update_A", "src/matcouply/decomposition.py:admm_update_B", "src/matcouply/decomposition.py:admm_update_C"]}
{"id": "C60", "title": "cmf_aoadmm converges when a single mode is updated", "statement": "With convex penalties, a saddle point of the subproblem and at least one inner iteration, cmf_aoadmm updating a single mode converges as n_iter_max grows: the differences between the factor and each auxiliary variable tend to zero, the reconstructed matrices tend to those of a minimiser of the regularised problem, and the factor itself tends to it when the data determine it.", "quantifier": "for all data, convex penalties, initial values, inner iteration counts and inner tolerances", "why_tests_cant": "a limit statement over all problems", "anchors": ["src/matcouply/decomposition.py:cmf_aoadmm"]}
{"id": "C61", "title": "cmf_aoadmm does not raise after initialisation", "statement": "With at least one matrix, with every penalty of mode 0 supporting row updates (or a constant feasibility penalty), and with absolute_tol given whenever tol is, the outer loop never raises, whatever the numbers (also zero factors, nan losses, non-positive n_iter_max).", "quantifier": "for all data, penalties, initial values and arguments of the loop", "why_tests_cant": "exceptions in rare numerical situations", "anchors": ["src/matcouply/decomposition.py:cmf_aoadmm"]}
{"id": "C62", "title": "Inherited docstrings come from the nearest ancestor", "statement": "A method without docstring decorated with copy_ancestor_docstring gets the docstring of the first class in the method resolution order of the bases that has the method (possibly None); RuntimeError is raised if the method has a docstring already or no ancestor has the method.", "quantifier": "for all class hierarchies and methods", "why_tests_cant": "all hierarchies, including diamonds", "anchors": ["src/matcouply/_doc_utils.py:_copy_ancestor_docstring", "src/matcouply/_doc_utils.py:InheritableDocstrings"]}
{"id": "C63", "title": "A bad download does not poison the dataset cache", "statement": "After any call of get_semiconductor_etch_raw_data, failed or not, a later call with a working server returns the data.", "quantifier": "for every server behaviour during the first call", "why_tests_cant": "arbitrary server behaviour followed by a second call", "anchors": ["src/matcouply/data.py:get_semiconductor_etch_raw_data"]}
{"id": "C64", "title": "Data and dual initialisations are not modified", "statement": "cmf_aoadmm does not modify the data matrices, nor the arrays and lists the caller passes as initial dual variables of a penalty.", "quantifier": "for all inputs, penalties and iteration counts", "why_tests_cant": "needs a model of aliasing and in-place writes over all executions", "anchors": ["src/matcouply/decomposition.py:admm_update_A", "src/matcouply/decomposition.py:admm_update_B", "src/matcouply/decomposition.py:admm_update_C", "src/matcouply/penalties.py:ADMMPenalty.init_dual"]}
{"id": "C65", "title": "End to end: requested constraints hold up to the feasibility tolerance", "statement": "If cmf_aoadmm is called with documented keyword arguments and its diagnostics report a satisfied feasibility condition, then every updated factor (if the factors are not zero) is within feasibility_tol times its norm of a matrix that satisfies the requested constraint: non-negativity, bounds, norm bound, unimodality, or a common cross product with parafac2=True.", "quantifier": "for all data, ranks, initialisations, keyword arguments, penalties of the caller, random draws and iteration counts", "why_tests_cant": "composes argument parsing, initialisation, the updates and the stopping rule over all executions", "anchors": ["src/matcouply/decomposition.py:cmf_aoadmm", "src/matcouply/decomposition.py:_parse_all_penalties", "src/matcouply/decomposition.py:_check_feasibility"]}
{"id": "C66", "title": "End to end: reported losses are the documented objective", "statement": "With return_errors=True and nonzero data, entry t of rec_errors and regularized_loss is the relative error, and half its square plus the L2 terms, plus the L1, total variation and generalized L2 terms requested by the keyword arguments and the values of the caller's penalties for the modes that are updated, of the factorization that the same call with t iterations returns.", "quantifier": "for all data, ranks, initialisations, keyword arguments, penalties of the caller, random draws, tolerances and iteration counts", "why_tests_cant": "needs all combinations of keyword arguments and every iteration", "anchors": ["src/matcouply/decomposition.py:cmf_aoadmm", "src/matcouply/decomposition.py:_parse_mode_penalties", "src/matcouply/decomposition.py:_compute_l2_penalty"]}
{"id": "C67", "title": "End to end: documented arguments never raise", "statement": "A call of cmf_aoadmm without regs whose names are known and whose values are admissible (non-negative strengths and bounds, condat_tv if total variation is used, symmetric positive semidefinite norm matrices of the right size, an absolute tolerance with a relative one, and a constant feasibility penalty for A if a request for A cannot be handled row by row) returns.", "quantifier": "for all data with at least one matrix, ranks, initialisations that give factors of that rank (C72 says which do), random draws, tolerances and iteration counts", "why_tests_cant": "absence of exceptions for all combinations of arguments and all executions", "anchors": ["src/matcouply/decomposition.py:cmf_aoadmm", "src/matcouply/decomposition.py:_parse_all_penalties", "src/matcouply/decomposition.py:initialize_aux", "src/matcouply/decomposition.py:initialize_dual"]}
{"id": "C68", "title": "A run that updates one mode converges to the constrained least-squares solution", "statement": "If cmf_aoadmm updates a single mode whose penalties are the package's convex penalties (non-negativity, box, L1, L2 ball, generalized L2, total variation), the other factors determine that mode, and some point satisfies all constraints, all but one of them strictly, then the regularized least-squares subproblem has exactly one solution, and the factor and every auxiliary variable tend to it when n_iter_max grows.", "quantifier": "for all data, other factors, starting points, strengths and bounds, numbers of penalties and of inner iterations", "why_tests_cant": "existence of a solution and convergence are statements about infinitely many competitors and infinite executions", "anchors": ["src/matcouply/decomposition.py:cmf_aoadmm", "src/matcouply/decomposition.py:admm_update_A", "src/matcouply/decomposition.py:admm_update_B", "src/matcouply/decomposition.py:admm_update_C"]}
{"id": "C69", "title": "Etch data and metadata describe the same sample", "statement": "If file names are one character, a sample name and an optional extension, and sample names are distinct, then entry k of the training (test) data returned by get_semiconductor_etch_machine_data holds the measurements of sample k of the raw file without its last row, and entry k of the metadata holds, under the same name, the times, step numbers, experiment and sample number, and for test data the fault, of that sample.", "quantifier": "for all raw files", "why_tests_cant": "the tests skip the download or see one file", "anchors": ["src/matcouply/data.py:get_semiconductor_etch_machine_data"]}
{"id": "C70", "title": "Bike data columns carry their hour", "statement": "Each frame returned by get_bike_data keeps the values and stations of its city, and if a city has the columns of Oslo in the file then each of its columns is labelled with its own hour.", "quantifier": "for all files", "why_tests_cant": "only one file is shipped", "anchors": ["src/matcouply/data.py:get_bike_data"]}
{"id": "C71", "title": "A factorization object behaves as the pair of its weights and factors", "statement": "Iterating over a CoupledMatrixFactorization gives its weights and then its factors, len is 2, indexing agrees with iteration and raises IndexError for every other index; constructing a factorization from an object gives an equal object; and for a valid factorization every conversion gives the same result as method, as function of the object and as function of the pair, with or without validation.", "quantifier": "for all factorizations, indices, modes and padding options", "why_tests_cant": "all indices, all shapes and all call styles", "anchors": ["src/matcouply/coupled_matrices.py:CoupledMatrixFactorization", "src/matcouply/coupled_matrices.py:cmf_to_matrix", "src/matcouply/coupled_matrices.py:cmf_to_matrices", "src/matcouply/coupled_matrices.py:cmf_to_tensor", "src/matcouply/coupled_matrices.py:cmf_to_unfolded", "src/matcouply/coupled_matrices.py:cmf_to_vec"]}
{"id": "C72", "title": "Every initialisation fits the data", "statement": "initialize_cmf returns a factorization of the requested rank whose matrices have the shapes of the data: always for random, with entries in [0,1) and a separate draw for every factor matrix; for svd and threshold_svd exactly if the rank exceeds neither the number of columns nor any number of rows, and ValueError otherwise; for the TensorLy decompositions whenever they return factors of the right shapes; a given valid factorization is returned with its weights multiplied into A; an unknown name raises ValueError.", "quantifier": "for all data, ranks, draws, SVD functions and results of TensorLy", "why_tests_cant": "all shapes and ranks, including ranks larger than some number of rows", "anchors": ["src/matcouply/decomposition.py:initialize_cmf"]}
{"id": "C73", "title": "SVD initialisations are orthonormal or non-negative", "statement": "With init='svd' A is filled with ones, and C and all B matrices have orthonormal columns; with init='threshold_svd' the factors are the positive parts of these, so all entries are non-negative.", "quantifier": "for all data, ranks and valid SVD functions", "why_tests_cant": "real-valued statement for all matrices", "anchors": ["src/matcouply/decomposition.py:initialize_cmf"]}
{"id": "C74", "title": "init_params reach the initialisation", "statement": "TensorLy's decompositions get the caller's init_params with n_iter_max=50 as default; the caller's dictionary is at most extended by that default, and a second call with the same dictionary gives the same result.", "quantifier": "for all dictionaries and names", "why_tests_cant": "all dictionaries, repeated calls", "anchors": ["src/matcouply/decomposition.py:initialize_cmf"]}
{"id": "C75", "title": "Printed progress follows verbose", "statement": "With verbose=v>0 a call prints the initial gaps, then one report for each iteration number below n_iter that is a multiple of v, in order, showing the values of the factorization after that iteration (those of the diagnostics if requested); with any nonzero verbose it ends by printing why the loop was left. The number printed after 'converged in' is one less than n_iter.", "quantifier": "for all data, penalties, tolerances, verbose values", "why_tests_cant": "depends on number of iterations and stopping of every run", "anchors": ["src/matcouply/decomposition.py:cmf_aoadmm"]}
{"id": "C76", "title": "Return value of cmf_aoadmm", "statement": "The call returns the factorization alone, or a tuple of factorization, ADMM variables if return_admm_vars, diagnostics if return_errors, in this order. return_admm_vars does not change the other entries. The last gaps, error and loss of the diagnostics are those of the returned factors and auxiliary variables.", "quantifier": "for all data, penalties and arguments", "why_tests_cant": "all runs", "anchors": ["src/matcouply/decomposition.py:cmf_aoadmm"]}
{"id": "C77", "title": "Class statements with InheritableDocstrings", "statement": "A class statement whose body does not rebind copy_ancestor_docstring creates a class with exactly the attributes its body defines and without that name; a decorated method has the docstring of the first class in the resolution order of the bases that has such an attribute. Rebinding the name raises RuntimeError, class keyword arguments raise TypeError.", "quantifier": "for all class hierarchies and bodies", "why_tests_cant": "all hierarchies", "anchors": ["src/matcouply/_doc_utils.py:InheritableDocstrings"]}
{"id": "C78", "title": "Penalty classes and user classes", "statement": "penalties.py can be imported, all decorated methods have a docstring, exactly the four base classes are abstract. A user's class with bases HardConstraintMixin, MatrixPenalty without abstract functions can be instantiated iff it defines factor_matrix_update; with the bases in the other order it also has to define penalty.", "quantifier": "for all class bodies", "why_tests_cant": "all user classes", "anchors": ["src/matcouply/penalties.py:MatrixPenalty", "src/matcouply/penalties.py:HardConstraintMixin", "src/matcouply/_doc_utils.py:InheritableDocstrings"]}
{"id": "C79", "title": "Fixed points and descent of penalty updates", "statement": "For non-negativity, box, L1, L2 ball, generalized L2 and total variation with accepted parameters and a positive feasibility penalty, factor_matrix_update never increases the penalty, decreases it by at least rho/2 times the squared step on feasible input, and returns its input iff the input is feasible with penalty 0. Unimodality returns its input iff the columns are unimodal (and non-negative if requested). UnitSimplex, when its root finder returns, changes a matrix with columns in the simplex by no more than the root finder's tolerance.", "quantifier": "for all matrices, parameters and feasibility penalties", "why_tests_cant": "the test classes check randomly drawn matrices with feasibility penalty 10", "anchors": ["src/matcouply/penalties.py:factor_matrix_update", "src/matcouply/testing/admm_penalty.py:BaseTestFactorMatrixPenalty"]}
{"id": "C80", "title": "Non-expansive updates", "statement": "For non-negativity, box, L1, L2 ball, generalized L2 and total variation, factor_matrix_update is firmly non-expansive in the matrix, whatever the auxiliary variables. For unimodality it is not even non-expansive.", "quantifier": "for all pairs of matrices, parameters and feasibility penalties", "why_tests_cant": "ranges over all pairs of matrices", "anchors": ["src/matcouply/penalties.py:factor_matrix_update"]}
{"id": "C81", "title": "Arguments reach the loop; variables start as requested", "statement": "If cmf_aoadmm returns (documented penalty arguments, no penalty objects of the caller), its result is that of the outer loop run on the given data with the given l2 penalties, inner iteration limit, inner tolerance, feasibility scale and update flags, from the initial factorization that init requests. Every auxiliary variable starts as aux_init says and every dual variable as dual_init says, each from its own draw: uniform, standard normal or zero. The PARAFAC2 auxiliary variable starts with orthonormal basis matrices (if every matrix has at least rank rows) and a coordinate matrix as aux_init says. With n_iter_max=0 these variables are what is returned.", "quantifier": "for all data, shapes, ranks, documented arguments, random draws and SVD functions", "why_tests_cant": "Tests check the shapes of the initial variables of single penalties; no test checks that the variables of a whole call, for every combination of penalties and schemes, are the requested ones.", "anchors": ["src/matcouply/decomposition.py:cmf_aoadmm", "src/matcouply/decomposition.py:initialize_aux", "src/matcouply/decomposition.py:initialize_dual", "src/matcouply/penalties.py:ADMMPenalty.init_aux", "src/matcouply/penalties.py:ADMMPenalty.init_dual", "src/matcouply/penalties.py:Parafac2.init_aux"]}
{"id": "C82", "title": "A call updating one factor solves the requested convex problem", "statement": "If cmf_aoadmm updates only one of A, the B-matrices and C, the arguments for that mode ask for convex conditions (non-negativity, bounds, a norm bound, L1, total variation, generalised L2, in any combination, or nothing), some factor satisfies all of them strictly and the data with the fixed factors and the ridge determine the factor, then the constrained problem stated by the arguments has exactly one solution, and the returned factor tends to it entry by entry as n_iter_max grows without tolerances. Inner iteration limit, starting values and random draws do not matter.", "quantifier": "for all data, shapes, ranks, initial factorizations, draws, combinations of convex arguments, inner iteration limits and feasibility scales", "why_tests_cant": "Tests compare single updates with references or check that the loss decreases on random data; none can check convergence to the constrained optimum for all data and starting points.", "anchors": ["src/matcouply/decomposition.py:cmf_aoadmm", "src/matcouply/decomposition.py:_parse_all_penalties", "src/matcouply/decomposition.py:admm_update_A", "src/matcouply/decomposition.py:admm_update_B", "src/matcouply/decomposition.py:admm_update_C"]}
{"id": "C83", "title": "Convergent runs meet their stopping criteria", "statement": "If the factors and their auxiliary variables converge as the number of iterations grows without tolerances, to factors that are not zero where penalties act, then for all positive tol, absolute_tol and feasibility_tol there is a number N such that every call with these tolerances, diagnostics and n_iter_max of at least N stops after at most N iterations and reports that the stopping conditions are satisfied. In particular this holds for calls that update one factor, ask for a convex problem as in C82 and have a solution that is not zero.", "quantifier": "for all data, shapes, penalties with continuous values, initial values and tolerances", "why_tests_cant": "Tests run single problems with a fixed iteration limit; that the limit is never the reason for stopping once it is large enough is a statement about all limits and all tolerances.", "anchors": ["src/matcouply/decomposition.py:cmf_aoadmm", "src/matcouply/decomposition.py:_check_feasibility", "src/matcouply/decomposition.py:compute_feasibility_gaps"]}
{"id": "C84", "title": "Bound on the iterations of runs without penalties", "statement": "Without penalties, and with zero L2 parameters or data of norm 1, a call with tol between 0 and 1, absolute_tol, feasibility_tol and diagnostics stops after at most N iterations and reports that the stopping conditions are satisfied, for every positive N up to n_iter_max with (1 - tol)^N times the initial loss below absolute_tol, as long as the linear systems are invertible (always with positive L2 parameters).", "quantifier": "for all data, shapes, ranks, initial factorizations, tolerances and iteration limits", "why_tests_cant": "Tests cannot bound the number of iterations for all inputs.", "anchors": ["src/matcouply/decomposition.py:cmf_aoadmm"]}
{"id": "C85", "title": "Random factors use every drawn number once", "statement": "Without normalisation random_coupled_matrices returns unit weights and factors that contain, row by row and in the order A, B_0, B_1, ..., C, the consecutive numbers the random state delivers: no number is used twice and none is skipped, so the factors are independent draws and the result depends on the seed only.", "quantifier": "for all shapes, ranks and random streams", "why_tests_cant": "Tests compare two runs with the same seed; reuse of the same numbers for several factors would pass them.", "anchors": ["src/matcouply/random.py:random_coupled_matrices"]}
{"id": "C86", "title": "Fixtures are valid factorizations", "statement": "random_ragged_cmf, random_rank5_ragged_cmf and random_regular_cmf never raise and return a factorization with the returned shapes and rank: at least two matrices with at least two (rank 5: five) rows each, one common number of columns of at least two, and a rank between 1 and the smallest number of rows; random_length raises ValueError exactly if min is not below mean and is otherwise at least min.", "quantifier": "for all random states", "why_tests_cant": "A test run sees the draws of one seed.", "anchors": ["src/matcouply/testing/fixtures.py:random_ragged_cmf", "src/matcouply/testing/fixtures.py:random_rank5_ragged_cmf", "src/matcouply/testing/fixtures.py:random_regular_cmf", "src/matcouply/testing/utils.py:random_length"]}
{"id": "C87", "title": "SVD functions are looked up among the listed choices", "statement": "get_svd returns TensorLy's function for every name in SVD_FUNS and raises ValueError for every other name.", "quantifier": "for all names and all TensorLy versions (dictionary or list of names)", "why_tests_cant": "Tests run with one TensorLy version and a few names.", "anchors": ["src/matcouply/_utils.py:get_svd"]}
{"id": "C88", "title": "Alternating ridge regression approaches stationary points", "statement": "If cmf_aoadmm is called without penalties and constraints and with a positive l2_penalty on every factor that is updated, then, as n_iter_max grows without tolerances, the returned factors stay bounded, the squared changes of successive iterations (weighted with the ridge parameters) sum up to at most twice the decrease of the documented objective, some subsequence of the results converges, and every limit of a subsequence is the unique optimum in each updated factor given the other factors; if all factors are updated it is a stationary point of the objective. The objective tends to that of the limits.", "quantifier": "for all data, initial factors, fixed factors, positive ridge parameters, inner iteration limits and SVD outputs", "why_tests_cant": "a limit statement about infinitely many iterations; tests see finitely many iterations of a few runs", "anchors": ["src/matcouply/decomposition.py:cmf_aoadmm", "src/matcouply/decomposition.py:admm_update_A", "src/matcouply/decomposition.py:admm_update_B", "src/matcouply/decomposition.py:admm_update_C"]}
{"id": "C89", "title": "An interrupted call leaves all other objects of the caller intact", "statement": "Wherever a call of cmf_aoadmm with a given factorization is cut off - by an exception raised anywhere in the updates, the diagnostics or the stopping conditions, or by an interrupt - the data matrices, the B factor matrices, C, the dual variables and the auxiliary variables of modes 1 and 2 the caller passed contain what they contained before. The only objects of the caller that may have changed are the array A (only without weights, with update_A and at least two inner iterations), the list of B factor matrices (only with update_B_is and at least two inner iterations; its matrices are unchanged), and the auxiliary arrays of mode 0 (only with update_A and without constant feasibility penalty).", "quantifier": "for all data, factorizations, penalties, parameters and points of interruption", "why_tests_cant": "Tests call the function until it returns; the states in between and those after an exception are not inspected.", "anchors": ["src/matcouply/decomposition.py:cmf_aoadmm", "src/matcouply/decomposition.py:admm_update_A", "src/matcouply/decomposition.py:admm_update_B", "src/matcouply/decomposition.py:admm_update_C"]}
{"id": "C90", "title": "A fit can be continued", "statement": "If a call of cmf_aoadmm with return_errors=True and n iterations is not stopped by its tolerances, then calling it again with m iterations and the returned factorization, auxiliary and dual variables as initial values gives what one call with n + m iterations gives: the same factorization, auxiliary and dual variables or exception, and diagnostics that are those of the two calls joined at their common entry. If the first call is stopped by its tolerances, more iterations change nothing.", "quantifier": "for all data, penalties, initial values, tolerances, iteration limits n and m, and external SVD and penalty functions", "why_tests_cant": "Tests fit from one start with one iteration limit; equality of split and unsplit runs is a statement about all splits of all runs.", "anchors": ["src/matcouply/decomposition.py:cmf_aoadmm"]}
{"id": "C91", "title": "The order of the matrices does not matter", "statement": "Fitting the matrices in another order, with the rows of A, the B factor matrices and their auxiliary and dual variables in that order, gives the same factorization and variables in that order, the same C, the same diagnostics and stopping message, or raises the same exception, if the penalties on A do not depend on the order of the rows (non-negativity, bounds, L1, L2 ball, simplex, ...; not total variation or a generalized L2 penalty).", "quantifier": "for all data, permutations, initial values, tolerances, iteration limits, and penalties that commute with the reordering", "why_tests_cant": "Tests use one order; agreement under all reorderings of all inputs cannot be sampled.", "anchors": ["src/matcouply/decomposition.py:cmf_aoadmm", "src/matcouply/decomposition.py:admm_update_A", "src/matcouply/decomposition.py:admm_update_B", "src/matcouply/decomposition.py:admm_update_C", "src/matcouply/decomposition.py:compute_feasibility_gaps"]}
{"id": "C92", "title": "The SVD function does not matter", "statement": "Two SVD functions that return exact singular value decompositions (svd argument of cmf_aoadmm) give the same factorization, auxiliary and dual variables, diagnostics and exceptions, whatever singular vectors they choose, if in every iteration the factors to be updated are determined (by a ridge penalty, by penalties with a positive feasibility penalty, or by the other factors). The bases of the PARAFAC2 penalty do not depend on the SVD function if the matrices they are computed from have full column rank.", "quantifier": "for all data, penalties, initial values, tolerances and pairs of SVD functions", "why_tests_cant": "Tests run one SVD function whose choice of singular vectors is fixed.", "anchors": ["src/matcouply/decomposition.py:cmf_aoadmm", "src/matcouply/decomposition.py:admm_update_A", "src/matcouply/decomposition.py:admm_update_B", "src/matcouply/decomposition.py:admm_update_C", "src/matcouply/penalties.py:Parafac2.factor_matrices_update"]}
{"id": "C93", "title": "The order of the penalties does not matter", "statement": "Giving the penalties of a mode (the lists in regs) in another order, with their initial auxiliary and dual variables in that order, gives the same factorization, losses, errors, stopping message and exceptions, and the auxiliary variables, dual variables and feasibility gaps in that order.", "quantifier": "for all data, penalties, orders, initial values, tolerances and iteration limits", "why_tests_cant": "Tests use one order of a few penalties; agreement for all orders along whole runs cannot be sampled, and the exception (a factor that becomes exactly zero) is rare.", "anchors": ["src/matcouply/decomposition.py:cmf_aoadmm", "src/matcouply/decomposition.py:admm_update_A", "src/matcouply/decomposition.py:admm_update_B", "src/matcouply/decomposition.py:admm_update_C", "src/matcouply/decomposition.py:compute_feasibility_gaps", "src/matcouply/decomposition.py:_check_feasibility"]}
{"id": "C94", "title": "The coordinates of rows and columns do not matter", "statement": "Reordering the rows of each matrix and the common columns, inserting zero rows or columns, or rotating them (multiplying each matrix from the left and the right with matrices that preserve inner products), with the B factor matrices, C and their auxiliary and dual variables transformed in the same way, gives the factorization transformed in the same way, the same A, diagnostics, stopping message and printed output, or raises the same exception, if the penalties on the B factor matrices and on C do not depend on the coordinates: non-negativity, bounds that allow 0, L1 and L2 balls for reordering and inserted zeros; L2 balls and PARAFAC2 for rotations.", "quantifier": "for all data, maps of rows and columns, initial values, tolerances, iteration limits, and penalties that commute with the maps", "why_tests_cant": "Tests use one arrangement of the data; agreement under all reorderings, paddings and rotations along whole runs cannot be sampled.", "anchors": ["src/matcouply/decomposition.py:cmf_aoadmm", "src/matcouply/decomposition.py:admm_update_A", "src/matcouply/decomposition.py:admm_update_B", "src/matcouply/decomposition.py:admm_update_C", "src/matcouply/decomposition.py:compute_feasibility_gaps", "src/matcouply/penalties.py:Parafac2.factor_matrices_update"]}
{"id": "C95", "title": "The labels and signs of the components do not matter", "statement": "If the components of the initial factorization get other labels, and their columns in A, the B factor matrices and C other signs whose product is 1, with the auxiliary and dual variables changed in the same way, a call returns the factorization with these labels and signs, the same diagnostics, stopping message and printed output, or raises the same exception, if the factors are determined in every iteration and the penalties treat all components and signs alike: all penalties of the package for labels; L1 penalties and L2 balls without non-negativity, bounds symmetric around 0, generalized L2 penalties and PARAFAC2 for signs.", "quantifier": "for all data, permutations of the components, signs, initial values, tolerances, iteration limits, and penalties that commute with the change", "why_tests_cant": "Tests start from one labelling; agreement for all permutations and signs along whole runs, in exact arithmetic, cannot be sampled.", "anchors": ["src/matcouply/decomposition.py:cmf_aoadmm", "src/matcouply/decomposition.py:admm_update_A", "src/matcouply/decomposition.py:admm_update_B", "src/matcouply/decomposition.py:admm_update_C", "src/matcouply/penalties.py:Parafac2.factor_matrices_update"]}
{"id": "C96", "title": "The units of the data and the scale of the factors do not matter", "statement": "If A, the B factor matrices and C, with their auxiliary and dual variables, are multiplied with positive numbers and the data with their product, and bounds, radii and strengths of the penalties are converted to these units, a call returns the factorization in these units, the same diagnostics, stopping message and printed output, or raises the same exception, if the factors are determined in every iteration and the penalties enter the reported loss with the same value: always for non-negativity, bounds, L2 balls and PARAFAC2 (with an SVD function that gives multiples of a matrix the same singular vectors), and for all penalties of the package and ridge penalties if the product is 1.", "quantifier": "for all data, positive units, initial values, tolerances, iteration limits, and penalties that have a counterpart in the other units", "why_tests_cant": "Tests use data in one unit; agreement of whole runs for all units in exact arithmetic cannot be sampled.", "anchors": ["src/matcouply/decomposition.py:cmf_aoadmm", "src/matcouply/decomposition.py:admm_update_A", "src/matcouply/decomposition.py:admm_update_B", "src/matcouply/decomposition.py:admm_update_C", "src/matcouply/decomposition.py:compute_feasibility_gaps"]}
{"id": "C97", "title": "An exception of a penalty ends the call", "statement": "If an update or value of a penalty raises while cmf_aoadmm runs, the call ends with that exception: nothing in the package catches it. A call that returns gives the result that it would give with penalties that never raise and agree with the given ones wherever these return. A call that raises ends with the exception that the call with these penalties raises, or with that of a penalty's update or value, in a state that the call with these penalties reaches as well. A value that raises for the initial factors ends the call before any iteration, in the order of the modes.", "quantifier": "for all data, penalties whose updates and values return or raise, initial values, tolerances, and iteration limits", "why_tests_cant": "Tests use penalties that return. That no exception is swallowed at any point of any execution, and that what happens before it is unaffected, are statements about all executions.", "anchors": ["src/matcouply/decomposition.py:cmf_aoadmm", "src/matcouply/decomposition.py:admm_update_A", "src/matcouply/decomposition.py:admm_update_B", "src/matcouply/decomposition.py:admm_update_C"]}
{"id": "C98", "title": "Returned auxiliary variables are updates of the returned auxiliary plus dual variables", "statement": "After a call with at least one iteration that returns, every auxiliary variable is what the update of its penalty returns for the sum of the returned auxiliary and dual variable. So with UnitSimplex it is non-negative and within the tolerance of the root finder of the projection of this sum onto the simplex, and if the diagnostics report that the feasibility condition is satisfied, the factor is within feasibility_tol times its norm of such a matrix.", "quantifier": "for all data, penalties whose updates return or raise, initial values, tolerances, and positive numbers of inner and outer iterations, where every mode with penalties is updated", "why_tests_cant": "The relation must hold for every execution, including those that end early; the tolerance holds for all real inputs, which tests cannot sample.", "anchors": ["src/matcouply/decomposition.py:cmf_aoadmm", "src/matcouply/decomposition.py:admm_update_A", "src/matcouply/decomposition.py:admm_update_B", "src/matcouply/decomposition.py:admm_update_C", "src/matcouply/penalties.py:UnitSimplex.factor_matrix_update"]}
{"id": "C99", "title": "Unimodal regression returns a unimodal vector in floating-point arithmetic", "statement": "Whatever the arithmetic operations return (they may round, overflow, or give NaN), unimodal_regression of a non-empty array returns an array of the same shape in which every entry was computed. Every fibre along the first mode that has no NaN is unimodal, exactly and not only up to rounding errors, and with non_negativity=True every entry that is not NaN is non-negative.", "quantifier": "for all number types whose comparisons follow IEEE 754, all arithmetic operations on them, all non-empty arrays, and both values of non_negativity", "why_tests_cant": "A rounding error that breaks the order of two levels depends on the data and on the order of the operations; tests with sampled floats cannot exclude it, and proofs in exact arithmetic do not transfer.", "anchors": ["src/matcouply/_unimodal_regression.py:unimodal_regression", "src/matcouply/_unimodal_regression.py:prefix_isotonic_regression", "src/matcouply/_unimodal_regression.py:_compute_isotonic_from_index"]}
{"id": "C100", "title": "A dense tensor contains the matrices of the factorization whatever the number types", "statement": "For a factorization whose factors are integer or floating-point arrays, every entry (i, j, k) of cmf_to_tensor within the rows of the i-th matrix equals the entry (j, k) of the i-th matrix of cmf_to_matrices; create_padded_tensor likewise contains the given matrices.", "quantifier": "for all valid factorizations and all combinations of integer and floating-point arrays for the weights, A, each B_i and C", "why_tests_cant": "The tests use random floating-point factors only; combinations of number types multiply and the loss of the fractional part raises no error.", "anchors": ["src/matcouply/coupled_matrices.py:cmf_to_tensor", "src/matcouply/coupled_matrices.py:cmf_to_matrices", "src/matcouply/_utils.py:create_padded_tensor"]}
{"id": "C101", "title": "The result of a fit does not depend on the number type of the initial values", "statement": "cmf_aoadmm called with initial values given as integer arrays returns the same factors, auxiliary variables and diagnostics as with the same numbers as floating-point arrays.", "quantifier": "for all data, penalties, options and initial factors and auxiliary variables with integer entries", "why_tests_cant": "Integer initial values are accepted silently and give a plausible result; tests draw their initial values from floating-point generators.", "anchors": ["src/matcouply/decomposition.py:admm_update_A", "src/matcouply/decomposition.py:cmf_aoadmm", "src/matcouply/decomposition.py:initialize_cmf"]}
{"id": "C102", "title": "Returned auxiliary variables satisfy element-wise constraints in floating-point arithmetic", "statement": "Whatever the arithmetic operations, linear solvers and norms return (they may round, overflow, or give NaN), after a call of cmf_aoadmm with at least one outer and one inner iteration the returned auxiliary variables satisfy the constraints exactly and not only up to rounding errors: every entry that is not NaN is non-negative (NonNegativity, UnitSimplex, and L1Penalty, L2Ball and Unimodality with non_negativity=True) or within the bounds (Box), and every column without NaN is unimodal (Unimodality).", "quantifier": "for all number types whose comparisons follow IEEE 754, all arithmetic operations on them (for L2Ball: with correct signs), all data, starting points, numbers of penalties and iterations, and all stopping decisions", "why_tests_cant": "The violations that rounding can cause are rare and tiny, and tests compare with a tolerance.", "anchors": ["src/matcouply/decomposition.py:cmf_aoadmm", "src/matcouply/decomposition.py:admm_update_A", "src/matcouply/decomposition.py:admm_update_B", "src/matcouply/decomposition.py:admm_update_C", "src/matcouply/penalties.py:NonNegativity", "src/matcouply/penalties.py:Box", "src/matcouply/penalties.py:L1Penalty", "src/matcouply/penalties.py:L2Ball", "src/matcouply/penalties.py:UnitSimplex", "src/matcouply/penalties.py:Unimodality"]}
{"id": "C103", "title": "A NaN in the returned factors is not reported as a good fit", "statement": "If a factor matrix returned by cmf_aoadmm contains NaN, the recorded reconstruction error of the last iteration is not that of a perfect fit, and the call does not report that it has converged.", "quantifier": "all data, factors, penalties, tolerances and numbers of iterations; any arithmetic in which NaN propagates", "why_tests_cant": "NaN arises only from singular linear systems or overflow, which tests with random data never meet; the fitted factors are then rarely inspected because the report says that the fit converged.", "anchors": ["src/matcouply/decomposition.py:_cmf_reconstruction_error", "src/matcouply/decomposition.py:cmf_aoadmm", "src/matcouply/decomposition.py:_check_feasibility"]}
{"id": "C104", "title": "Recorded reconstruction errors are non-negative numbers in floating-point arithmetic", "statement": "If the norm of the data is positive and finite, every recorded reconstruction error is a number, not NaN, and at least zero, although the squared error is computed as a difference that may cancel, be negative or overflow.", "quantifier": "all data, factors, penalties, tolerances and numbers of iterations; any arithmetic whose comparisons are those of IEEE 754 and whose square roots and quotients of non-negative numbers have the right sign", "why_tests_cant": "Cancellation depends on rounding errors of the particular data; a negative squared error shows only for nearly perfect fits.", "anchors": ["src/matcouply/decomposition.py:_cmf_reconstruction_error", "src/matcouply/decomposition.py:cmf_aoadmm"]}
{"id": "C105", "title": "Diagnostics only decide when to stop, bit for bit", "statement": "The factors, auxiliary and dual variables returned by cmf_aoadmm after n iterations are the result of n rounds of updates: two calls that differ only in tolerances, requested diagnostics and penalty values and make the same number of iterations return the same numbers, bit for bit. All iterations are made unless a criterion is met, and the variables of modes that are not updated are returned unchanged, bit for bit.", "quantifier": "all data, factors, penalties, tolerances and numbers of iterations; any arithmetic and any library functions", "why_tests_cant": "Comparisons of results in tests allow rounding errors, and only some combinations of arguments are tried.", "anchors": ["src/matcouply/decomposition.py:cmf_aoadmm", "src/matcouply/decomposition.py:admm_update_A", "src/matcouply/decomposition.py:admm_update_B", "src/matcouply/decomposition.py:admm_update_C"]}
{"id": "C106", "title": "The documented objective is minimised", "statement": "The objective of the documentation divides the squared error of each data matrix by the squared norm of that matrix. Without penalties, each factor matrix returned by an update of cmf_aoadmm minimises it, and the data term of the reported loss is proportional to it.", "quantifier": "all data with nonzero matrices, all ranks, shapes and factors", "why_tests_cant": "Tests compare with data generated from known factors, where both objectives are zero, and check that the reported loss decreases, not that the documented one does.", "anchors": ["src/matcouply/decomposition.py:admm_update_A", "src/matcouply/decomposition.py:admm_update_B", "src/matcouply/decomposition.py:admm_update_C", "src/matcouply/decomposition.py:cmf_aoadmm"]}
{"id": "C107", "title": "Documented stopping conditions", "statement": "If the inner loop of cmf_aoadmm stops before the limit of iterations, the last iteration satisfies the documented conditions: the factor is within inner_tol times its norm of each auxiliary variable, and within inner_tol times the norm of the auxiliary variable of the auxiliary variable of the previous inner iteration. If the outer loop stops before its limit, the losses satisfy the condition of the docstring.", "quantifier": "all data, factors, penalties, tolerances and iteration limits", "why_tests_cant": "Tests check that the loops stop, with default tolerances, not that the documented quantities are small at that point.", "anchors": ["src/matcouply/decomposition.py:_check_inner_convergence", "src/matcouply/decomposition.py:admm_update_A", "src/matcouply/decomposition.py:admm_update_B", "src/matcouply/decomposition.py:admm_update_C", "src/matcouply/decomposition.py:cmf_aoadmm"]}
{"id": "C108", "title": "L2 penalties on all modes are balanced, on some modes they have no optimum", "statement": "Without other penalties, if the iterates of cmf_aoadmm converge, the L2 penalties of the three modes agree in the limit. Hence with l2_penalty on some but not all modes they do not converge, unless the model is no better than zero: norm-based regularisation must be imposed on all modes.", "quantifier": "all data, ranks, shapes and starting points; all L2 penalties; linear systems solvable", "why_tests_cant": "It is about limits of infinitely many iterations; tests run few iterations and compare losses.", "anchors": ["src/matcouply/decomposition.py:cmf_aoadmm", "src/matcouply/decomposition.py:admm_update_A", "src/matcouply/decomposition.py:admm_update_B", "src/matcouply/decomposition.py:admm_update_C"]}
{"id": "C109", "title": "The test classes for penalties accept penalties that follow the interface and reject others", "statement": "The tests of the base test classes in matcouply.testing pass, for every draw of the fixtures, for every penalty that follows the documented interface (initialisation of auxiliary and dual variables, proximal updates, helper functions), and fail for some draw for every penalty that does not.", "quantifier": "all shapes, ranks and draws of the fixtures; all convex penalties of the package with accepted parameters; all penalty classes under test", "why_tests_cant": "The tests draw a handful of matrices; whether they accept a right penalty for every draw, and whether they would notice a wrong one, is a statement about all draws and all penalties.", "anchors": ["src/matcouply/testing/admm_penalty.py:BaseTestADMMPenalty", "src/matcouply/testing/admm_penalty.py:BaseTestFactorMatricesPenalty", "src/matcouply/testing/admm_penalty.py:BaseTestFactorMatrixPenalty", "src/matcouply/testing/admm_penalty.py:BaseTestRowVectorPenalty", "src/matcouply/testing/admm_penalty.py:MixinTestHardConstraint"]}
{"id": "C110", "title": "The PARAFAC2 parametrisation and updates hold for any numbers of rows", "statement": "Every collection of matrices whose cross products are all equal is a collection of basis matrices with orthonormal columns times one coordinate matrix, as documented, and Parafac2.factor_matrices_update returns such a collection, whatever the numbers of rows of the matrices.", "quantifier": "all numbers of matrices, numbers of rows, ranks, factor matrices, feasibility penalties, auxiliary variables and SVD functions", "why_tests_cant": "Tests draw matrices with more rows than the rank; that no choice of basis matrices exists for a collection cannot be observed by running the update.", "anchors": ["src/matcouply/penalties.py:Parafac2.factor_matrices_update", "src/matcouply/penalties.py:Parafac2"]}
{"id": "C111", "title": "Data, rank and initial factorization that do not fit together are rejected", "statement": "cmf_aoadmm raises an exception if the given initial factorization has another number of matrices, other numbers of rows or columns than the data, or another rank than requested, or if the matrices have different numbers of columns; it raises none if everything fits, and the returned factors have the shapes of the data and the requested rank.", "quantifier": "all lists of shapes, ranks, numbers of penalties and iterations, and all choices of updated modes, constant feasibility penalties, inner tolerances and diagnostics", "why_tests_cant": "There are infinitely many combinations of shapes and options; whether a mismatch is noticed depends on the modes that are updated and on broadcasting.", "anchors": ["src/matcouply/decomposition.py:cmf_aoadmm", "src/matcouply/decomposition.py:admm_update_A", "src/matcouply/decomposition.py:admm_update_B", "src/matcouply/decomposition.py:admm_update_C", "src/matcouply/decomposition.py:_cmf_reconstruction_error"]}
{"id": "C112", "title": "Documented scale, sign and mixing indeterminacies", "statement": "Scaling a column of one B matrix and the entry of A inversely leaves the represented matrices unchanged; under the PARAFAC2 constraint only the sign and a common scale remain free; the sign of a column of one B matrix can be flipped if the same flip is imposed on all columns that are not orthogonal to it; non-negative A removes the sign indeterminacy; without constraints the factorization is not unique.", "quantifier": "all factorizations, all scales, all signs and all invertible mixing matrices", "why_tests_cant": "The claims are about all factorizations of the same data; a test can only compare particular ones.", "anchors": ["src/matcouply/coupled_matrices.py:cmf_to_matrices", "src/matcouply/coupled_matrices.py:cmf_to_matrix", "docs/coupled_matrix_factorization.rst"]}
{"id": "C113", "title": "Unimodal regression takes linear time and products are computed in the cheaper order", "statement": "The number of loop passes and written entries of unimodal_regression is at most proportional to the number of entries of its input, for every input and both settings of non_negativity; the product of B, the data and C is computed with the order of multiplications that needs fewer scalar multiplications.", "quantifier": "all lengths, all inputs over all number types (also floating-point numbers and integers), all matrix sizes", "why_tests_cant": "Running time on examples does not bound the worst case; a single bad input could take quadratic time.", "anchors": ["src/matcouply/_unimodal_regression.py:prefix_isotonic_regression", "src/matcouply/_unimodal_regression.py:unimodal_regression", "src/matcouply/decomposition.py:admm_update_A", "src/matcouply/decomposition.py:_cmf_reconstruction_error"]}
{"id": "C114", "title": "Runs stand still exactly at blockwise constrained solutions", "statement": "With convex penalties, positive feasibility penalties (or, without penalties, a determined fit) and any number of inner iterations and inner tolerance, one outer iteration of cmf_aoadmm leaves factors, auxiliary and dual variables unchanged exactly if for every updated mode all auxiliary variables equal the factor and the factor with the scaled dual variables as multipliers is a saddle point of its regularized subproblem with the other factors fixed. Hence if one more iteration does not change the result of a call, each updated factor minimises the regularized loss over the feasible choices of that factor, and a run started from such a state returns it after any number of iterations.", "quantifier": "all ranks, shapes, data, convex penalties, L2 parameters, update flags, inner iteration counts, inner tolerances and states", "why_tests_cant": "Tests run a few iterations on random data; that standing still means optimality, and that several inner iterations cannot cycle, is a statement about all states.", "anchors": ["src/matcouply/decomposition.py:cmf_aoadmm", "src/matcouply/decomposition.py:admm_update_A", "src/matcouply/decomposition.py:admm_update_B", "src/matcouply/decomposition.py:admm_update_C"]}
{"id": "C115", "title": "Limits of convergent runs are blockwise constrained solutions", "statement": "With convex penalties, if the factors, auxiliary variables and dual variables of a run of cmf_aoadmm converge as the number of iterations grows (or converge along some iteration counts to the same limit as one iteration later), and at the limit the feasibility penalties are positive (or, for a mode without penalties, the fit determines the factor), then at the limit all auxiliary variables of every updated mode equal the factor, the factor with the scaled dual variables is a saddle point of its regularized subproblem, and so it minimises the regularized loss over the feasible choices of that factor with the other factors fixed. This holds for every number of inner iterations and every inner tolerance, although early stopping makes the number of inner iterations jump.", "quantifier": "all ranks, shapes, data, convex penalties, L2 parameters, update flags, inner iteration counts, inner tolerances, initial states and convergent sequences of iteration counts", "why_tests_cant": "A test sees finitely many iterations of a run, never its limit.", "anchors": ["src/matcouply/decomposition.py:cmf_aoadmm", "src/matcouply/decomposition.py:admm_update_A", "src/matcouply/decomposition.py:admm_update_B", "src/matcouply/decomposition.py:admm_update_C"]}
{"id": "C116", "title": "Custom penalty of the documentation", "statement": "The update of UnimodalAllExceptLast, the penalty class written in the example on custom penalties, returns a nearest matrix whose columns but the last are unimodal (and which is non-negative if requested), for every number of components; it keeps a matrix exactly if it satisfies the constraint; a fit with it returns auxiliary matrices that satisfy the constraint; and the generated unit tests pass for every draw.", "quantifier": "for all matrices, numbers of rows and components, both values of non_negativity, all other penalties, data and arguments of the fit", "why_tests_cant": "The class is only run in a documentation build, on one simulated data set with three components; its generated tests are only listed, not run, and never draw a single column.", "anchors": ["examples/plot_custom_penalty.py:UnimodalAllExceptLast", "examples/plot_custom_penalty.py:TestUnimodalAllExceptLast", "src/matcouply/_unimodal_regression.py:unimodal_regression"]}
{"id": "C117", "title": "Selection among several starts in the examples", "statement": "The loops over random initialisations in the examples keep the fit with the lowest loss among those that satisfy the condition of the example, the printed score or error is that of the kept fit, and the loops do not raise.", "quantifier": "for all numbers of starts, all results of the fits (including NaN losses), and for the fits of the package on all data that are not zero", "why_tests_cant": "The examples are run for one data set and fixed seeds; which start wins is not checked anywhere.", "anchors": ["examples/plot_bikesharing.py:selected_init", "examples/plot_examining_different_number_of_components.py:selected_cmf", "examples/plot_simulated_nonnegative.py:lowest_error", "examples/plot_custom_penalty.py:lowest_error"]}
{"id": "C118", "title": "Preprocessing, normalisation and order of the components in the examples", "statement": "The standardised data of the etching example have columns with mean 0 and mean square 1; normalising the components of a decomposition keeps the matrices it stands for and gives columns of norm 1; reordering and clipping keeps the matrices of non-negative factors; and the first component after ordering is the one that explains most of the variation.", "quantifier": "for all data, factors, weights and any argsort", "why_tests_cant": "The examples only plot the result for one data set.", "anchors": ["examples/plot_semiconductor_etch_analysis.py:standardised", "examples/plot_semiconductor_etch_analysis.py:permutation", "examples/plot_bikesharing.py:order", "examples/plot_simulated_nonnegative.py:normalize"]}
{"id": "C119", "title": "The inner ADMM converges at least like 1/N", "statement": "For convex penalties, after N + 1 inner iterations the squared gaps between the factor and the auxiliary variables plus the squared changes of the auxiliary variables, weighted with the feasibility penalties, sum to at most 1/N times the squared distance of the initial auxiliary and dual variables to any solution with its multipliers.", "quantifier": "for all modes, data, numbers and kinds of convex penalties, initial variables, numbers of iterations", "why_tests_cant": "A rate is a statement about all numbers of iterations and all problems.", "anchors": ["src/matcouply/decomposition.py:admm_update_A", "src/matcouply/decomposition.py:admm_update_B", "src/matcouply/decomposition.py:admm_update_C"]}
{"id": "C120", "title": "The inner ADMM with one convex penalty converges geometrically", "statement": "With one convex penalty on a mode and a uniquely solvable fit, the squared distances of the factor, the auxiliary and the dual variables to the solution and its multiplier decrease at least like a power of a number below 1, which only depends on the condition of the problem relative to the feasibility penalty, on the ridge coefficient and on feasibility_penalty_scale.", "quantifier": "for all modes, data, convex penalties, initial variables and numbers of iterations", "why_tests_cant": "A rate is a statement about all numbers of iterations and all problems.", "anchors": ["src/matcouply/decomposition.py:admm_update_A", "src/matcouply/decomposition.py:admm_update_B", "src/matcouply/decomposition.py:admm_update_C"]}
{"id": "C121", "title": "inner_tol ends the inner loop", "statement": "With a positive inner_tol, convex penalties and a uniquely solvable fit whose solution is not zero, there is a number of inner iterations from which on inner_n_iter_max has no effect: the loop ends by itself, with relative gaps below inner_tol. If the solution is zero the loop may use all iterations, however many are allowed.", "quantifier": "for all modes, data, convex penalties, initial variables, tolerances and limits", "why_tests_cant": "Tests use a handful of iterations and do not look at when the inner loop ends.", "anchors": ["src/matcouply/decomposition.py:_check_inner_convergence", "src/matcouply/decomposition.py:admm_update_A", "src/matcouply/decomposition.py:admm_update_B", "src/matcouply/decomposition.py:admm_update_C"]}
{"id": "C122", "title": "Runs that update one mode converge at a rate", "statement": "If cmf_aoadmm updates a single factor with convex penalties, the squared distances between the factor and its auxiliary variables after n outer iterations are at most a constant divided by n - 1, where the constant depends on the start only; with one convex penalty of the package and a fit that determines the factor, the factor converges geometrically to the only constrained minimiser. Without inner_tol every inner iteration counts.", "quantifier": "all data, factors, convex penalties, initial auxiliary and dual variables, numbers of outer and inner iterations", "why_tests_cant": "Tests run a fixed number of iterations on a few data sets.", "anchors": ["src/matcouply/decomposition.py:cmf_aoadmm", "src/matcouply/decomposition.py:admm_update_A", "src/matcouply/decomposition.py:admm_update_B", "src/matcouply/decomposition.py:admm_update_C"]}
{"id": "C123", "title": "Numbers outside the meaningful range are rejected", "statement": "Like the strengths of the other penalties, a negative l2_penalty and a feasibility_penalty_scale that is not positive are rejected, or what the call returns is still a minimiser (without penalties) and respects the penalties.", "quantifier": "all data, factors, penalties, l2_penalty and feasibility_penalty_scale", "why_tests_cant": "Tests use values in the meaningful range.", "anchors": ["src/matcouply/decomposition.py:cmf_aoadmm", "src/matcouply/decomposition.py:admm_update_A", "src/matcouply/decomposition.py:admm_update_B", "src/matcouply/decomposition.py:admm_update_C"]}
{"id": "C124", "title": "The PARAFAC2 constraint makes the components unique", "statement": "If a PARAFAC2 factorization (equal cross products of the B matrices) has linearly independent columns in C and in a B matrix, and the rows of A determine the forms of degree four, then every PARAFAC2 factorization of the same matrices with as many components has the same components up to their order and one factor for each component; with non-negative A the signs agree too. With one or two matrices this can fail, also for non-negative factors.", "quantifier": "all factorizations with the same number of components, for all numbers and sizes of matrices", "why_tests_cant": "Uniqueness is a statement about all other factorizations of the same matrices, which no run enumerates.", "anchors": ["src/matcouply/coupled_matrices.py:cmf_to_matrices", "src/matcouply/decomposition.py:parafac2_aoadmm", "docs/coupled_matrix_factorization.rst"]}
{"id": "C125", "title": "A good PARAFAC2 fit recovers the components that generated the data", "statement": "For a PARAFAC2 factorization that is unique in the sense of C124, every bound on the factors and every accuracy there is a tolerance such that a call of cmf_aoadmm with parafac2=True on data within the tolerance of its matrices, whose diagnostics report a satisfied feasibility condition and a last reconstruction error below the tolerance, returns its components up to their order and the accuracy, whatever initialisation, further penalties and iteration numbers were used.", "quantifier": "all such factorizations, data, initialisations, penalties, numbers of iterations and accuracies", "why_tests_cant": "Tests recover the components of a few simulated datasets; the claim is about every fit with small reported errors.", "anchors": ["src/matcouply/decomposition.py:cmf_aoadmm", "src/matcouply/decomposition.py:compute_feasibility_gaps", "src/matcouply/decomposition.py:_cmf_reconstruction_error", "src/matcouply/penalties.py:Parafac2"]}
{"id": "C126", "title": "Reported feasibility gaps are those of the docstring", "statement": "compute_feasibility_gaps returns for every penalty the distance of the factor and its auxiliary variable divided by the norm of the auxiliary variable, as its docstring says, and a satisfied feasibility condition bounds these numbers by the tolerance.", "quantifier": "all factors, auxiliary variables, penalties and tolerances", "why_tests_cant": "The two definitions differ for all factors that differ from the auxiliary variable in norm; tests compare with one of them on a few factors.", "anchors": ["src/matcouply/decomposition.py:compute_feasibility_gaps", "src/matcouply/decomposition.py:_check_feasibility"]}
{"id": "C127", "title": "Norm-based regularisation on all modes", "statement": "Penalties that scale with the norm of a parameter need norm-based regularisation of all modes (last note of docs/coupled_matrix_factorization.rst). If one mode has only sign, unimodality or PARAFAC2 constraints, the penalties of the other modes can be made as small as one likes without changing the represented matrices, they are zero for every best model, and with an L1 or L2 penalty there is no best model if there is any better than zero; hard bounds on the other modes do not restrict the matrices. If every mode has an L2 penalty, an L1 penalty, min- and max-bounds or hard L2 norm constraints, there is a best model.", "quantifier": "all data, ranks, shapes, all numbers and parameters of penalties", "why_tests_cant": "It is about minima over all models, and about models that do not exist; tests look at single fits.", "anchors": ["src/matcouply/decomposition.py:cmf_aoadmm", "src/matcouply/penalties.py:L1Penalty", "src/matcouply/penalties.py:L2Ball", "src/matcouply/penalties.py:Box", "src/matcouply/penalties.py:Parafac2"]}
{"id": "C128", "title": "The container of the B factor matrices does not matter", "statement": "cmf_aoadmm started from an initial factorization with its B factor matrices in a tuple returns the same factorization and diagnostics as started from the same matrices in a list.", "quantifier": "All shapes, data, penalties, parameters, stopping rules and initial factorizations of lists or tuples.", "why_tests_cant": "The tests start from random factorizations, whose B factor matrices are in a list; whether a tuple fails depends on how many inner iterations the first update does.", "anchors": ["src/matcouply/decomposition.py:admm_update_B", "src/matcouply/decomposition.py:cmf_aoadmm", "src/matcouply/decomposition.py:initialize_cmf"]}
{"id": "C129", "title": "Representations tell penalties apart", "statement": "The representation of a penalty of the package consists of its class name and every parameter of its constructor with its value, each once and nothing else. Two penalties with the same representation are of the same class and have the same parameters, provided that the values of the parameters have different representations. Parentheses in the representation match. A penalty that never set its initialisation has no representation.", "quantifier": "all penalty classes, all values of their parameters and all functions that print values", "why_tests_cant": "Tests print a few penalties; that different penalties have different representations concerns all pairs of parameter values.", "anchors": ["src/matcouply/penalties.py:__repr__", "src/matcouply/penalties.py:_auto_add_param_to_repr"]}
{"id": "C130", "title": "Which penalties fit the data", "statement": "A call of cmf_aoadmm whose initial factors fit the data fails because of the shapes or methods of a penalty exactly if a penalty on an updated mode does not suit that mode. A GeneralizedL2Penalty suits a mode if its norm matrix has as many rows as the factor matrix (as every B matrix, which must therefore all have the same number of rows); Parafac2 suits only the B matrices, and only matrices with at least as many rows as components if the SVD function returns all singular vectors; A accepts penalties without row updates only with a constant feasibility penalty. Otherwise the returned factors have the shapes of the initial ones.", "quantifier": "all numbers and shapes of matrices, ranks, lists of penalties, modes to update and numbers of iterations", "why_tests_cant": "Tests use penalties that fit, or one that does not; that nothing else fails and everything unsuitable fails concerns all combinations of penalties, shapes and options.", "anchors": ["src/matcouply/decomposition.py:cmf_aoadmm", "src/matcouply/penalties.py:factor_matrix_update", "src/matcouply/penalties.py:factor_matrices_update", "src/matcouply/penalties.py:init_aux"]}
{"id": "C131", "title": "With a fixed C the matrices are fitted independently", "statement": "A call of cmf_aoadmm that does not update C (update_C=False), without a constant feasibility penalty, without tol and inner_tol, and with penalties that act on the rows of A and on every B factor matrix on its own (all penalties of the package except Parafac2 with an updated coordinate matrix), treats the matrices independently: fitting any selection of the matrices from their own initial values returns the same rows of A, B factor matrices, auxiliary and dual variables as fitting all matrices together. With a constant feasibility penalty or if C is updated this is not so.", "quantifier": "all data, shapes, ranks, selections of matrices, penalties, initial values and numbers of iterations", "why_tests_cant": "Independence concerns all data of the other matrices and all selections; a test compares two runs.", "anchors": ["src/matcouply/decomposition.py:cmf_aoadmm", "src/matcouply/decomposition.py:admm_update_A", "src/matcouply/decomposition.py:admm_update_B", "src/matcouply/penalties.py:factor_matrices_update"]}
{"id": "C132", "title": "A feasible factorization that reproduces the data is kept", "statement": "Started from factors that reproduce the data exactly, with auxiliary variables equal to the factors, dual variables 0, no weights and no L2 penalty, cmf_aoadmm returns these factors whatever the number of outer and inner iterations and the tolerances, provided every updated mode either has penalties that leave its factor unchanged (feasible factors for non-negativity, box, L2-ball, unimodality and Parafac2 constraints; penalties of value 0) and positive feasibility penalties, or has no penalties and is determined by the fit. All reported reconstruction errors and feasibility gaps are 0 and all losses are the value of the penalties. With positive tolerances the call stops after one iteration, by the absolute criterion if the penalties have value 0; with absolute_tol not above 0 it then never stops early, because the relative criterion compares with 0. With other auxiliary variables the factors change.", "quantifier": "all data, shapes, ranks, penalties, SVD routines, parameters and tolerances", "why_tests_cant": "tests start from random factors; the exact fixed point is only met approximately, and they cannot cover all penalties and numbers of iterations", "anchors": ["src/matcouply/decomposition.py:cmf_aoadmm", "src/matcouply/decomposition.py:admm_update_A", "src/matcouply/decomposition.py:admm_update_B", "src/matcouply/decomposition.py:admm_update_C", "src/matcouply/penalties.py:Parafac2.factor_matrices_update"]}
{"id": "C133", "title": "What an unpenalized A explains, and bounds from L2 penalties", "statement": "If A is updated by cmf_aoadmm and has no penalties besides a non-negative L2 penalty l, then after every iteration, for every matrix, squared error + squared norm of the represented matrix + 2 l (squared norm of the row of A) = squared norm of the data matrix. So all recorded reconstruction errors after the first iteration are at most 1, and 1 minus their square is the share of the data that is explained. A factor that is updated, has a positive L2 penalty l and no other penalties is bounded by the data whatever the initial values and the other modes are: squared norm at most |X|^2/(4l), row by row for A, matrix by matrix for B, and as a whole for C. With other penalties the error may exceed 1.", "quantifier": "all data, shapes, ranks, initial values, penalties on the other modes, numbers of iterations, SVD routines", "why_tests_cant": "the identity holds for real numbers and every execution; tests see single executions up to rounding", "anchors": ["src/matcouply/decomposition.py:cmf_aoadmm", "src/matcouply/decomposition.py:admm_update_A", "src/matcouply/decomposition.py:admm_update_B", "src/matcouply/decomposition.py:admm_update_C", "src/matcouply/decomposition.py:_cmf_reconstruction_error"]}
{"id": "C134", "title": "Symmetries of the start are kept", "statement": "Two components that start equal (weights, factors, auxiliary and dual variables) are equal in the result of cmf_aoadmm, so components started with constant values give represented matrices of rank one whatever the rank is. A component that starts at zero in two modes stays zero in these modes, for penalties that do not depend on the sign of the component in these modes. Two equal data matrices with equal starts get equal rows of A and equal B factor matrices, for penalties that do not depend on the order of the matrices. For the first two the updated factors have to be determined by their normal equations, for example by L2 penalties.", "quantifier": "all data, shapes, ranks, penalties with the symmetry, numbers of iterations, stopping rules, valid SVD routines", "why_tests_cant": "a statement about every execution in real arithmetic; tests see single executions, where rounding may break the symmetry", "anchors": ["src/matcouply/decomposition.py:cmf_aoadmm", "src/matcouply/decomposition.py:admm_update_A", "src/matcouply/decomposition.py:admm_update_B", "src/matcouply/decomposition.py:admm_update_C"]}
{"id": "C135", "title": "With fixed A and B the columns of the data are fitted independently", "statement": "If cmf_aoadmm only updates C, without tolerances and with penalties on C that treat every row on its own (non-negativity, bounds, L1), then for any choice of the columns of the data matrices the returned rows of C and of its auxiliary and dual variables are those of a call with only these columns and their initial values. So row k of C does not depend on the other columns. With penalties that couple the rows, like an L2 ball, this fails.", "quantifier": "all data, shapes, ranks, initial values, choices of columns (also reordered or repeated), numbers of iterations, SVD routines", "why_tests_cant": "compares two executions for every choice of columns", "anchors": ["src/matcouply/decomposition.py:cmf_aoadmm", "src/matcouply/decomposition.py:admm_update_C"]}
{"id": "C136", "title": "No fit is better than the truncated SVD of the stacked matrix, which the SVD initialisation reaches", "statement": "The lists of matrices that coupled matrix factorizations of rank R represent are exactly those whose vertically stacked matrix has rank at most R, and then A can be filled with ones. Hence, whatever the penalties, arguments and initial values are, no relative error recorded by cmf_aoadmm and no error of the returned decomposition is below that of the best approximation of rank R of the stacked data, the square root of the sum of the squared singular values after the first R divided by the sum of all of them. Without penalties and started from A filled with ones and the R leading right singular vectors of the stacked data as C (init=\"svd\"), this error is reached in the first iteration and kept: if the first R singular values are positive and no matrix has a zero projection on one of these singular vectors, then after every iteration A is filled with ones, C holds the singular vectors and B_i is X_i C, and a call with positive tolerances stops after at most two iterations and returns these factors.", "quantifier": "all data, shapes, ranks, initial values, penalties, arguments, numbers of iterations, SVD routines satisfying the SVD contract", "why_tests_cant": "the lower bound is over all factorizations and all executions; tests see single executions", "anchors": ["src/matcouply/decomposition.py:cmf_aoadmm", "src/matcouply/decomposition.py:initialize_cmf", "src/matcouply/decomposition.py:admm_update_B", "src/matcouply/decomposition.py:_cmf_reconstruction_error", "docs/coupled_matrix_factorization.rst"]}
{"id": "C137", "title": "The zeros of factors with an L1 penalty", "statement": "If cmf_aoadmm updates a single factor that has an L1 penalty of strength gamma (with or without non-negativity) and a non-negative L2 penalty, then the factor and its auxiliary variable converge to the only matrix with: the derivative of the fit is at most gamma in magnitude for every entry, equal to -gamma at positive and to gamma at negative entries (with non-negativity: at least -gamma, and equal to -gamma at positive entries). In particular the limit is zero if and only if gamma is at least as large as all correlations (magnitudes without non-negativity) of the data with the fixed parts of the components, sum over the other indices of X_ijk times the product of the two other factors.", "quantifier": "all data, shapes, ranks, initial values, fixed factors for which the subproblem is solvable, gamma >= 0, L2 penalties >= 0, inner iterations, feasibility penalty scales, SVD routines satisfying the SVD contract; A, B and C", "why_tests_cant": "the limit is not observable in a finite execution and the threshold is an equivalence over all real strengths", "anchors": ["src/matcouply/decomposition.py:cmf_aoadmm", "src/matcouply/penalties.py:L1Penalty.factor_matrix_update", "src/matcouply/penalties.py:L1Penalty.factor_matrix_row_update", "src/matcouply/decomposition.py:admm_update_A", "src/matcouply/decomposition.py:admm_update_B", "src/matcouply/decomposition.py:admm_update_C"]}
{"id": "C138", "title": "The active bounds of factors with bounds", "statement": "If cmf_aoadmm updates a single factor that has a Box penalty (either bound may be missing) or a NonNegativity penalty, and a non-negative L2 penalty, then the factor and its auxiliary variable converge to the only matrix with: all entries satisfy the bounds, the derivative of the fit is positive only for entries equal to the lower bound, and negative only for entries equal to the upper bound. In particular entries strictly between the bounds have derivative zero.", "quantifier": "all data, shapes, ranks, initial values (feasible or not), fixed factors for which the subproblem is solvable, bounds with lower <= upper, L2 penalties >= 0, inner iterations, feasibility penalty scales, SVD routines satisfying the SVD contract; A, B and C", "why_tests_cant": "the limit is not observable in a finite execution and the equivalence ranges over all real matrices", "anchors": ["src/matcouply/decomposition.py:cmf_aoadmm", "src/matcouply/penalties.py:Box.factor_matrix_update", "src/matcouply/penalties.py:NonNegativity.factor_matrix_update", "src/matcouply/decomposition.py:admm_update_A", "src/matcouply/decomposition.py:admm_update_B", "src/matcouply/decomposition.py:admm_update_C"]}
{"id": "C139", "title": "A norm bound acts as a ridge penalty", "statement": "If cmf_aoadmm updates a single factor whose columns have an L2 norm bound b > 0 (L2Ball, with or without non-negativity) and a non-negative L2 penalty, then the factor and its auxiliary variable converge to the only matrix with columns of norm at most b for which every column y with derivative g of the fit has a multiplier mu >= 0, zero if the norm is less than b, such that g + mu y = 0 (with non-negativity: y >= 0, g + mu y >= 0, and g + mu y = 0 at positive entries).", "quantifier": "all data, shapes, ranks, initial values (feasible or not), fixed factors for which the subproblem is solvable, bounds b > 0, L2 penalties >= 0, inner iterations, feasibility penalty scales, SVD routines satisfying the SVD contract; A, B and C", "why_tests_cant": "the limit is not observable in a finite execution and the equivalence ranges over all real matrices", "anchors": ["src/matcouply/decomposition.py:cmf_aoadmm", "src/matcouply/penalties.py:L2Ball.factor_matrix_update", "src/matcouply/decomposition.py:admm_update_A", "src/matcouply/decomposition.py:admm_update_B", "src/matcouply/decomposition.py:admm_update_C"]}
{"id": "C140", "title": "The jumps of factors with a total variation penalty", "statement": "If cmf_aoadmm updates a single factor that has a total variation penalty of strength alpha without L1 term, and a non-negative L2 penalty, then the factor and its auxiliary variable converge to the only matrix for which in every column the derivatives of the fit sum to zero, no partial sum of them (from the first entry) exceeds alpha in magnitude, the partial sum up to a position is alpha if the next entry is larger, and -alpha if it is smaller. In particular the column is constant wherever the partial sums are strictly between -alpha and alpha.", "quantifier": "all data, shapes, ranks, initial values, fixed factors for which the subproblem is solvable, alpha > 0, L2 penalties >= 0, inner iterations, feasibility penalty scales, SVD routines and one-dimensional total variation solvers satisfying their contracts; A, B and C", "why_tests_cant": "the limit is not observable in a finite execution and the equivalence ranges over all real matrices", "anchors": ["src/matcouply/decomposition.py:cmf_aoadmm", "src/matcouply/penalties.py:TotalVariationPenalty.factor_matrix_update", "src/matcouply/decomposition.py:admm_update_A", "src/matcouply/decomposition.py:admm_update_B", "src/matcouply/decomposition.py:admm_update_C"]}
{"id": "C141", "title": "A generalised L2 penalty adds twice its norm matrix to the normal equations", "statement": "If cmf_aoadmm updates a single factor that has a GeneralizedL2Penalty with symmetric positive semidefinite norm matrix M, and a non-negative L2 penalty, then the factor and its auxiliary variable converge to the only matrix whose columns y satisfy g + 2 M y = 0, where g is the derivative of the fit including the L2 penalty. So a norm matrix c I acts like an L2 penalty of strength 2 c.", "quantifier": "all data, shapes, ranks, initial values, fixed factors for which the subproblem is solvable, symmetric positive semidefinite norm matrices, L2 penalties >= 0, inner iterations, feasibility penalty scales, SVD routines satisfying the SVD contract; A, B and C", "why_tests_cant": "the limit is not observable in a finite execution and the equivalence ranges over all real matrices", "anchors": ["src/matcouply/decomposition.py:cmf_aoadmm", "src/matcouply/penalties.py:GeneralizedL2Penalty.factor_matrix_update", "src/matcouply/decomposition.py:admm_update_A", "src/matcouply/decomposition.py:admm_update_B", "src/matcouply/decomposition.py:admm_update_C"]}
{"id": "C142", "title": "Limits of convergent runs are stationary points of the joint objective", "statement": "If the factors, auxiliary and dual variables of cmf_aoadmm converge (along a subsequence, together with the states one iteration later) and the penalties are convex, then the limit is a first-order stationary point of the joint problem over all updated factors: for all feasible factors, the derivative of the loss with L2 penalties from the limit towards them plus the change of the penalties is not negative.", "quantifier": "all data, shapes, ranks, initial values, convex penalties and their numbers, L2 penalties, sets of updated modes, inner iterations; all runs that converge as stated; all feasible factors moved to jointly", "why_tests_cant": "the limit is not observable in a finite execution and the claim ranges over all joint directions", "anchors": ["src/matcouply/decomposition.py:cmf_aoadmm", "src/matcouply/decomposition.py:admm_update_A", "src/matcouply/decomposition.py:admm_update_B", "src/matcouply/decomposition.py:admm_update_C"]}
{"id": "C143", "title": "Limits of factorizations with bounds satisfy the optimality conditions in all modes", "statement": "If a run of cmf_aoadmm with bounds (box constraints or non-negativity) on its factors converges (along a subsequence, together with the states one iteration later), then in the limit every entry of every updated factor is within its bounds, the derivative of the loss with L2 penalties with respect to it is positive only if it equals the lower bound and negative only if it equals the upper bound, and the auxiliary variables equal the factors. In particular, limits of non-negative factorizations satisfy the Karush-Kuhn-Tucker conditions.", "quantifier": "all data, shapes, ranks, initial values, bounds per mode (each may be missing), L2 penalties >= 0, sets of updated modes, inner iterations, SVD routines satisfying the SVD contract; all runs that converge as stated with positive feasibility penalties at the limit", "why_tests_cant": "the limit is not observable in a finite execution", "anchors": ["src/matcouply/decomposition.py:cmf_aoadmm", "src/matcouply/penalties.py:Box.factor_matrix_update", "src/matcouply/penalties.py:NonNegativity.factor_matrix_update"]}
{"id": "C144", "title": "Limits of sparse factorizations satisfy the optimality conditions in all modes and are balanced", "statement": "If a run of cmf_aoadmm with L1 penalties (with or without non-negativity) on its factors converges (along a subsequence, together with the states one iteration later), then in the limit, for every entry of every updated factor, the derivative of the loss with L2 penalties is at most gamma in magnitude, -gamma at positive and gamma at negative entries (with non-negativity: at least -gamma, and -gamma at positive entries). If all factors are updated, then for every component gamma times the L1 norm plus the L2 coefficient times the squared norm is the same in all three modes.", "quantifier": "all data, shapes, ranks, initial values, strengths >= 0 per mode, L2 penalties >= 0, sets of updated modes, inner iterations, SVD routines satisfying the SVD contract; all runs that converge as stated with positive feasibility penalties at the limit", "why_tests_cant": "the limit is not observable in a finite execution", "anchors": ["src/matcouply/decomposition.py:cmf_aoadmm", "src/matcouply/penalties.py:L1Penalty.factor_matrix_update", "src/matcouply/penalties.py:L1Penalty.factor_matrix_row_update"]}
{"id": "C145", "title": "In limits of non-negative factorizations the sums of squares add up", "statement": "If a run of cmf_aoadmm with non-negativity on its factors converges (along a subsequence, together with the states one iteration later), then in the limit, for every updated mode and every component, the inner product of the residual with the component is the L2 coefficient of the mode times the squared norm of the component in the mode. The sum of squares of the data is the sum of squared errors plus the sum of squares of the model plus twice these terms. So without L2 penalty on an updated mode the residual is orthogonal to every component, and the explained part of the data is between 0 and 1.", "quantifier": "all data, shapes, ranks, initial values, L2 penalties >= 0, sets of updated modes, inner iterations, SVD routines satisfying the SVD contract; all runs that converge as stated with positive feasibility penalties at the limit", "why_tests_cant": "the limit is not observable in a finite execution", "anchors": ["src/matcouply/decomposition.py:cmf_aoadmm", "src/matcouply/penalties.py:NonNegativity.factor_matrix_update", "src/matcouply/penalties.py:NonNegativity.factor_matrix_row_update"]}
