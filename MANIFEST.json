{"claims":[
{"property": "C01", "status": "proved", "theorems": ["Verif.Props.C01_unimodal_nearest", "Verif.Props.C01_empty"], "note": "float arrays; exact arithmetic"},
{"property": "C02", "status": "proved", "theorems": ["Verif.Props.C02_nonneg_unimodal_nearest"], "note": "float arrays; exact arithmetic"},
{"property": "C03", "status": "proved", "theorems": ["Verif.Props.C03_matrix_columns"], "note": "includes that the error value is the squared distance"},
{"property": "C04", "status": "proved", "theorems": ["Verif.Props.C04_prefix_isotonic"], "note": "arbitrary positive weights or None"},
{"property": "C05", "status": "partial", "theorems": ["Verif.Props.C05_integer_dtype_false", "Verif.Props.C05_integer_dtype_partial", "Verif.Props.C05_feasible_partial", "Verif.Props.C05_exact", "Verif.Props.C05_nonneg_false"], "note": "false for the code (integer arrays truncate level sets): counterexamples proved; without non_negativity it holds exactly when the nearest unimodal vector consists of integers; for every integer array the result is an integer, unimodal (non-negative) vector and feasible arrays are returned as they are"},
{"property": "C06", "status": "proved", "theorems": ["Verif.Props.C06_matrices", "Verif.Props.C06_matrix"], "note": "entries of every represented matrix, for every validated factorization"},
{"property": "C07", "status": "proved", "theorems": ["Verif.Props.C07_accepts_iff", "Verif.Props.C07_rejects", "Verif.Props.C07_rejects_wrong"], "note": "accepts exactly the well-shaped factorizations; otherwise TypeError/ValueError"},
{"property": "C08", "status": "proved", "theorems": ["Verif.Props.C08_tensor", "Verif.Props.C08_padded", "Verif.Props.C08_empty"], "note": "zero matrices raise ValueError (recorded as a finding)"},
{"property": "C09", "status": "proved", "theorems": ["Verif.Props.C09_unfolded", "Verif.Props.C09_vec", "Verif.Props.C09_unfolded_nopad", "Verif.Props.C09_vec_nopad", "Verif.Props.C09_modes"], "note": ""},
{"property": "C10", "status": "proved", "theorems": ["Verif.Props.C10_cp", "Verif.Props.C10_cp_shapes", "Verif.Props.C10_cp_order"], "note": ""},
{"property": "C100", "status": "partial", "theorems": ["Verif.Props.C100_stored_partial", "Verif.Props.C100_exact_partial", "Verif.Props.C100_uniform_partial", "Verif.Props.C100_padded_partial", "Verif.Props.C100_false"], "note": "False for the code: the tensor has the number type of the first matrix, later floating-point matrices are truncated (C100_false). Proved for all factorizations: what is stored (C100_stored_partial), that the property holds exactly if the first matrix is floating-point or all entries are integers (C100_exact_partial), sufficient conditions on the arrays (C100_uniform_partial), the same for create_padded_tensor (C100_padded_partial). Missing: nothing that is true; overflow and rounding are not modelled."},
{"property": "C101", "status": "partial", "theorems": ["Verif.Props.C101_float_partial", "Verif.Props.C101_integer", "Verif.Props.C101_aux_integer", "Verif.Props.C101_false", "Verif.Props.C101_box_false"], "note": "False for the code: A and the row-wise auxiliary variables of mode 0 are updated in place, so integer arrays truncate every update (C101_false; C101_box_false: a box constraint is violated). Proved: with floating-point A, and floating-point auxiliary variables or a constant feasibility penalty, the call is that of the model without types (C101_float_partial; B, C and their auxiliary variables may be integer arrays); with integer arrays the returned A and auxiliary variables always consist of integers (C101_integer, C101_aux_integer). Overflow is not modelled."},
{"property": "C102", "status": "proved", "theorems": ["Verif.Props.C102", "Verif.Props.C102_fit", "Verif.Props.C102_clip", "Verif.Props.C102_exact", "Verif.Props.C102_example"], "note": "C102 for the loop with everything but the order of the updates and the element-wise operations left open; C102_clip: NonNegativity and Box move every entry to the nearest number within the bounds and leave NaN; C102_exact: with the open parts filled in as in the exact model, the loop is the exact loop, so the skeleton is that of the other theorems. C102_example runs it in an arithmetic with nine numbers and NaN. Crossed Box bounds and a norm bound that is not positive are excluded; an empty column is excluded for Unimodality."},
{"property": "C103", "status": "partial", "theorems": ["Verif.Props.C103_false", "Verif.Props.C103_hidden", "Verif.Props.C103_partial"], "note": "False: max(0, nan) is 0 in Python, so the recorded error of factors with NaN is always that of a perfect fit (C103_hidden); a call with a NaN factor reports convergence (C103_false). True part: a reported convergence excludes NaN in factors with an L2 penalty and in the last mode with a penalty (C103_partial)."},
{"property": "C104", "status": "proved", "theorems": ["Verif.Props.C104"], "note": "For any arithmetic and library."},
{"property": "C105", "status": "proved", "theorems": ["Verif.Props.C105", "Verif.Props.C105_same", "Verif.Props.C105_fixed", "Verif.Props.C105_exact", "Verif.Props.C105_stops", "Verif.Props.C105_gaps", "Verif.Props.C105_inner"], "note": "For any arithmetic and library. C105_exact, C105_stops, C105_gaps, C105_inner: with exact real arithmetic, linear systems, reconstruction error, L2 terms, feasibility gaps (of factors that are not zero) and stopping rules are those of the exact model."},
{"property": "C106", "status": "partial", "theorems": ["Verif.Props.C106_false", "Verif.Props.C106_A", "Verif.Props.C106_B", "Verif.Props.C106_partial", "Verif.Props.C106_ridge", "Verif.Props.C106_reported"], "note": "False for matrices of different norms (C106_false: the C-update minimises another function). Proved: the A- and B-updates for all nonzero matrices (with an invertible system); the C-update and the reported data term if all matrices have the same norm; whole calls with L2 penalties if all matrices have norm one."},
{"property": "C107", "status": "partial", "theorems": ["Verif.Props.C107_false", "Verif.Props.C107_loss_false", "Verif.Props.C107_A_partial", "Verif.Props.C107_B_partial", "Verif.Props.C107_C_partial"], "note": "Second inner condition false (C107_false), condition of the docstring on the losses false (C107_loss_false; what holds instead is C41_partial). Proved: the first inner condition, and the second one with a larger bound that depends on the gaps before the last iteration."},
{"property": "C108", "status": "proved", "theorems": ["Verif.Props.C108", "Verif.Props.C108_all", "Verif.Props.C108_zero", "Verif.Props.C108_diverges", "Verif.Props.C108_example"], "note": "C108_diverges is the note at the end of docs/coupled_matrix_factorization.rst."},
{"property": "C109", "status": "partial", "theorems": ["Verif.Props.C109_init", "Verif.Props.C109_updates", "Verif.Props.C109_rows", "Verif.Props.C109_hard", "Verif.Props.C109_suite", "Verif.Props.C109_simplex", "Verif.Props.C109_unimodal", "Verif.Props.C109_unlucky", "Verif.Props.C109_unlucky_tv", "Verif.Props.C109_init_false", "Verif.Props.C109_false"], "note": "First half proved: init_aux and init_dual of the base class and the convex penalties, UnitSimplex and Unimodality pass for all draws, with the suite's own generators for non-negativity, box, L2 ball, unit simplex (random entries up to 1e18) and unimodality. The second half is false: the loops over zip accept lists that are too short, mode 2 is left out of the input validation, and no test compares an update with a projection (C109_init_false, C109_false). C109_unlucky: the generators for generalised L2 and total variation contain draws for which the test of a right penalty fails. Missing: Parafac2, whose test class replaces most of these tests."},
{"property": "C11", "status": "proved", "theorems": ["Verif.Props.C11_parafac2", "Verif.Props.C11_cross_product"], "note": ""},
{"property": "C110", "status": "partial", "theorems": ["Verif.Props.C110_parametrisation_partial", "Verif.Props.C110_parametrisation_false", "Verif.Props.C110_rank", "Verif.Props.C110_short", "Verif.Props.C110_full", "Verif.Props.C110_same", "Verif.Props.C110_update_partial", "Verif.Props.shortSvd_valid", "Verif.Props.C110_false"], "note": "Proved if every matrix has at least as many rows as the rank (existence by polar decomposition and uniqueness of positive semidefinite square roots). False otherwise: no orthonormal basis matrices exist; an update raises ValueError if the SVD function returns all right singular vectors, and with thin SVDs it returns matrices with different cross products (C110_false)."},
{"property": "C111", "status": "partial", "theorems": ["Verif.Props.C111_fits", "Verif.Props.C111_prefix", "Verif.Props.C111_columns", "Verif.Props.C111_rejects_partial", "Verif.Props.C111_rank_partial", "Verif.Props.C111_rank_one_partial", "Verif.Props.C111_rank_exact", "Verif.Props.C111_one_accepted", "Verif.Props.C111_rank_ignored", "Verif.Props.C111_ignored", "Verif.Props.C111_false", "Verif.Props.C111_broadcast"], "note": "No exception for fitting shapes, and all misfits in shape are rejected if A or the B matrices are updated. False otherwise: if only C is updated, an initial factorization of the first matrices is accepted and the others are ignored; another rank is ignored without penalties, and with penalties if the requested rank is 1 (C111_false, C111_broadcast). C111_rank_exact says exactly which ranks are accepted for data of the right shapes. Not covered: Parafac2 and GeneralizedL2Penalty."},
{"property": "C112", "status": "partial", "theorems": ["Verif.Props.C112_data", "Verif.Props.C112_scale", "Verif.Props.C112_only", "Verif.Props.C112_fixed", "Verif.Props.C112_parafac2", "Verif.Props.C112_magnitude", "Verif.Props.C112_flip_partial", "Verif.Props.C112_flip_false", "Verif.Props.C112_unique_partial", "Verif.Props.C112_nonneg_false", "Verif.Props.C112_mix", "Verif.Props.C112_not_unique"], "note": "Two documented claims are false. Flipping a column with all columns not orthogonal to it is not enough: chains of non-orthogonal columns have to be flipped together (C112_flip_false; exact condition in C112_flip_partial). Non-negative A does not fix the sign of a component that is absent in a matrix (C112_nonneg_false; positive A does, C112_unique_partial, for the same C with linearly independent columns). Uniqueness of C under the PARAFAC2 constraint is C124."},
{"property": "C113", "status": "proved", "theorems": ["Verif.Props.C113_prefix", "Verif.Props.C113_vector", "Verif.Props.C113_array", "Verif.Props.C113_order", "Verif.Props.term_triple"], "note": "Steps are passes of loops and entries written by slice assignments; array operations outside loops are not counted (a fixed number of operations of linear cost). The counted functions return the same results as the model without counters."},
{"property": "C114", "status": "proved", "theorems": ["Verif.Props.C114_A", "Verif.Props.C114_B", "Verif.Props.C114_C", "Verif.Props.C114_sweep", "Verif.Props.C114_call", "Verif.Props.C114_stay"], "note": "Updates with any positive number of inner iterations, then outer iterations, then calls; no cycles of inner iterations (ADMM/Periodic). The reals stand for floating-point numbers, and the SVD is assumed valid."},
{"property": "C115", "status": "proved", "theorems": ["Verif.Props.C115_sweep", "Verif.Props.C115"], "note": "From continuity of one inner iteration in the problem and the state (ADMM/Limit), a subsequence with a constant number of inner iterations, and C114. That a run converges is a hypothesis. The reals stand for floating-point numbers, and the SVD is assumed valid."},
{"property": "C116", "status": "partial", "theorems": ["Verif.Props.C116_partial", "Verif.Props.C116_fixed", "Verif.Props.C116_false", "Verif.Props.C116_fit", "Verif.Props.C116_tests"], "note": "Proved for at least two components; false for one component, where the update always raises ValueError (C116_false). Exact arithmetic."},
{"property": "C117", "status": "partial", "theorems": ["Verif.Props.C117_bike", "Verif.Props.C117_bike_fits", "Verif.Props.C117_examine_partial", "Verif.Props.C117_examine_fits", "Verif.Props.C117_examine_false", "Verif.Props.C117_score_false", "Verif.Props.C117_sim_partial", "Verif.Props.C117_sim_later_partial", "Verif.Props.C117_sim_false"], "note": "Proved for the bike sharing example and, for losses that are numbers, for the example on the number of components. False for the simulated example and the example on custom penalties, which compare the loss with a stored reconstruction error and so can keep the worst start (C117_sim_false), and raise NameError if no start satisfies the stopping conditions; false with NaN losses in the example on the number of components (C117_examine_false); the fit score there is one minus half of the relative sum of squared errors (C117_score_false)."},
{"property": "C118", "status": "partial", "theorems": ["Verif.Props.C118_standardise", "Verif.Props.C118_normalise", "Verif.Props.C118_unit", "Verif.Props.C118_frames", "Verif.Props.C118_bike", "Verif.Props.C118_etch_false", "Verif.Props.C118_tv_false"], "note": "Proved except for the order in the etching example, where the components are in ascending order, so that the first explains least (C118_etch_false, C118_tv_false). Columns that are constant or zero, where numpy gives NaN, are excluded; the order is proved for B_i that satisfy the PARAFAC2 constraint exactly."},
{"property": "C119", "status": "proved", "theorems": ["Verif.Props.C119_A", "Verif.Props.C119_B", "Verif.Props.C119_C"], "note": "Repeated calls with one inner iteration each, which is what a call with more does (C33)."},
{"property": "C12", "status": "proved", "theorems": ["Verif.Props.C12_indeterminacy"], "note": "one theorem covering permutations, rescalings and weight absorption"},
{"property": "C120", "status": "proved", "theorems": ["Verif.Props.C120_A", "Verif.Props.C120_B", "Verif.Props.C120_C", "Verif.Props.C120_solvable_A", "Verif.Props.C120_solvable_B", "Verif.Props.C120_solvable_C"], "note": "With an explicit factor in terms of the relative curvature, and as existence of a factor for uniquely solvable problems."},
{"property": "C121", "status": "proved", "theorems": ["Verif.Props.C121_A", "Verif.Props.C121_B", "Verif.Props.C121_C", "Verif.Props.C121_zero", "Verif.Props.C121_zero_false"], "note": "C121_zero: with the solution zero the relative gap stays 1 although the factor tends to the solution."},
{"property": "C122", "status": "proved", "theorems": ["Verif.Props.C122_gaps_A", "Verif.Props.C122_gaps_B", "Verif.Props.C122_gaps_C", "Verif.Props.C122_A", "Verif.Props.C122_B", "Verif.Props.C122_C"], "note": "Exact arithmetic; the 1/n bound for any number of convex penalties with a saddle point (shown to exist in C68), the geometric rate for one penalty."},
{"property": "C123", "status": "partial", "theorems": ["Verif.Props.C123_l2_false", "Verif.Props.C123_scale_false", "Verif.Props.C123_unbounded_A", "Verif.Props.C123_unbounded_B", "Verif.Props.C123_unbounded_C", "Verif.Props.C123_max_A", "Verif.Props.C123_max_B", "Verif.Props.C123_max_C", "Verif.Props.C123_zero_A", "Verif.Props.C123_zero_B", "Verif.Props.C123_zero_C"], "note": "False: with l2_penalty=-3 a call returns the maximiser of an objective without lower bound (C123_l2_false), with feasibility_penalty_scale=-1 a non-negative factor tends to minus infinity (C123_scale_false), with 0 the penalties have no influence (C123_zero). Exact description of l2: a minimiser if the objective grows along all directions (C27), no lower bound if it decreases along one, the maximiser if it decreases along all. The keyword arguments reach these functions unchecked (C81)."},
{"property": "C124", "status": "proved", "theorems": ["Verif.Props.C124_unique", "Verif.Props.C124_components", "Verif.Props.C124_nonneg", "Verif.Props.C124_one", "Verif.Props.C124_two", "Verif.Props.C124_objects"], "note": "C124_one and C124_two show that the number of matrices matters: two non-negative PARAFAC2 factorizations of the same two matrices with different components. FourRows is a sufficient condition; it is not claimed to be necessary."},
{"property": "C125", "status": "proved", "theorems": ["Verif.Props.C125", "Verif.Props.C125_call"], "note": "C125 for any factors, auxiliary variables and their diagnostics; C125_call for whole calls. The tolerance depends on the factorization, the accuracy and the bound on the entries, and is not computed. Factors are assumed to be bounded, since components may diverge and cancel."},
{"property": "C126", "status": "partial", "theorems": ["Verif.Props.C126_matrix_partial", "Verif.Props.C126_B_partial", "Verif.Props.C126_run_partial", "Verif.Props.C126_false", "Verif.Props.C126_equal"], "note": "False: the code divides by the norm of the factor, as docs/optimization.rst says (C126_false). Proved instead: a reported gap g below 1 means that the gap of the docstring is between g/(1+g) and g/(1-g), and after a run with a satisfied feasibility condition it is below tol/(1-tol). Missing: nothing that is true."},
{"property": "C127", "status": "proved", "theorems": ["Verif.Props.C127", "Verif.Props.C127_A", "Verif.Props.C127_B", "Verif.Props.C127_C", "Verif.Props.C127_none", "Verif.Props.C127_std", "Verif.Props.C127_std_none", "Verif.Props.C127_bounds", "Verif.Props.C127_example"], "note": "About the objective (half the squared error plus the values of the penalties and L2 terms of the call), not about runs; for runs with L2 penalties see C108. Total variation without L1 strength, and generalized L2 penalties with a singular matrix, do not bound the norm and do not count as norm-based."},
{"property": "C128", "status": "partial", "theorems": ["Verif.Props.C128_list", "Verif.Props.C128_array", "Verif.Props.C128_partial", "Verif.Props.C128_false", "Verif.Props.C128_default", "Verif.Props.C128_example"], "note": "False for tuples: admm_update_B assigns entries of the container of the caller in its second inner iteration, which raises TypeError (C128_false; whenever there is no inner tolerance and at least two inner iterations, C128_default). The same result is proved for calls whose first B-update does at most one inner iteration, or that do not update the B matrices (C128_partial), and for arrays of floats with three axes (C128_array); C128_list relates the model with containers to the one without."},
{"property": "C129", "status": "partial", "theorems": ["Verif.Props.C129_contents", "Verif.Props.C129_partial", "Verif.Props.C129_false", "Verif.Props.C129_given", "Verif.Props.C129_parentheses", "Verif.Props.C129_missing", "Verif.Props.C129_example"], "note": "The contents are proved for all classes and values. Distinction is proved when the starting values are named schemes and no parameter but the first prints a comma; it is false for given starting values, which all print as given_init. The parentheses never match: one is closed that was not opened."},
{"property": "C13", "status": "proved", "theorems": ["Verif.Props.C13_padded", "Verif.Props.C13_error_iff", "Verif.Props.C13_injective"], "note": ""},
{"property": "C130", "status": "proved", "theorems": ["Verif.Props.C130", "Verif.Props.C130_parafac2", "Verif.Props.C130_evolving", "Verif.Props.C130_example", "Verif.Props.C130_errors"], "note": "Arrays are represented by their shapes; norm matrices are square; numbers of iterations are arguments. Starting values are named schemes."},
{"property": "C131", "status": "proved", "theorems": ["Verif.Props.C131", "Verif.Props.C131_others", "Verif.Props.C131_package", "Verif.Props.C131_example", "Verif.Props.C131_constant_false", "Verif.Props.C131_updateC_false"], "note": "C131 for any map from the selected indices to the matrices; C131_others: other data of other matrices do not change the factors of a matrix; the two _false theorems show that the options in the hypotheses matter."},
{"property": "C132", "status": "proved", "theorems": ["Verif.Props.C132", "Verif.Props.C132_diagnostics", "Verif.Props.C132_stops", "Verif.Props.C132_endless", "Verif.Props.C132_example", "Verif.Props.C132_aux_false", "Verif.Props.keepsA_std", "Verif.Props.keepsB_std", "Verif.Props.keepsC_std", "Verif.Props.keepsB_unimodal", "Verif.Props.keepsB_parafac2"], "note": "Rests/RestsAt state the situation; keepsA_std .. keepsB_parafac2 show which penalties of the package keep a feasible factor; C132_example: two matrices with Parafac2 and non-negativity; C132_aux_false: other auxiliary variables change the factors. absolute_tol=None with tol set is excluded, it raises."},
{"property": "C133", "status": "proved", "theorems": ["Verif.Props.C133", "Verif.Props.C133_errors", "Verif.Props.C133_bound_A", "Verif.Props.C133_bound_B", "Verif.Props.C133_bound_C", "Verif.Props.C133_example", "Verif.Props.C133_penalty_false"], "note": "the linear systems are assumed solvable (SolvableA) where there is no L2 penalty; C133_example reaches the bound; C133_penalty_false: with a penalty on A the relative error can be 33."},
{"property": "C134", "status": "proved", "theorems": ["Verif.Props.C134", "Verif.Props.C134_package", "Verif.Props.twins_rank_one", "Verif.Props.C134_off", "Verif.Props.C134_off_package", "Verif.Props.C134_matrices", "Verif.Props.C134_example", "Verif.Props.C134_off_example", "Verif.Props.C134_matrices_example"], "note": "twins_rank_one turns equal components into rank one. The solver of the total variation penalty has to treat all columns alike."},
{"property": "C135", "status": "proved", "theorems": ["Verif.Props.C135", "Verif.Props.C135_others", "Verif.Props.C135_package", "Verif.Props.C135_example", "Verif.Props.C135_ball_false"], "note": "C135_ball_false shows that the condition on the penalties is needed."},
{"property": "C136", "status": "proved", "theorems": ["Verif.Props.C136_stacked", "Verif.Props.C136", "Verif.Props.C136_svd", "Verif.Props.C136_exact", "Verif.Props.C136_stops", "Verif.Props.C136_call", "Verif.Props.C136_example", "Verif.Props.C136_call_example"], "note": "the singular value decomposition of the stacked matrix is given as an eigendecomposition of its Gram matrix (Spectral), which exists for all data (Spec.exists_spectral); C136_svd assumes solvable systems along the execution, C136_exact derives this from the data; C136_stops: with positive tolerances the call stops after at most two iterations; C136_call: the same from the arguments on."},
{"property": "C137", "status": "proved", "theorems": ["Verif.Props.C137_A", "Verif.Props.C137_B", "Verif.Props.C137_C", "Verif.Props.C137_call_A", "Verif.Props.C137_call_B", "Verif.Props.C137_call_C", "Verif.Props.C137_example", "Verif.Props.C137_call_example"], "note": "LassoEntry, gradA, gradB and gradC are the specification; C137_call_*: the same from the arguments on; C137_example computes the limit max(5 - gamma, 0) for every gamma."},
{"property": "C138", "status": "proved", "theorems": ["Verif.Props.C138_A", "Verif.Props.C138_B", "Verif.Props.C138_C", "Verif.Props.C138_call_A", "Verif.Props.C138_call_B", "Verif.Props.C138_call_C"], "note": "One penalty on the updated factor, real arithmetic; C138_call_* for calls with lower_bound, upper_bound and non_negative in any combination (lower bound in force < upper bound). C138_example, C138_call_example: data [[-5]] with non-negative A, A tends to 0 from 7; data [[5]] with upper bound 2, A tends to 2."},
{"property": "C139", "status": "proved", "theorems": ["Verif.Props.C139_A", "Verif.Props.C139_B", "Verif.Props.C139_C", "Verif.Props.C139_call_A", "Verif.Props.C139_call_B", "Verif.Props.C139_call_C"], "note": "One penalty on the updated factor, real arithmetic; for A the call only returns with a constant feasibility penalty. C139_call_* for calls with l2_norm_bound and non_negative. C139_example, C139_call_example: data [[5]] with bound 2, C tends to 2 with multiplier 3/2."},
{"property": "C14", "status": "proved", "theorems": ["Verif.Props.C14_error", "Verif.Props.C14_shapes_nonneg", "Verif.Props.C14_same_matrices"], "note": "real arithmetic; the random source is a parameter"},
{"property": "C140", "status": "proved", "theorems": ["Verif.Props.C140_A", "Verif.Props.C140_B", "Verif.Props.C140_C", "Verif.Props.C140_call_A", "Verif.Props.C140_call_B", "Verif.Props.C140_call_C"], "note": "One penalty on the updated factor, l1_strength = 0, real arithmetic; condat_tv is represented by its contract. For A the call only returns with a constant feasibility penalty. C140_call_* for calls with tv_penalty. C140_example: data [[0, 5]], strength 1, the column of C tends to (1, 4)."},
{"property": "C141", "status": "proved", "theorems": ["Verif.Props.C141_A", "Verif.Props.C141_B", "Verif.Props.C141_C", "Verif.Props.C141_call_A", "Verif.Props.C141_call_B", "Verif.Props.C141_call_C"], "note": "One penalty on the updated factor, real arithmetic; for A the call only returns with a constant feasibility penalty. C141_call_* for calls with generalized_l2_penalty. C141_example, C141_call_example: data [[6]], norm matrix [[1]], C tends to 2 (an L2 penalty of strength 1 would give 3)."},
{"property": "C142", "status": "proved", "theorems": ["Verif.Props.C142"], "note": "Real arithmetic; convergence is a hypothesis, as in C115, as are solvable subproblems and proper weights at the limit (ConvexA, ConvexB, ConvexC). The example is a run whose factor tends to 0 without reaching it (halving_run)."},
{"property": "C143", "status": "proved", "theorems": ["Verif.Props.C143", "Verif.Props.C143_example"], "note": "Real arithmetic; convergence is a hypothesis, as in C115. One penalty per mode. C143_example: data (1, -1), all factors non-negative and updated, limit 1, 1, (1, 0)."},
{"property": "C144", "status": "proved", "theorems": ["Verif.Props.C144", "Verif.Props.C144_balance", "Verif.Props.C144_example"], "note": "Real arithmetic; convergence is a hypothesis, as in C115. One penalty per mode. C144_example: data 2, strength 1 in all modes, limit 1, 1, 1; it meets the hypotheses of C144_balance too."},
{"property": "C145", "status": "proved", "theorems": ["Verif.Props.C145", "Verif.Props.C145_fraction", "Verif.Props.C145_example"], "note": "Real arithmetic; convergence is a hypothesis, as in C115. One penalty per mode. C145_example: data (1, -1), model (1, 0): 2 = 1 + 1; it meets the hypotheses of C145_fraction too."},
{"property": "C15", "status": "proved", "theorems": ["Verif.Props.C15_nonneg", "Verif.Props.C15_nonneg_row", "Verif.Props.C15_fixed"], "note": "exact arithmetic"},
{"property": "C16", "status": "proved", "theorems": ["Verif.Props.C16_box", "Verif.Props.C16_box_row", "Verif.Props.C16_fixed", "Verif.Props.C16_crossed"], "note": "C16_crossed records the behaviour for min_val > max_val"},
{"property": "C17", "status": "proved", "theorems": ["Verif.Props.C17_l1", "Verif.Props.C17_penalty"], "note": "exact arithmetic"},
{"property": "C18", "status": "proved", "theorems": ["Verif.Props.C18_l2ball", "Verif.Props.C18_fixed", "Verif.Props.C18_init"], "note": "exact arithmetic"},
{"property": "C19", "status": "partial", "theorems": ["Verif.Props.C19_accuracy", "Verif.Props.C19_exact_root", "Verif.Props.C19_bracket", "Verif.Props.C19_never_fails_partial", "Verif.Props.C19_never_fails_false", "Verif.Props.C19_no_rows"], "note": "never-fails is false for huge ranges (C19_never_fails_false); proved for entries up to 1e18"},
{"property": "C20", "status": "proved", "theorems": ["Verif.Props.C20_prox", "Verif.Props.C20_penalty"], "note": "SVD as parameter with contract"},
{"property": "C21", "status": "proved", "theorems": ["Verif.Props.C21_prox", "Verif.Props.C21_penalty"], "note": "condat_tv as parameter with contract"},
{"property": "C22", "status": "proved", "theorems": ["Verif.Props.C22_rows", "Verif.Props.C22_list"], "note": ""},
{"property": "C23", "status": "proved", "theorems": ["Verif.Props.C23_constraint"], "note": "SVD as parameter with contract"},
{"property": "C24", "status": "proved", "theorems": ["Verif.Props.C24_procrustes", "Verif.Props.C24_coordinate", "Verif.Props.C24_descent", "Verif.Props.C24_fixed"], "note": "SVD as parameter with contract"},
{"property": "C25", "status": "proved", "theorems": ["Verif.Props.C25", "Verif.Props.C25_entries", "Verif.Props.C25_not_tensor"], "note": "At least one data matrix; list elements are tensors (otherwise AttributeError, C25_not_tensor). The specification InitSpec covers shapes, acceptance and every rejection."},
{"property": "C26", "status": "partial", "theorems": ["Verif.Props.C26_named_partial", "Verif.Props.C26_given", "Verif.Props.C26_rejects", "Verif.Props.C26_false", "Verif.Props.C26_short"], "note": "Everything except the default random_state=None, which raises AttributeError for the random schemes (C26_false)."},
{"property": "C27", "status": "proved", "theorems": ["Verif.Props.C27_A", "Verif.Props.C27_B", "Verif.Props.C27_C"], "note": "Exact arithmetic; any valid SVD; strict minimiser for every positive number of inner iterations."},
{"property": "C28", "status": "proved", "theorems": ["Verif.Props.C28_A", "Verif.Props.C28_B", "Verif.Props.C28_C"], "note": "One inner iteration (inner_n_iter_max = 1); C33 shows that longer loops repeat it. Penalties enter through the proximal contract ProxOf."},
{"property": "C29", "status": "proved", "theorems": ["Verif.Props.C29", "Verif.Props.invertible_of_l2"], "note": "Objective of the returned factorization, any tolerances and update flags, is at most the initial one."},
{"property": "C30", "status": "partial", "theorems": ["Verif.Props.C30_partial", "Verif.Props.C30_false"], "note": "Losses never increase when the L2 parameters are zero or the data have norm 1. False otherwise (C30_false): the reported loss divides the data term by the squared norm of the data, the updates do not."},
{"property": "C31", "status": "proved", "theorems": ["Verif.Props.C31_A", "Verif.Props.C31_B", "Verif.Props.C31_C"], "note": "An inner iteration is a call with one inner iteration. Penalties enter through ProxOf and convexity."},
{"property": "C32", "status": "proved", "theorems": ["Verif.Props.C32_A", "Verif.Props.C32_B", "Verif.Props.C32_C", "Verif.Props.C32_A_min", "Verif.Props.C32_B_min", "Verif.Props.C32_C_min"], "note": "The _min theorems assume a minimiser and a point satisfying all constraints, all but one strictly, instead of a saddle point. Convergence of the factor itself needs a subproblem that determines it (SolvableA/B/C); without it the represented matrices converge."},
{"property": "C33", "status": "proved", "theorems": ["Verif.Props.C33_A", "Verif.Props.C33_B", "Verif.Props.C33_C"], "note": "The call equals M calls with one inner iteration each."},
{"property": "C34", "status": "partial", "theorems": ["Verif.Props.C34_partial", "Verif.Props.C34_exact", "Verif.Props.C34_false"], "note": "False as stated: a zero row of A without l2 (C34_false). C34_exact says exactly when a system is singular; C34_partial: never with l2 > 0, or with penalties and nonzero weights."},
{"property": "C35", "status": "proved", "theorems": ["Verif.Props.C35_direct", "Verif.Props.C35_reused"], "note": "Exact arithmetic; the threshold max(0, .) never acts."},
{"property": "C36", "status": "proved", "theorems": ["Verif.Props.C36"], "note": "Nonzero factors; includes PARAFAC2 auxiliary variables."},
{"property": "C37", "status": "proved", "theorems": ["Verif.Props.C37"], "note": "Entry t of each list is tied to the state a call with n_iter_max=t and no tolerances returns."},
{"property": "C38", "status": "partial", "theorems": ["Verif.Props.C38_partial", "Verif.Props.C38_false"], "note": "All clauses, the gaps clause only for factors without zero blocks; with a zero factor nan and inf gaps are ignored by the check (C38_false)."},
{"property": "C39", "status": "partial", "theorems": ["Verif.Props.C39_partial", "Verif.Props.HardPen.intoA", "Verif.Props.HardPen.intoB", "Verif.Props.HardPen.intoC", "Verif.Props.parafac2_into", "Verif.Props.parafac2_into_updated", "Verif.Props.C39_simplex", "Verif.Props.simplexUpd_eq", "Verif.Props.C98_certificate", "Verif.Props.C39_false"], "note": "Proved for nonzero final factors; refuted with a zero factor. The contract Into is shown for non-negativity, box, L2 ball, unimodality and PARAFAC2. For UnitSimplex the claim holds with a neighbourhood of the simplex (root finder tolerance): C98_certificate, where the size of the neighbourhood depends on the returned variables only."},
{"property": "C40", "status": "partial", "theorems": ["Verif.Props.C40_partial", "Verif.Props.C40_verbose", "Verif.Props.C40_false"], "note": "verbose never matters; return_errors does not matter unless tol and feasibility_tol are both set with penalties, where C40_false refutes it."},
{"property": "C41", "status": "partial", "theorems": ["Verif.Props.C41_partial", "Verif.Props.C41_absolute", "Verif.Props.C41_relative", "Verif.Props.C41_false"], "note": "With both tolerances the loop stops exactly at the first iteration meeting a criterion; an absolute tolerance alone never stops it and tol without absolute_tol raises TypeError (C41_false)."},
{"property": "C42", "status": "proved", "theorems": ["Verif.Props.C42"], "note": ""},
{"property": "C43", "status": "proved", "theorems": ["Verif.Props.C43"], "note": ""},
{"property": "C44", "status": "partial", "theorems": ["Verif.Props.C44_partial", "Verif.Props.C44_unknown", "Verif.Props.C44_weights_ignored", "Verif.Props.C44_false"], "note": "True for given factorizations (any weights), random, svd, threshold_svd, and TensorLy results with unit weights; refuted for CP/PARAFAC2 results with other weights (init_params normalize_factors=True)."},
{"property": "C45", "status": "partial", "theorems": ["Verif.Props.C45_partial", "Verif.Props.C45_false"], "note": "False: with two or more inner iterations the caller's array A (without weights) is overwritten and the entries of the caller's list of B factor matrices are replaced (C45_false, both with explicit executions). C45_partial: the B matrices and C are never changed; A and the list are unchanged with at most one inner iteration, if the mode is not updated, or (for A) if weights are given."},
{"property": "C46", "status": "partial", "theorems": ["Verif.Props.C46_partial", "Verif.Props.C46_overwritten", "Verif.Props.C46_false"], "note": "False for mode 0 without constant feasibility penalty: the caller's array is the working array and holds the final auxiliary variable afterwards (C46_overwritten; C46_false gives an execution). C46_partial: modes 1 and 2 never, mode 0 not with constant feasibility penalty or if A is not updated."},
{"property": "C47", "status": "proved", "theorems": ["Verif.Props.C47", "Verif.Props.C47_alias"], "note": "Refinement of the whole call, including exceptions, diagnostics and log: the heap program computes what the functional model computes. C47_alias shows that distinctness of the arrays is needed."},
{"property": "C48", "status": "proved", "theorems": ["Verif.Props.C48", "Verif.Props.C48_unchanged", "Verif.Props.C48_success", "Verif.Props.C48_default"], "note": "Lists and tuples of the caller are unchanged whether or not the call raises; each mode uses the parsed penalties followed by the caller's; fresh lists. Inner tuples and generators pass the check and then raise (C48_tuple, C48_generator)."},
{"property": "C49", "status": "proved", "theorems": ["Verif.Props.C49", "Verif.Props.C49_modes", "Verif.Props.C49_same", "Verif.Props.C49_error"], "note": "All documented forms; other lengths raise ValueError."},
{"property": "C50", "status": "partial", "theorems": ["Verif.Props.C50_partial", "Verif.Props.C50_sets", "Verif.Props.C50_false"], "note": "Exact for documented values, except l2_norm_bound=0, which is ignored (C50_false). C50_sets: the constraint sets are those of the penalties' updates. Missing: array-valued bounds and flags that are not booleans."},
{"property": "C51", "status": "proved", "theorems": ["Verif.Props.C51", "Verif.Props.C51_list"], "note": "For all documented values accepted by the parser, matrices and lists of matrices."},
{"property": "C52", "status": "partial", "theorems": ["Verif.Props.C52_partial", "Verif.Props.C52_regs", "Verif.Props.C52_before", "Verif.Props.C52_false"], "note": "ValueError/TypeError as stated and no factor updated, if condat_tv is installed; without it a negative tv_penalty raises ModuleNotFoundError (C52_false). Negative includes -inf; strengths may be infinite. NaN is not modelled."},
{"property": "C53", "status": "proved", "theorems": ["Verif.Props.C53", "Verif.Props.C53_trace", "Verif.Props.C53_flags", "Verif.Props.C53_matrixwise"], "note": "Modes 0 and 1; the option needs at least one matrix (max of an empty list raises)."},
{"property": "C54", "status": "partial", "theorems": ["Verif.Props.C54_partial", "Verif.Props.C54_positional_partial", "Verif.Props.C54_keyword", "Verif.Props.C54_defaults", "Verif.Props.C54_false", "Verif.Props.C54_order_false"], "note": "Equal for keyword arguments and up to 13 positional ones; the statement is false for 14 or more positional arguments, where the parameter lists differ."},
{"property": "C55", "status": "partial", "theorems": ["Verif.Props.C55", "Verif.Props.C55_flags", "Verif.Props.C55_local", "Verif.Props.C55_later", "Verif.Props.C55_status_partial", "Verif.Props.C55_nothing", "Verif.Props.C55_refused", "Verif.Props.C55_false"], "note": "All clauses proved except one: a download without any answer raises the exception of the network library (OSError), not RuntimeError (C55_false)."},
{"property": "C56", "status": "partial", "theorems": ["Verif.Props.C56_partial", "Verif.Props.C56_false"], "note": "False as stated: an interruption while a file is written leaves a truncated file that every later call reads (C56_false). Proved: at most one file is damaged, all other interruption points are harmless, and deleting the damaged file is enough."},
{"property": "C57", "status": "partial", "theorems": ["Verif.Props.C57_partial", "Verif.Props.C57_first", "Verif.Props.C57_false", "Verif.Props.C57_false_all"], "note": "Everything but unimodality is proved. The columns of B_0 are unimodal; the third column of B_i is not for i >= 1 and no column is for i >= 2, because the cyclic shift wraps the tail to the front."},
{"property": "C58", "status": "proved", "theorems": ["Verif.Props.C58", "Verif.Props.C58_any", "Verif.Props.C58_c3", "Verif.Props.C58_single", "Verif.Props.C58_falsy"], "note": "Classes are values with equality; C58_falsy: a class whose truth value is False is rejected although an order exists."},
{"property": "C59", "status": "proved", "theorems": ["Verif.Props.C59_A", "Verif.Props.C59_B", "Verif.Props.C59_C"], "note": "Exact arithmetic; one theorem per mode."},
{"property": "C60", "status": "proved", "theorems": ["Verif.Props.C60_A", "Verif.Props.C60_B", "Verif.Props.C60_C"], "note": "Exact arithmetic, valid SVD; penalties given by their proximal property, positive feasibility penalties."},
{"property": "C61", "status": "proved", "theorems": ["Verif.Props.C61", "Verif.Props.C61_tol"], "note": "Exact arithmetic; penalty updates are total functions in the model. C61_tol shows the tolerance condition is needed."},
{"property": "C62", "status": "proved", "theorems": ["Verif.Props.C62", "Verif.Props.C62_found", "Verif.Props.C62_rejects"], "note": "getattr is an arbitrary function."},
{"property": "C63", "status": "partial", "theorems": ["Verif.Props.C63_partial", "Verif.Props.C63_false"], "note": "False as stated: an unreadable answer with status 200 is stored before it is read (C63_false). Proved for servers whose 200 answers are the data."},
{"property": "C64", "status": "proved", "theorems": ["Verif.Props.C64"], "note": "For calls that return, with distinct arrays."},
{"property": "C65", "status": "proved", "theorems": ["Verif.Props.C65"], "note": "For calls that return, with nonzero factors, l2_norm_bound not 0 (see C50) and consistent bounds."},
{"property": "C66", "status": "proved", "theorems": ["Verif.Props.C66"], "note": "For scalar values of the keyword arguments; each mode has its own value."},
{"property": "C67", "status": "proved", "theorems": ["Verif.Props.C67"], "note": "Sufficient conditions; the model has arrays of matching shapes. C52, C53, C61_tol show what happens otherwise."},
{"property": "C68", "status": "proved", "theorems": ["Verif.Props.C68_A", "Verif.Props.C68_B", "Verif.Props.C68_C"], "note": "One theorem per mode. Existence of a minimiser and of multipliers is proved, not assumed."},
{"property": "C69", "status": "proved", "theorems": ["Verif.Props.C69", "Verif.Props.C69_repeated"], "note": "C69_repeated: the hypothesis on distinct names is needed."},
{"property": "C70", "status": "proved", "theorems": ["Verif.Props.C70", "Verif.Props.C70_other_hours", "Verif.Props.C70_keys"], "note": "C70_other_hours: cities with other hours are relabelled silently. C70_keys: with readable labels the call returns or raises KeyError, according to the data sets in the file."},
{"property": "C71", "status": "proved", "theorems": ["Verif.Props.C71_sequence", "Verif.Props.C71_construct", "Verif.Props.C71_conversions", "Verif.Props.C71_validated"], "note": ""},
{"property": "C72", "status": "proved", "theorems": ["Verif.Props.C72_random", "Verif.Props.C72_svd", "Verif.Props.C72_tensorly", "Verif.Props.C72_unknown", "Verif.Props.C72_given", "Verif.Props.C72_broadcast", "Verif.Props.C72_refines"], "note": "C72_refines: the typed model used by the whole call agrees with this one. C72_broadcast: invalid weights can be accepted."},
{"property": "C73", "status": "proved", "theorems": ["Verif.Props.C73"], "note": ""},
{"property": "C74", "status": "proved", "theorems": ["Verif.Props.C74", "Verif.Props.C74_changed"], "note": "C74_changed: the caller's dictionary is modified."},
{"property": "C75", "status": "proved", "theorems": ["Verif.Props.C75", "Verif.Props.prints_example"], "note": "prints_example: converged in 0 iterations after one iteration"},
{"property": "C76", "status": "proved", "theorems": ["Verif.Props.C76"], "note": "typed model; the factorization object is C71"},
{"property": "C77", "status": "proved", "theorems": ["Verif.Props.C77", "Verif.Props.C77_rejects"], "note": "class bodies are lists of definitions, assignments and deletions"},
{"property": "C78", "status": "proved", "theorems": ["Verif.Props.C78", "Verif.Props.C78_user"], "note": "C78 is about the fixed classes of the module, C78_user about all user class bodies"},
{"property": "C79", "status": "proved", "theorems": ["Verif.Props.C79_updates", "Verif.Props.C79_unimodal", "Verif.Props.C79_simplex"], "note": "exact real arithmetic; total variation relies on the solver contract (SolvesTV), generalized L2 on the contract of the decomposition; UnitSimplex only as far as the statement says: one direction, up to the tolerance"},
{"property": "C80", "status": "proved", "theorems": ["Verif.Props.C80_nonexpansive", "Verif.Props.C80_unimodal_false"], "note": "exact real arithmetic; same external contracts as C79; UnitSimplex and PARAFAC2 are not covered"},
{"property": "C81", "status": "proved", "theorems": ["Verif.Props.C81", "Verif.Props.C81_no_iterations"], "note": "For calls with documented penalty arguments and no penalty objects of the caller; the draws are arbitrary arrays, and the random generator is outside the model."},
{"property": "C82", "status": "proved", "theorems": ["Verif.Props.C82_A", "Verif.Props.C82_B", "Verif.Props.C82_C"], "note": "One theorem per mode, about the whole call from keyword arguments to returned factor, for calls without penalty objects of the caller. The SVD and total variation routines are assumed correct (GoodWorld; such routines are shown to exist). The norm bound must not be 0, which the code ignores (C50)."},
{"property": "C83", "status": "proved", "theorems": ["Verif.Props.C83", "Verif.Props.C83_A", "Verif.Props.C83_B", "Verif.Props.C83_C", "Verif.Props.C83_ridge", "Verif.Props.C83_ridge_call"], "note": "Loop level for all convergent runs; whole calls that update one factor under the hypotheses of C82 with a nonzero solution; C83_ridge and C83_ridge_call: runs without penalties and with a positive ridge on every updated factor, without assuming convergence. The bound N is not explicit."},
{"property": "C84", "status": "proved", "theorems": ["Verif.Props.C84", "Verif.Props.C84_call"], "note": "Loop level with invertible systems; whole call for data of norm 1 and positive L2 parameters on the updated factors."},
{"property": "C85", "status": "proved", "theorems": ["Verif.Props.C85"], "note": "The random state is a stream of numbers filled into matrices row by row."},
{"property": "C86", "status": "proved", "theorems": ["Verif.Props.C86", "Verif.Props.C86_length"], "note": "The random state is any state machine with randint in its range. C86_columns: the rank can exceed the number of columns."},
{"property": "C87", "status": "partial", "theorems": ["Verif.Props.C87_partial", "Verif.Props.C87_false"], "note": "False for TensorLy versions with a list of names: any other attribute of the module tl.tenalg.svd is accepted (C87_false). Proved for dictionaries, and for lists if the module has no other attributes."},
{"property": "C88", "status": "proved", "theorems": ["Verif.Props.C88", "Verif.Props.C88_stationary", "Verif.Props.C88_call"], "note": "C88: boundedness, summable squared changes, existence of limit points, block-wise optimality of every limit point. C88_stationary: limit points are stationary if all factors are updated. C88_call: the same for a whole call."},
{"property": "C89", "status": "proved", "theorems": ["Verif.Props.C89", "Verif.Props.C89_frame", "Verif.Props.C89_record", "Verif.Props.C89_typeError", "Verif.Props.C89_attributeError"], "note": "The model records the heap after every operation; the record leads from the initial heap to the heap after the call in single operations and ends with the same result or exception as the call (C89_record). Penalty updates are assumed not to write to existing objects. C89_typeError and C89_attributeError: calls that raise after changing the objects that may change."},
{"property": "C90", "status": "proved", "theorems": ["Verif.Props.C90", "Verif.Props.C90_plain", "Verif.Props.C90_noErrors", "Verif.Props.C90_example", "Verif.Props.C90_heap"], "note": "C90: with diagnostics. C90_plain: without relative tolerance, with or without diagnostics. C90_noErrors: with a relative tolerance and without diagnostics it is false, because the second call measures the first loss again. C90_heap: the in-place implementation, called again on the objects it returned."},
{"property": "C91", "status": "proved", "theorems": ["Verif.Props.C91", "Verif.Props.C91_package"], "note": "Exact arithmetic. C91_package: the penalties of the package that meet the hypotheses."},
{"property": "C92", "status": "proved", "theorems": ["Verif.Props.C92", "Verif.Props.C92_ridge", "Verif.Props.C92_bases", "Verif.Props.C92_example"], "note": "C92_ridge: with ridge penalties nothing has to be assumed about the iterations. C92_bases: PARAFAC2."},
{"property": "C93", "status": "partial", "theorems": ["Verif.Props.C93_partial", "Verif.Props.C93_false", "Verif.Props.C93_states", "Verif.Props.C93_modeC"], "note": "False if a factor of mode 0 or 1 with several penalties becomes exactly zero: its gaps are nan and inf, and whether the check ignores them depends on their order (C93_false). Proved if that does not happen (C93_partial), for several penalties on mode 2 only (C93_modeC), and for the returned variables without relative tolerance (C93_states)."},
{"property": "C94", "status": "proved", "theorems": ["Verif.Props.C94", "Verif.Props.C94_entries", "Verif.Props.C94_zeros", "Verif.Props.rotSvd_valid", "Verif.Props.C94_rotation"], "note": ""},
{"property": "C95", "status": "proved", "theorems": ["Verif.Props.C95", "Verif.Props.C95_ridge", "Verif.Props.C95_package", "Verif.Props.C95_example"], "note": ""},
{"property": "C96", "status": "proved", "theorems": ["Verif.Props.C96", "Verif.Props.C96_package", "Verif.Props.C96_data", "Verif.Props.exists_homogeneous_svd", "Verif.Props.C96_example"], "note": ""},
{"property": "C97", "status": "proved", "theorems": ["Verif.Props.C97", "Verif.Props.C97_value", "Verif.Props.C97_raises"], "note": "C97_raises is a case: UnitSimplex on mode 2 with data (0, -1.5e31)."},
{"property": "C98", "status": "proved", "theorems": ["Verif.Props.C98", "Verif.Props.C98_simplex", "Verif.Props.C98_certificate", "Verif.Props.C98_example"], "note": "For the certificate the final factors are nonzero, as in C39."},
{"property": "C99", "status": "proved", "theorems": ["Verif.Props.C99", "Verif.Props.C99_fibres", "Verif.Props.C99_total", "Verif.Props.C99_nan"], "note": "Operations are arbitrary functions, comparisons follow IEEE 754 (Spec/FloatOrder). C99_nan shows that the condition about NaN is needed. Nothing is claimed about distances in floating-point arithmetic."}
]}
