{
 "claims": [
  {
   "property": "C01",
   "status": "proved",
   "theorems": [
    "Verif.C01_map_sound",
    "Verif.C01_lt_is_lex",
    "Verif.C01_lt_strict_total_order",
    "Verif.C01_lt_rejects"
   ],
   "note": ""
  },
  {
   "property": "C02",
   "status": "proved",
   "theorems": [
    "Verif.C02_entrywise",
    "Verif.C02_laws",
    "Verif.C02_mismatch_stops",
    "Verif.C02_dot"
   ],
   "note": ""
  },
  {
   "property": "C03",
   "status": "proved",
   "theorems": [
    "Verif.C03_tweak_spec",
    "Verif.C03_tweak_add",
    "Verif.C03_tweak_negative"
   ],
   "note": ""
  },
  {
   "property": "C04",
   "status": "proved",
   "theorems": [
    "Verif.C04_diff_spec",
    "Verif.C04_diff_raise"
   ],
   "note": ""
  },
  {
   "property": "C05",
   "status": "partial",
   "theorems": [
    "Verif.C05_binomial_ZZ",
    "Verif.C05_binomial_partial",
    "Verif.C05_binomial_window_wrong"
   ],
   "note": "binomial_ZZ proved in full. binomial: correct below 2^63 and stops from 2^64 on (C05_binomial_partial); the clause 'never returns a different number' is false for coefficients in [2^63, 2^64), proved with witness C(67,33) in C05_binomial_window_wrong."
  },
  {
   "property": "C06",
   "status": "proved",
   "theorems": [
    "Verif.C06_tuple_list",
    "Verif.C06_too_large_stops"
   ],
   "note": "For list lengths that fit a signed 64-bit integer; otherwise the call stops (C06_too_large_stops)."
  },
  {
   "property": "C07",
   "status": "proved",
   "theorems": [
    "Verif.C07_reverse_lookup",
    "Verif.C07_dict_of_nodup"
   ],
   "note": ""
  },
  {
   "property": "C08",
   "status": "proved",
   "theorems": [
    "Verif.C08_valuation_of_factorial"
   ],
   "note": ""
  },
  {
   "property": "C09",
   "status": "proved",
   "theorems": [
    "Verif.C09_factorial_p_adic",
    "Verif.C09_zero_diverges"
   ],
   "note": ""
  },
  {
   "property": "C10",
   "status": "proved",
   "theorems": [
    "Verif.C10_change_of_variables",
    "Verif.C10_laws",
    "Verif.C10_invertible",
    "Verif.C10_mismatch_stops"
   ],
   "note": ""
  },
  {
   "property": "C11",
   "status": "partial",
   "theorems": [
    "Verif.C11_shifted_monomial_partial",
    "Verif.C11_evaluates_partial",
    "Verif.C11_no_overflow_partial",
    "Verif.C11_ND_poly_partial",
    "Verif.C11_overflow_wrong"
   ],
   "note": "proved for all u >= 0 whose binomials fit 63 bits (every u with entries up to 66) with unbounded products, and with 64-bit products when prod (1+|v_i|)^(u_i) < 2^63 (C11_no_overflow_partial); in particular compute_reduction_matrix_ND_poly does not overflow when (1+d)^(n+1) < 2^63. Outside, signed overflow (C11_overflow_wrong)."
  },
  {
   "property": "C12",
   "status": "partial",
   "theorems": [
    "Verif.C12_domain",
    "Verif.C12_default_args_partial",
    "Verif.C12_two_wrong"
   ],
   "note": "Proved for every p >= 3 (C12_default_args_partial) and the accepted domain in full (C12_domain); the clause is false for p = 2, which default_args accepts although charpoly_frob then stops for every matrix (C12_two_wrong)."
  },
  {
   "property": "C13",
   "status": "proved",
   "theorems": [
    "Verif.C13_charpoly",
    "Verif.C13_monic",
    "Verif.C13_other_arguments"
   ],
   "note": ""
  },
  {
   "property": "C14",
   "status": "proved",
   "theorems": [
    "Verif.C14_charpoly_frob",
    "Verif.C14_default_precisions"
   ],
   "note": "For odd p; the floating-point comparison of logarithms in the assertion is replaced by the exact inequality it computes. C14_default_precisions combines it with the table of default_args."
  },
  {
   "property": "C15",
   "status": "proved",
   "theorems": [
    "Verif.C15_shape",
    "Verif.C15_congruent"
   ],
   "note": ""
  },
  {
   "property": "C16",
   "status": "partial",
   "theorems": [
    "Verif.C16_mul_transpose",
    "Verif.C16_mul_transpose_ZZp",
    "Verif.C16_transpose_mul_transpose",
    "Verif.C16_transpose_mul_transpose_ZZp",
    "Verif.C16_shape_mismatch_stops",
    "Verif.C16_trace",
    "Verif.C16_mpz_mul_partial",
    "Verif.C16_mpz_mul_wrong",
    "Verif.C16_mpz_mul_transpose_partial",
    "Verif.C16_mpz_mul_transpose_wrong",
    "Verif.C16_mpz_scale_partial",
    "Verif.C16_mpz_scale_wrong",
    "Verif.C16_mpz_matvec_partial",
    "Verif.C16_mpz_matvec_wrong",
    "Verif.C16_mpz_mismatch",
    "Verif.C16_mpz_vec",
    "Verif.C16_fmpz"
   ],
   "note": "Mat<ZZ>/Mat<ZZ_p> products and traces proved in full; the mpz array variants use the row count as stride: correct exactly on the shapes stated in the _partial theorems, refuted with a witness on others (_wrong theorems). A vector of the wrong length stops the mpz product at its assertion (C16_mpz_mismatch)."
  },
  {
   "property": "C17",
   "status": "proved",
   "theorems": [
    "Verif.C17_bigint_round_trip",
    "Verif.C17_bytes"
   ],
   "note": ""
  },
  {
   "property": "C18",
   "status": "partial",
   "theorems": [
    "Verif.C18_round_trip_partial",
    "Verif.C18_round_trip_square",
    "Verif.C18_round_trip_wide_wrong",
    "Verif.C18_tall_overruns"
   ],
   "note": "Round trip proved when rows >= columns fits the stride of the code (and for square); refuted for wide matrices (C18_round_trip_wide_wrong), and tall matrices overrun the buffer (C18_tall_overruns)."
  },
  {
   "property": "C19",
   "status": "proved",
   "theorems": [
    "Verif.C19_solve_system",
    "Verif.C19_basis_canonical"
   ],
   "note": "elimination and inversion of NTL/FLINT are parameters with a stated contract (Spec.LinAlgOK), shown satisfiable over every field"
  },
  {
   "property": "C20",
   "status": "proved",
   "theorems": [
    "Verif.C20_solver_contract",
    "Verif.C20_padic",
    "Verif.C20_same_basis"
   ],
   "note": "same contract over F_p; the word-size branch (p^N < 2^64) is exact arithmetic mod p^N, the other branch integers with growing modulus"
  },
  {
   "property": "C21",
   "status": "proved",
   "theorems": [
    "Verif.C21_matrix_J",
    "Verif.C21_matrix_J_small",
    "Verif.C21_matrix_ND",
    "Verif.C21_matrix_ND_small"
   ],
   "note": "Proved for every object returned by the constructor (Spec.Constructed, Spec.ConstructedND); the solver is a parameter with the contract that C20 proves for solve_system_padic. "
  },
  {
   "property": "C22",
   "status": "proved",
   "theorems": [
    "Verif.C22_reduction_keeps_class"
   ],
   "note": "Proved for every object returned by the constructor (Spec.Constructed); the solver is a parameter with the contract that C20 proves for solve_system_padic. "
  },
  {
   "property": "C23",
   "status": "proved",
   "theorems": [
    "Verif.C23_final_reduction"
   ],
   "note": "Proved for every object returned by the constructor (Spec.Constructed); the solver is a parameter with the contract that C20 proves for solve_system_padic. "
  },
  {
   "property": "C24",
   "status": "proved",
   "theorems": [
    "Verif.C24_monomial_to_basis"
   ],
   "note": "Proved for every object returned by the constructor (Spec.Constructed); the solver is a parameter with the contract that C20 proves for solve_system_padic. For n >= 1."
  },
  {
   "property": "C25",
   "status": "proved",
   "theorems": [
    "Verif.C25_path_independence_ND",
    "Verif.C25_test_paths_ND",
    "Verif.C25_solver_independent_ND",
    "Verif.C25_basis_independent",
    "Verif.C25_path_independence",
    "Verif.C25_path_column",
    "Verif.C25_test_paths",
    "Verif.C25_solver_independent"
   ],
   "note": "any two paths for both classes, monomial_to_basis, test_paths_J and test_paths_ND, both linear algebra variants; non-degenerate part for n >= 1"
  },
  {
   "property": "C26",
   "status": "proved",
   "theorems": [
    "Verif.C26_batched",
    "Verif.C26_batched_class"
   ],
   "note": "reduce_vector_J_poly equals k single calls and its result is cohomologous to the input, for every constructed object."
  },
  {
   "property": "C27",
   "status": "proved",
   "theorems": [
    "Verif.C27_matrix",
    "Verif.C27_sequence"
   ],
   "note": "Matrices and arbitrary interleavings of single, batched and remainder steps over ZZ reduce to those over ZZ_p."
  },
  {
   "property": "C28",
   "status": "proved",
   "theorems": [
    "Verif.C28_history",
    "Verif.C28_sequence",
    "Verif.C28_value",
    "Verif.C28_order",
    "Verif.C28_everything"
   ],
   "note": "Every method that uses a dictionary, every call sequence, both save_memory settings."
  },
  {
   "property": "C29",
   "status": "proved",
   "theorems": [
    "Verif.C29_fpow_table"
   ],
   "note": "any sequence of compute_fpow calls from a new object; exact length, prefix growth"
  },
  {
   "property": "C30",
   "status": "proved",
   "theorems": [
    "Verif.C30_direction",
    "Verif.C30_direction_too_small",
    "Verif.C30_direction_ND",
    "Verif.C30_direction_shift"
   ],
   "note": "all three searches, including the non-termination when the degree is too small"
  },
  {
   "property": "C31",
   "status": "partial",
   "theorems": [
    "Verif.C31_running_factor",
    "Verif.C31_assertions_partial",
    "Verif.C31_low_precision_wrong",
    "Verif.C31_ZZ_p_wrong"
   ],
   "note": "factor formula proved for both variants; assertions of frob_J_ZZ proved under n/p <= m+N-1 (false otherwise, C31_low_precision_wrong); frob_J_ZZ_p stops the recurrence early, negation proved (C31_ZZ_p_wrong)"
  },
  {
   "property": "C32",
   "status": "partial",
   "theorems": [
    "Verif.C32_series_partial",
    "Verif.C32_variants_partial",
    "Verif.C32_range",
    "Verif.C32_window_wrong",
    "Verif.C32_stops",
    "Verif.C32_frob_stops"
   ],
   "note": "proved for every m and up to 67 terms (C32_series_partial), and for the 64-bit ways whenever |D_{j,m}| < 2^63 (C32_variants_partial). False for N = 68 (C32_window_wrong: silently wrong coefficient, from the window of C05); from N = 69 on none of the five Frobenius functions returns (C32_stops, C32_frob_stops). C32_range: the 64-bit range is reached exactly after 66, 60, 55 terms for n = 1, 2, 3."
  },
  {
   "property": "C33",
   "status": "proved",
   "theorems": [
    "Verif.C33_schedule",
    "Verif.C33_frob_J_history",
    "Verif.C33_columns_parallel",
    "Verif.C33_columns",
    "Verif.C33_threads",
    "Verif.C33_matrix_class_partial"
   ],
   "note": "order of whole iterations arbitrary; schedule theorem and columns (several threads) unconditional; comparison with frob_J called on its own needs n/p <= m_i+N_i-1 because below that frob_J itself depends on earlier calls"
  },
  {
   "property": "C34",
   "status": "proved",
   "theorems": [
    "Verif.C34_step_keeps_class",
    "Verif.C34_step_every_u"
   ],
   "note": "Proved for every object returned by the constructor (Spec.Constructed, Spec.ConstructedND); the solver is a parameter with the contract that C20 proves for solve_system_padic. For n >= 1: for n = 0 the code drops the constant part. Positive u: cohomologous forms. Every u of degree divisible by d: modulo the logarithmic relations x^a x_i d_i f = a_i x^a."
  },
  {
   "property": "C35",
   "status": "partial",
   "theorems": [
    "Verif.C35_batched",
    "Verif.C35_batched_class",
    "Verif.C35_ZZ",
    "Verif.C35_ZZ_nonempty",
    "Verif.C35_flint_multi",
    "Verif.C35_flint_short",
    "Verif.C35_flint_long_partial",
    "Verif.C35_flint_wrong"
   ],
   "note": "Over ZZ_p and over ZZ the batched reduction equals k single steps for all u, v, k, G (C35_batched, C35_batched_class, C35_ZZ, C35_ZZ_nonempty). The flint version: proved for moduli of two limbs and for k <= n+1; for one limb and k > n+1 it goes through finitediff_flint_nmod and is proved under the nesting condition of C36; it is false in general (C35_flint_wrong, reachable witness)."
  },
  {
   "property": "C36",
   "status": "partial",
   "theorems": [
    "Verif.C36_nested_partial",
    "Verif.C36_degree_one",
    "Verif.C36_assertion",
    "Verif.C36_all_zero",
    "Verif.C36_wrong"
   ],
   "note": "False as stated: C36_wrong gives a returned wrong vector. Proved when the supports of the coefficient matrices are nested (always for degree <= 1, C36_degree_one) and not all matrices are zero; with all zero it reads out of bounds (C36_all_zero). k <= q is the documented condition of nmod_pow_ui."
  },
  {
   "property": "C37",
   "status": "proved",
   "theorems": [
    "Verif.C37_isSmooth",
    "Verif.C37_isND",
    "Verif.C37_isND_smooth",
    "Verif.C37_modulus"
   ],
   "note": "For homogeneous f of degree d >= 2 (isSmooth) resp. d >= 1 (isND), any modulus of ZZ_p divisible by p; the rank routine of FLINT/NTL is a parameter with the contract rank = Matrix.rank. isSmooth is not defined for d = 1, n >= 1 (negative level)."
  },
  {
   "property": "C38",
   "status": "proved",
   "theorems": [
    "Verif.C38_find_change_of_variables"
   ],
   "note": "For every random stream; the only other outcome is that a call of random_SL_matrix is still drawing after t passes, for every bound t."
  },
  {
   "property": "C39",
   "status": "proved",
   "theorems": [
    "Verif.C39_det_one",
    "Verif.C39_returns"
   ],
   "note": "For every random stream and every bound on the number of passes; C39_returns: it returns as soon as an invertible matrix is drawn."
  },
  {
   "property": "C40",
   "status": "proved",
   "theorems": [
    "Verif.C40_precision",
    "Verif.C40_precision_default",
    "Verif.C40_precision_fails",
    "Verif.C40_default_needed",
    "Verif.C40_overloads",
    "Verif.C40_mixed_lengths",
    "Verif.C40_model",
    "Verif.C40_basis_assertion",
    "Verif.C40_singular",
    "Verif.C40_result"
   ],
   "note": "Precision choice for all primes and all requests; overloads at the level of characters and vectors; the model handed to the Frobenius routine; the returned polynomial (with the Frobenius routine a parameter, its result related to P by the congruences C14 asks for). The random search may loop (outcome none)."
  },
  {
   "property": "C41",
   "status": "proved",
   "theorems": [
    "Verif.C41_save_load",
    "Verif.C41_loaded_f",
    "Verif.C41_same_f_iff",
    "Verif.C41_same_object",
    "Verif.C41_loaded_inconsistent_wrong"
   ],
   "note": "Character level: the text written by save and the object read from it, for every object returned by the constructor over ZMod (p^N), p^N > 1. C41_same_f_iff is the exact condition for the polynomial to be recovered; C41_loaded_inconsistent_wrong shows that otherwise the loaded solve pairs do not belong to the loaded polynomial. C41_same_object: with nonzero coefficients below p the loaded object is the saved one. The file of the non-degenerate object is C62."
  },
  {
   "property": "C42",
   "status": "partial",
   "theorems": [
    "Verif.C42_swp_name_wrong",
    "Verif.C42_swp_name_partial"
   ],
   "note": "The property is false: for every file name of 8 or more characters save writes outside fileswpname (C42_swp_name_wrong, sizeof of a pointer). Proved for names of at most 7 characters."
  },
  {
   "property": "C43",
   "status": "proved",
   "theorems": [
    "Verif.C43_number_of_roots_of_unity",
    "Verif.C43_geometric_picard"
   ],
   "note": "geometric_picard equals the number of complex roots (with multiplicity) that are p times a root of unity, plus 1 in even dimension. The floating point test is a parameter with a one percent tolerance (CmpOK), the FLINT factorisation a parameter with its contract; in dimension 2 the closing assertion is proved under the Weil condition |root| = p."
  },
  {
   "property": "C44",
   "status": "proved",
   "theorems": [
    "Verif.C44_round_trip_ZZ",
    "Verif.C44_round_trip_mod",
    "Verif.C44_last_wins",
    "Verif.C44_mixed_lengths",
    "Verif.C44_empty_ub"
   ],
   "note": "Character-level printers and readers; integer, ZZ_p and zz_p coefficients. Bad input (NTL fail bit) is a stop in the model. Keys are compared while inserting: mixed lengths stop (C44_mixed_lengths)."
  },
  {
   "property": "C45",
   "status": "proved",
   "theorems": [
    "Verif.C45_basis",
    "Verif.C45_basis_ND",
    "Verif.C45_base_ND",
    "Verif.C45_rank"
   ],
   "note": "Proved for every object returned by the constructor (Spec.Constructed, Spec.ConstructedND); the solver is a parameter with the contract that C20 proves for solve_system_padic. C45_rank gives the closed formula for the length."
  },
  {
   "property": "C46",
   "status": "partial",
   "theorems": [
    "Verif.C46_threads_wrong",
    "Verif.C46_use_after_free_wrong",
    "Verif.C46_one_thread_partial",
    "Verif.C46_small_partial"
   ],
   "note": "The property is false with more than one thread and a modulus of 2^62 or more: the modulus is freed in every pass and again at the end (C46_threads_wrong, C46_use_after_free_wrong). Proved for one thread and for small moduli."
  },
  {
   "property": "C47",
   "status": "partial",
   "theorems": [
    "Verif.C47_frob_J_partial",
    "Verif.C47_column_class",
    "Verif.C47_frob_J_sum_partial",
    "Verif.C47_frob_J_ZZ_p_partial",
    "Verif.C47_variants_agree",
    "Verif.C47_stale_storage_wrong"
   ],
   "note": "class of the whole sum for frob_J_ZZ (n/p <= m) and frob_J_ZZ_p (n < p or m = 1), all loops, agreement of the variants; stated with scaled relations (FrobColumn), so no factor that may vanish modulo p^K; outside these ranges the code is wrong (C47_stale_storage_wrong, C31_ZZ_p_wrong)"
  },
  {
   "property": "C48",
   "status": "proved",
   "theorems": [
    "Verif.C48_monomial_to_basis_ND",
    "Verif.C48_agrees_with_J"
   ],
   "note": "Proved for every object returned by the constructor (Spec.Constructed, Spec.ConstructedND); the solver is a parameter with the contract that C20 proves for solve_system_padic. For n >= 1."
  },
  {
   "property": "C49",
   "status": "partial",
   "theorems": [
    "Verif.C49_cubic_batch",
    "Verif.C49_flint_wrong",
    "Verif.C49_frob_ND_ZZ",
    "Verif.C49_frob_ND_ZZ_p",
    "Verif.C49_frob_ND_flint_partial",
    "Verif.C49_frob_ND_sum",
    "Verif.C49_variants_agree"
   ],
   "note": "frob_ND_ZZ and frob_ND_ZZ_p: full statement for every prime, N and loop, no restriction on n/p. frob_ND_flint (the default): proved when its batched reductions are right (two limbs, p <= n+1, or nested supports); false in general through the finite differences (C35_flint_wrong). Stated with scaled relations (FrobColumn). C49_flint_wrong: a whole run for a smooth curve, the constructor included, in which frob_ND_flint returns a wrong column without an error. C49_cubic_batch: the condition on the batched reductions holds for x^3 + y^3 + z^3 + y z^2 modulo 17, for every correct library."
  },
  {
   "property": "C50",
   "status": "proved",
   "theorems": [
    "Verif.C50_matrix",
    "Verif.C50_vector"
   ],
   "note": "For every object returned by the constructor, n >= 1."
  },
  {
   "property": "C51",
   "status": "proved",
   "theorems": [
    "Verif.C51_schedule",
    "Verif.C51_frob_ND_history",
    "Verif.C51_columns_parallel",
    "Verif.C51_columns",
    "Verif.C51_threads",
    "Verif.C51_matrix_class_partial"
   ],
   "note": "Schedule, history and columns in full; that a column is the class of the truncated series (C51_matrix_class_partial) goes through frob_ND_flint and is proved where its batched reductions are right, as in C49."
  },
  {
   "property": "C52",
   "status": "proved",
   "theorems": [
    "Verif.C52_history",
    "Verif.C52_value",
    "Verif.C52_sequence",
    "Verif.C52_order",
    "Verif.C52_inclusion",
    "Verif.C52_everything"
   ],
   "note": "Every method that uses a dictionary of dr_nd, every call sequence, both save_memory settings, Frobenius functions included. compute_everything_ND is proved to complete for 1 <= n <= 61 (window of binomial, C05)."
  },
  {
   "property": "C53",
   "status": "proved",
   "theorems": [
    "Verif.C53_frob_ND",
    "Verif.C53_iteration",
    "Verif.C53_frob_matrix_ND"
   ],
   "note": "Single-pass version of frob_ND_flint inside the loop; constructed objects with 1 <= n <= 61; any history before, both save_memory settings."
  },
  {
   "property": "C54",
   "status": "proved",
   "theorems": [
    "Verif.C54_history",
    "Verif.C54_value",
    "Verif.C54_sequence",
    "Verif.C54_order"
   ],
   "note": "Every call sequence, no assumption on the object; the table of powers is an argument of the call (its history independence is C33)."
  },
  {
   "property": "C55",
   "status": "proved",
   "theorems": [
    "Verif.C55_frob_J_ZZ",
    "Verif.C55_frob_J_ZZ_p",
    "Verif.C55_iteration",
    "Verif.C55_frob_matrix_J"
   ],
   "note": "Constructed objects with n >= 1; any history before, both save_memory settings, both Frobenius functions, all values of loop."
  },
  {
   "property": "C56",
   "status": "proved",
   "theorems": [
    "Verif.C56_columns_ND"
   ],
   "note": "Interleavings of whole critical sections; the map and the matrices in it are touched nowhere else in the loop. Constructed objects, n >= 1."
  },
  {
   "property": "C57",
   "status": "proved",
   "theorems": [
    "Verif.C57_columns_J"
   ],
   "note": "Interleavings of the loads and stores of the additions (sequentially consistent; no two iterations share a location, so there is no race). Constructed objects."
  },
  {
   "property": "C58",
   "status": "proved",
   "theorems": [
    "Verif.C58_threads_ND",
    "Verif.C58_pass",
    "Verif.C58_schedules"
   ],
   "note": "No assumption on the object. The modulus is taken as a constant; that the code frees it inside the loop over the passes is C46."
  },
  {
   "property": "C59",
   "status": "proved",
   "theorems": [
    "Verif.C59_smooth",
    "Verif.C59_nondegenerate",
    "Verif.C59_hilbert"
   ],
   "note": "For the model of solve_system_padic with any routine meeting LinAlgOK; tables below 2^63 entries. Proved through the Hilbert function of a complete intersection over F_p (Lemmas/CompleteInt) and the Nullstellensatz."
  },
  {
   "property": "C60",
   "status": "proved",
   "theorems": [
    "Verif.C60_vector",
    "Verif.C60_lift",
    "Verif.C60_tests",
    "Verif.C60_tests_constructors",
    "Verif.C60_change_of_variables"
   ],
   "note": "hypersurface and hypersurface_non_degenerate pass their arguments to these constructors. The member fbar is not part of the model here (it is in C41)."
  },
  {
   "property": "C61",
   "status": "proved",
   "theorems": [
    "Verif.C61_random",
    "Verif.C61_random_nd",
    "Verif.C61_never_ends_wrong"
   ],
   "note": "random_zz_p is an arbitrary stream. C61_never_ends_wrong: for p | d the non-degenerate constructor loops for ever, whatever is drawn."
  },
  {
   "property": "C62",
   "status": "proved",
   "theorems": [
    "Verif.C62_save_load_ND",
    "Verif.C62_loaded_f_ND",
    "Verif.C62_other_class",
    "Verif.C62_same_object"
   ],
   "note": "Character level, as C41. C62_other_class: the base constructor reads the file and ignores the rest; the non-degenerate constructor rejects a file of the base class."
  },
  {
   "property": "C63",
   "status": "proved",
   "theorems": [
    "Verif.C63_test_J",
    "Verif.C63_test_ND",
    "Verif.C63_in_range",
    "Verif.C63_overflow_wrong"
   ],
   "note": "Exact: true when every pole order k of the monomials met satisfies k + K <= 21, undefined behaviour (overflow of int64_t fact) otherwise; C63_overflow_wrong is a witness with K = 21."
  },
  {
   "property": "C64",
   "status": "partial",
   "theorems": [
    "Verif.C64_flint_wrong",
    "Verif.C64_default_args_wrong",
    "Verif.C64_frob_matrix_J_partial",
    "Verif.C64_frob_matrix_ND_partial"
   ],
   "note": "frob_matrix_J: n/p <= m_i (always so for n < 2p) and the series coefficients D_{j,m} below 2^63 (TermsFit: n <= 3 with up to 50 terms, or n + 2N <= 64); frob_matrix_ND: the same bound on the coefficients, any n, and the matrices of the batched reduction nested, two limbs or p <= n+1 (outside C35_flint_wrong). Full: no such restrictions. C64_flint_wrong: frob_matrix_ND returns a matrix which is not the Frobenius matrix (plane cubic, p = 7); C64_default_args_wrong: with the values of default_args for p = 17 an assertion fails."
  },
  {
   "property": "C65",
   "status": "partial",
   "theorems": [
    "Verif.C65_default_cubic",
    "Verif.C65_default_cubic_trace",
    "Verif.C65_default_cubic_wrong",
    "Verif.C65_many_digits_wrong",
    "Verif.C65_branch_J",
    "Verif.C65_branch_ND_partial",
    "Verif.C65_p_divides_d",
    "Verif.C65_zeta_partial",
    "Verif.C65_smooth_rejected_wrong",
    "Verif.C65_digits_partial"
   ],
   "note": "Precisions up to 60 for plane curves and 55 for surfaces (TermsFit, C32_range); from 69 on no call returns although the precision is accepted (C65_many_digits_wrong); non-degenerate branch with the restriction of C64 on the batched reduction. The message 'not smooth' is also given for every polynomial with p | d (C65_p_divides_d), smooth or not: C65_smooth_rejected_wrong. C65_digits_partial: with C77, for p >= 3; the matrix over the p-adic integers is a hypothesis. C65_default_cubic_wrong: for x^3 + y^3 + z^3, p = 17 and default options zeta_function stops at a failed assertion. C65_default_cubic(_trace): for x^3 + y^3 + z^3 + y z^2, p = 17 and default options the result is T^2 - aT + 17, a the trace of the truncated Frobenius matrix."
  },
  {
   "property": "C66",
   "status": "partial",
   "theorems": [
    "Verif.C66_basis",
    "Verif.C66_column_unique",
    "Verif.C66_J_ND_partial"
   ],
   "note": "Basis and uniqueness of columns in full. Agreement of the two routines: n < 2p, series coefficients below 2^63 (TermsFit), and where the batched reductions of frob_ND_flint are right (as in C64). C74 gives equality of the matrices also when digits are lost."
  },
  {
   "property": "C67",
   "status": "partial",
   "theorems": [
    "Verif.C67_constructors",
    "Verif.C67_frob_matrix_J_partial",
    "Verif.C67_frob_matrix_ND_partial"
   ],
   "note": "Constructors in full, including failures. Matrices: series coefficients below 2^63 (TermsFit); the Jacobian one for n < 2p; the non-degenerate one where the batched reductions of frob_ND_flint are right (as in C64). C74 gives the exact digits also when some are lost."
  },
  {
   "property": "C68",
   "status": "partial",
   "theorems": [
    "Verif.C68_cubic",
    "Verif.C68_read",
    "Verif.C68_modulus",
    "Verif.C68_read_K3",
    "Verif.C68_unterminated_wrong",
    "Verif.C68_output",
    "Verif.C68_output_rest",
    "Verif.C68_length",
    "Verif.C68_zero_wrong",
    "Verif.C68_singular",
    "Verif.C68_frob_partial",
    "Verif.C68_representatives",
    "Verif.C68_digits_partial"
   ],
   "note": "Reading and writing in full. Computation: 1 <= n < d, d >= 3, n < 2p, as many terms as keep D_{j,m} within 64 bits (C32_range), and the restriction of C64 on the non-degenerate branch. Two inputs the program should handle are not: a file whose last line has no newline (C68_unterminated_wrong), coefficients all divisible by p (C68_zero_wrong). C68_digits_partial: with C77, for the precisions of default_args. C68_cubic: a whole run that returns, for a plane cubic at p = 17 with the precisions of default_args, for all random numbers, threads and linear algebra routines. A polynomial that is non-degenerate as given is kept (ProgModel.kept)."
  },
  {
   "property": "C69",
   "status": "partial",
   "theorems": [
    "Verif.C69_smooth",
    "Verif.C69_two",
    "Verif.C69_singular",
    "Verif.C69_dwork_partial",
    "Verif.C69_singular2",
    "Verif.C69_dwork2_partial"
   ],
   "note": "Smoothness and singular inputs in full. Smooth inputs: where the batched reductions of frob_ND_flint are right (as in C64), and up to the exact division."
  },
  {
   "property": "C70",
   "status": "proved",
   "theorems": [
    "Verif.C70_vec",
    "Verif.C70_vec_single_wrong",
    "Verif.C70_map",
    "Verif.C70_map_mod",
    "Verif.C70_map_injective",
    "Verif.C70_mat_wrong",
    "Verif.C70_mat_old"
   ],
   "note": "As stated, with its two exceptions, which are proved to be such: vectors with one entry, and matrices with two or more columns. With the rows written by the version for vectors (name lookup of GCC before 12) matrices are read back too (C70_mat_old)."
  },
  {
   "property": "C71",
   "status": "partial",
   "theorems": [
    "Verif.C71_lift",
    "Verif.C71_exact",
    "Verif.C71_next",
    "Verif.C71_unique",
    "Verif.C71_column",
    "Verif.C71_frob_matrix_J_partial",
    "Verif.C71_frob_matrix_ND_partial"
   ],
   "note": "The statements about the series in full. The corollary for the matrices has the restrictions of C64 and, as the class is stated with the factorial as a common factor, says nothing about the digits lost in the division."
  },
  {
   "property": "C72",
   "status": "proved",
   "theorems": [
    "Verif.C72_test_paths",
    "Verif.C72_test_paths_ND",
    "Verif.C72_ends",
    "Verif.C72_ends_ND"
   ],
   "note": "As stated. RandomBnd is a sequence of numbers reduced modulo the bound; termination asks that every residue occurs again and again."
  },
  {
   "property": "C73",
   "status": "proved",
   "theorems": [
    "Verif.C73_reductions_pass",
    "Verif.C73_reductions_end",
    "Verif.C73_pass_means",
    "Verif.C73_covered",
    "Verif.C73_invariance_wrong",
    "Verif.C73_invariance_J",
    "Verif.C73_invariance_ND",
    "Verif.C73_jnd_exact",
    "Verif.C73_jnd_wrong",
    "Verif.C73_zeta_inputs",
    "Verif.C73_zeta_exact",
    "Verif.C73_zeta_wrong"
   ],
   "note": "As stated; C73_covered says which cases are run. The parts about what the programs fail to test are proved as c73_invariance_wrong, c73_jnd_wrong and c73_zeta_wrong. genprime_long is not modelled: the primes are parameters (at least 43, respectively greater than d)."
  },
  {
   "property": "C74",
   "status": "partial",
   "theorems": [
    "Verif.C74_columns",
    "Verif.C74_range",
    "Verif.C74_unique",
    "Verif.C74_returns_J_partial",
    "Verif.C74_returns_ND_partial",
    "Verif.C74_returns_matrix_partial",
    "Verif.C74_J_ND_partial",
    "Verif.C74_lower_J_partial",
    "Verif.C74_lower_ND_partial",
    "Verif.C74_chosen"
   ],
   "note": "Digits, uniqueness and the chosen precision in full. When the functions return, and the corollaries: series coefficients below 2^63 (TermsFit), the Jacobian routine for n < 2p, the non-degenerate one where the batched reductions of frob_ND_flint are right (as in C64)."
  },
  {
   "property": "C75",
   "status": "partial",
   "theorems": [
    "Verif.C75_column_J_partial",
    "Verif.C75_column_ND_partial",
    "Verif.C75_test_K3p3",
    "Verif.C75_seen",
    "Verif.C75_data",
    "Verif.C75_main"
   ],
   "note": "test_K3p3 in full (C75_test_K3p3, C75_seen, C75_data, C75_main). The columns of frob_J and frob_ND in general under the restrictions of C74: series coefficients below 2^63 (TermsFit), n/p at most the pole order for frob_J, the batched reductions of frob_ND_flint where they are right. That the table in the file has the property is not proved: it would need the whole computation inside the kernel."
  },
  {
   "property": "C76",
   "status": "proved",
   "theorems": [
    "Verif.C76_assertion",
    "Verif.C76_double",
    "Verif.C76_charpoly_frob",
    "Verif.C76_default_precisions",
    "Verif.C76_two_wrong",
    "Verif.C76_tie_undecided",
    "Verif.C76_picard"
   ],
   "note": "operations of double as parameters with relative error u (FlOK), no overflow or underflow. C76_two_wrong and C76_tie_undecided say what happens at p = 2."
  },
  {
   "property": "C77",
   "status": "proved",
   "theorems": [
    "Verif.C77_determined",
    "Verif.C77_kept",
    "Verif.C77_default_args",
    "Verif.C77_zeta",
    "Verif.C77_returned"
   ],
   "note": "That the columns of the true matrix are divisible by p^(n-m), and that the matrix computed agrees with it in the digits kept, are hypotheses (Approximates); C14 is now stated for the coefficients 0 < i < b only, since charpoly_frob overwrites the others."
  },
  {
   "property": "C78",
   "status": "partial",
   "theorems": [
    "Verif.C78_read",
    "Verif.C78_smooth",
    "Verif.C78_degenerate",
    "Verif.C78_modp_wrong",
    "Verif.C78_modp_program_wrong",
    "Verif.C78_curve_partial",
    "Verif.C78_surface_partial",
    "Verif.C78_wrapper_partial"
   ],
   "note": "The property is false for example_quartic_curve_modp.input: C78_modp_wrong (all primes p >= 11 and all matrices modulo p), C78_modp_program_wrong (the program on this file). The other runs up to what C65, C68 and C77 say: the random search may go on, the exact division may fail, and that the matrix agrees with the p-adic one in the digits kept is a hypothesis."
  },
  {
   "property": "C79",
   "status": "proved",
   "theorems": [
    "Verif.C79_write",
    "Verif.C79_read",
    "Verif.C79_fmpz_vec",
    "Verif.C79_lists",
    "Verif.C79_fmpz_mat",
    "Verif.C79_nmod_mat"
   ],
   "note": "NTL's conversions between T and ZZ are parameters with 'ofZ (toZ x) = x'; proved for ZMod q on one-word matrices. The lists are those of frob_ND_flint."
  },
  {
   "property": "C80",
   "status": "proved",
   "theorems": [
    "Verif.C80_dot",
    "Verif.C80_matvec",
    "Verif.C80_sub",
    "Verif.C80_newton",
    "Verif.C80_lift",
    "Verif.C80_padic"
   ],
   "note": "nmod_add, nmod_mul, nmod_sub of FLINT are exact on reduced words and undefined otherwise. Products are not limited to 64 bits, FLINT forms them in two words. solve_system_padic_flint is modelled with matrices of words and refined against the model modulo p^N for p^N < 2^63."
  },
  {
   "property": "C81",
   "status": "proved",
   "theorems": [
    "Verif.C81_timeval",
    "Verif.C81_timestamp"
   ],
   "note": "The integer parts before the floating point sum; the type int of nsec and the rounding are not modelled."
  },
  {
   "property": "C82",
   "status": "proved",
   "theorems": [
    "Verif.C82_direction",
    "Verif.C82_direction_ZZ",
    "Verif.C82_direction_iff",
    "Verif.C82_monomial_to_basis",
    "Verif.C82_final",
    "Verif.C82_inclusion",
    "Verif.C82_direction_ND",
    "Verif.C82_direction_ND_ZZ",
    "Verif.C82_direction_ND_iff",
    "Verif.C82_monomial_to_basis_ND",
    "Verif.C82_inclusion_ND"
   ],
   "note": "Exactly which arguments pass the assertions of the reduction functions of dr and dr_nd; the others stop there. Compiled with NDEBUG the assertions are gone and this does not hold (trusted base)."
  },
  {
   "property": "C83",
   "status": "proved",
   "theorems": [
    "Verif.C83_solve_system_unique",
    "Verif.C83_solve_system",
    "Verif.C83_padic_unique",
    "Verif.C83_padic"
   ],
   "note": "Both implementations, over a field and modulo p^N, as functions of the matrix; the machine words of the FLINT version are in C80."
  },
  {
   "property": "C84",
   "status": "proved",
   "theorems": [
    "Verif.C84_smooth",
    "Verif.C84_random_SL",
    "Verif.C84_change_of_variables",
    "Verif.C84_routine",
    "Verif.C84_words",
    "Verif.C84_zeta",
    "Verif.C84_programs",
    "Verif.C84_tests"
   ],
   "note": "Equality of the whole outcome, failures included. The order in which parallel iterations run is the same on both sides; that it does not matter is C51 and C64."
  },
  {
   "property": "C85",
   "status": "proved",
   "theorems": [
    "Verif.C85_short",
    "Verif.C85_reduce"
   ],
   "note": "nmod_pow_ui, nmod_mul, nmod_add, nmod_sub, nmod_mat_scalar_addmul_ui and _nmod_vec_scalar_addmul_nmod of FLINT are exact on reduced words and undefined otherwise; fmpz_get_ui is undefined outside [0, 2^64)."
  },
  {
   "property": "C86",
   "status": "proved",
   "theorems": [
    "Verif.C86_frob_words",
    "Verif.C86_constructed",
    "Verif.C86_column_partial",
    "Verif.C86_default_args_wrong"
   ],
   "note": "C86_frob_words and C86_constructed: equality of the whole outcome, failures included. C86_column_partial carries over the conditions of C49 (nested supports, series coefficients below 2^63). The modulus above one word goes through fmpz, modelled by exact integers."
  },
  {
   "property": "C87",
   "status": "proved",
   "theorems": [
    "Verif.C87_frob_ND",
    "Verif.C87_frob_matrix_ND",
    "Verif.C87_frob_J",
    "Verif.C87_frob_matrix_J"
   ],
   "note": "Whole loops with the dictionaries, one solver per iteration and a preparation in the main thread. The modulus of frob_ND_flint is taken to stay valid (C46)."
  },
  {
   "property": "C88",
   "status": "proved",
   "theorems": [
    "Verif.C88_frob",
    "Verif.C88_dwork",
    "Verif.C88_dwork2",
    "Verif.C88_routine",
    "Verif.C88_zeta",
    "Verif.C88_cubic"
   ],
   "note": "Through zetaMain, from the polynomial to the returned list of coefficients. The modulus of frob_ND_flint is taken to stay valid (C46); a value returned sequentially is shared, a sequential failure is not claimed to be shared. C88_frob, C88_dwork, C88_dwork2: the same for the programs examples/frob.cc (n < 2p, n <= 61), K3_dwork.cc and K3_dwork2.cc."
  },
  {
   "property": "C89",
   "status": "partial",
   "theorems": [
    "Verif.C89_init",
    "Verif.C89_constructed",
    "Verif.C89_reductions",
    "Verif.C89_flint",
    "Verif.C89_matrices_partial"
   ],
   "note": "Constructors, reductions of the non-degenerate class and the condition on the finite differences in full, over any commutative ring and with any solver. The matrices with the restrictions of C64 and C74 (n < 2p for frob_matrix_J, FlintBatchOK for frob_matrix_ND, D_{j,m} within 64 bits), through the uniqueness of the digits returned."
  },
  {
   "property": "C90",
   "status": "proved",
   "theorems": [
    "Verif.C90_frob_ND",
    "Verif.C90_frob_matrix_ND",
    "Verif.C90_overflow",
    "Verif.C90_frob_J",
    "Verif.C90_frob_matrix_J",
    "Verif.C90_overflow_J",
    "Verif.C90_overflow_ND",
    "Verif.C90_routine",
    "Verif.C90_zeta",
    "Verif.C90_zeta_default",
    "Verif.C90_zeta_function"
   ],
   "note": "The 64-bit versions (Model/FrobI64, Model/FrobJI64) repeat Model/Frob and Model/FrobND with a range check after every operation on exponent vectors. D_{j,m} and the binomials have their own range checks in both (C05, C32); the arithmetic inside the batched reductions is C11 and C85. C90_overflow is the converse for a term, C90_overflow_J and C90_overflow_ND for whole runs."
  }
 ]
}