{
 "claims": [
  {
   "property": "C01",
   "status": "proved",
   "theorems": [
    "Ellalgo.C01_feas_iff",
    "Ellalgo.C01_feas_some",
    "Ellalgo.C01_feas_no_panic"
   ],
   "note": ""
  },
  {
   "property": "C02",
   "status": "proved",
   "theorems": [
    "Ellalgo.C02_feas_record_faithful",
    "Ellalgo.C02_feas_calls",
    "Ellalgo.C02_feas_zero",
    "Ellalgo.C02_optim_calls",
    "Ellalgo.C02_optim_zero",
    "Ellalgo.C02_optimQ_calls"
   ],
   "note": ""
  },
  {
   "property": "C03",
   "status": "proved",
   "theorems": [
    "Ellalgo.C03_optim_record_faithful",
    "Ellalgo.C03_optim_history",
    "Ellalgo.C03_optim_pairing",
    "Ellalgo.C03_optim_run",
    "Ellalgo.C03_optim_iff"
   ],
   "note": ""
  },
  {
   "property": "C04",
   "status": "proved",
   "theorems": [
    "Ellalgo.C04_optimQ_record_faithful",
    "Ellalgo.C04_optimQ_protocol",
    "Ellalgo.C04_optimQ_iff"
   ],
   "note": ""
  },
  {
   "property": "C05",
   "status": "proved",
   "theorems": [
    "Ellalgo.C05_adaptor_ell",
    "Ellalgo.C05_adaptor_ell_stable",
    "Ellalgo.C05_assessBs_iff"
   ],
   "note": ""
  },
  {
   "property": "C06",
   "status": "proved",
   "theorems": [
    "Ellalgo.C06_bsearch_record_faithful",
    "Ellalgo.C06_bsearch_bisects",
    "Ellalgo.C06_bsearch_panic",
    "Ellalgo.C06_bsearch_no_panic",
    "Ellalgo.C06_bsearch_brackets"
   ],
   "note": ""
  },
  {
   "property": "C07",
   "status": "proved",
   "theorems": [
    "Ellalgo.C07_bsearch_count"
   ],
   "note": ""
  },
  {
   "property": "C08",
   "status": "proved",
   "theorems": [
    "Ellalgo.C08_bsearch_flag",
    "Ellalgo.C08_bsearch_interval_not_updated"
   ],
   "note": ""
  },
  {
   "property": "C09",
   "status": "proved",
   "theorems": [
    "Ellalgo.C09_rejected_unchanged_ell",
    "Ellalgo.C09_rejected_unchanged_stable"
   ],
   "note": ""
  },
  {
   "property": "C10",
   "status": "proved",
   "theorems": [
    "Ellalgo.C10_symmetric_after_success",
    "Ellalgo.C10_symmetric_sequences"
   ],
   "note": ""
  },
  {
   "property": "C11",
   "status": "proved",
   "theorems": [
    "Ellalgo.C11_no_panic_and_shapes",
    "Ellalgo.C11_bad_gradient_panics"
   ],
   "note": ""
  },
  {
   "property": "C12",
   "status": "proved",
   "theorems": [
    "Ellalgo.C12_rank_one_update"
   ],
   "note": ""
  },
  {
   "property": "C13",
   "status": "proved",
   "theorems": [
    "Ellalgo.C13_posDef_step",
    "Ellalgo.C13_posDef_sequence",
    "Ellalgo.C13_valid_with_matrix",
    "Ellalgo.C13_valid_new",
    "Ellalgo.C13_valid_with_scalar"
   ],
   "note": ""
  },
  {
   "property": "C14",
   "status": "proved",
   "theorems": [
    "Ellalgo.C14_central_keeps_half"
   ],
   "note": ""
  },
  {
   "property": "C15",
   "status": "proved",
   "theorems": [
    "Ellalgo.C15_bias_keeps_halfspace"
   ],
   "note": ""
  },
  {
   "property": "C16",
   "status": "proved",
   "theorems": [
    "Ellalgo.C16_parallel_keeps_slab"
   ],
   "note": ""
  },
  {
   "property": "C17",
   "status": "proved",
   "theorems": [
    "Ellalgo.C17_parallel_central_keeps_slab"
   ],
   "note": ""
  },
  {
   "property": "C18",
   "status": "proved",
   "theorems": [
    "Ellalgo.C18_noSoln_sound"
   ],
   "note": ""
  },
  {
   "property": "C19",
   "status": "proved",
   "theorems": [
    "Ellalgo.C19_q_sound",
    "Ellalgo.C19_q_parallel_sound"
   ],
   "note": ""
  },
  {
   "property": "C20",
   "status": "proved",
   "theorems": [
    "Ellalgo.C20_volume_step",
    "Ellalgo.C20_volume_sequence",
    "Ellalgo.C20_lebesgue"
   ],
   "note": ""
  },
  {
   "property": "C21",
   "status": "proved",
   "theorems": [
    "Ellalgo.C21_no_defer_trick"
   ],
   "note": ""
  },
  {
   "property": "C22",
   "status": "proved",
   "theorems": [
    "Ellalgo.C22_feas_converges",
    "Ellalgo.C22_feas_converges_small_tol",
    "Ellalgo.C22_feas_converges_margin"
   ],
   "note": ""
  },
  {
   "property": "C23",
   "status": "proved",
   "theorems": [
    "Ellalgo.C23_none_certifies_infeasible"
   ],
   "note": ""
  },
  {
   "property": "C24",
   "status": "proved",
   "theorems": [
    "Ellalgo.C24_better_points_kept",
    "Ellalgo.C24_early_stop_certifies_optimal"
   ],
   "note": ""
  },
  {
   "property": "C25",
   "status": "proved",
   "theorems": [
    "Ellalgo.C25_optim_converges",
    "Ellalgo.C25_optim_reaches_level"
   ],
   "note": ""
  },
  {
   "property": "C26",
   "status": "proved",
   "theorems": [
    "Ellalgo.C26_parallel_none_is_single",
    "Ellalgo.C26_parallel_disabled_is_single",
    "Ellalgo.C26_parallel_far_is_single"
   ],
   "note": ""
  },
  {
   "property": "C27",
   "status": "proved",
   "theorems": [
    "Ellalgo.C27_fast_eq_old",
    "Ellalgo.C27_parallel_central_eq",
    "Ellalgo.C27_central_eq_bias_zero",
    "Ellalgo.C27_parallel_at_tau_eq_single"
   ],
   "note": ""
  },
  {
   "property": "C28",
   "status": "partial",
   "theorems": [
    "Ellalgo.C28_stable_step_partial",
    "Ellalgo.C28_stable_stays_diagonal",
    "Ellalgo.C28_stable_axis_partial",
    "Ellalgo.C28_stable_volume_partial",
    "Ellalgo.C28_stable_axis_run_partial",
    "Ellalgo.C28_stable_constructors",
    "Ellalgo.C28_stable_axis_central_partial",
    "Ellalgo.C28_stable_loses_points",
    "Ellalgo.C28_stable_differs_from_ell",
    "Ellalgo.C28_stable_wrong_infeasible"
   ],
   "note": "False of the code: the rank-one update of the factors reads scratch values, so the matrix stays diagonal forever (C28_stable_stays_diagonal), points the cut keeps are lost (C28_stable_loses_points), tsq differs from Ell at the second step (C28_stable_differs_from_ell) and a run with an honest oracle wrongly reports no solution (C28_stable_wrong_infeasible). Proved partial: each single step from a diagonal matrix agrees with Ell in status, centre, tsq, kappa and volume, and completely for gradients along one axis. C28_stable_axis_run_partial and C28_stable_axis_central_partial: for sequences of any length in which every gradient is a multiple of a unit vector the two agree in everything after every step."
  },
  {
   "property": "C29",
   "status": "proved",
   "theorems": [
    "Ellalgo.C29_factor_iff_posDef",
    "Ellalgo.C29_factorize_iff_posDef"
   ],
   "note": ""
  },
  {
   "property": "C30",
   "status": "proved",
   "theorems": [
    "Ellalgo.C30_sqrt",
    "Ellalgo.C30_sqrt_panics"
   ],
   "note": ""
  },
  {
   "property": "C31",
   "status": "proved",
   "theorems": [
    "Ellalgo.C31_witness",
    "Ellalgo.C31_witness_panics"
   ],
   "note": ""
  },
  {
   "property": "C32",
   "status": "partial",
   "theorems": [
    "Ellalgo.C32_false_witness_partial",
    "Ellalgo.C32_psd_accepted_partial",
    "Ellalgo.C32_zero_diagonal_accepted",
    "Ellalgo.C32_true_does_not_imply_psd",
    "Ellalgo.C32_accepted_iff",
    "Ellalgo.C32_accepted_nonsingular"
   ],
   "note": "False of the code: a zero pivot restarts the factorisation and the coupling to earlier rows is ignored, so e.g. every matrix with zero diagonal is accepted (C32_zero_diagonal_accepted, C32_true_does_not_imply_psd). Proved: every positive semidefinite matrix is accepted, and every rejection comes with a correct witness. C32_accepted_iff says exactly which matrices are accepted: those that split into consecutive diagonal blocks, each positive definite up to its last row and singular there (the last block may be positive definite throughout); the entries outside the blocks do not matter."
  },
  {
   "property": "C33",
   "status": "proved",
   "theorems": [
    "Ellalgo.C33_lmi_exact",
    "Ellalgo.C33_gradient_ne_zero",
    "Ellalgo.C33_level_ignored"
   ],
   "note": ""
  },
  {
   "property": "C34",
   "status": "proved",
   "theorems": [
    "Ellalgo.C34_old_eq_new"
   ],
   "note": ""
  },
  {
   "property": "C35",
   "status": "proved",
   "theorems": [
    "Ellalgo.C35_lmi0_exact",
    "Ellalgo.C35_lmi0_new"
   ],
   "note": ""
  },
  {
   "property": "C36",
   "status": "proved",
   "theorems": [
    "Ellalgo.C36_lmi_solved",
    "Ellalgo.C36_lmi_solved_explicit"
   ],
   "note": "C36_lmi_solved_explicit gives numbers: tolerance up to lambda^2 where the matrix at the centre of the ball dominates lambda I, iterations above (d+1) ln(det(kappa M)/r^(2d)). C36_lmi_solved needs no lambda but its tolerance is existential."
  },
  {
   "property": "C37",
   "status": "proved",
   "theorems": [
    "Ellalgo.C37_ok_small_residual"
   ],
   "note": ""
  },
  {
   "property": "C38",
   "status": "proved",
   "theorems": [
    "Ellalgo.C38_spd_converges"
   ],
   "note": ""
  },
  {
   "property": "C39",
   "status": "partial",
   "theorems": [
    "Ellalgo.C39_exact_start_rejected",
    "Ellalgo.C39_no_wrong_answer_partial"
   ],
   "note": "False of the code: with an exact starting point the breakdown test on p^T A p fires and the call returns an error (C39_exact_start_rejected). The _partial theorem proves the call never returns a wrong answer there."
  },
  {
   "property": "C40",
   "status": "proved",
   "theorems": [
    "Ellalgo.C40_power_iteration",
    "Ellalgo.C40_power_iteration4",
    "Ellalgo.C40_power_iteration2",
    "Ellalgo.C40_power_iteration3_partial",
    "Ellalgo.C40_between_eigenvalues",
    "Ellalgo.C40_power3_not_unit"
   ],
   "note": "Proved for power_iteration, 2 and 4. power_iteration3 is outside the statement: C40_power_iteration3_partial and C40_power3_not_unit show what holds and that its vector need not be normalised when the limit is reached."
  },
  {
   "property": "C41",
   "status": "proved",
   "theorems": [
    "Ellalgo.C41_stop_criterion",
    "Ellalgo.C41_residual",
    "Ellalgo.C41_eigenvalue_near",
    "Ellalgo.C41_eigenvector_start",
    "Ellalgo.C41_residual4"
   ],
   "note": ""
  },
  {
   "property": "C42",
   "status": "proved",
   "theorems": [
    "Ellalgo.C42_dot_mv",
    "Ellalgo.C42_dot",
    "Ellalgo.C42_outer",
    "Ellalgo.C42_rank_one_update",
    "Ellalgo.C42_constructors",
    "Ellalgo.C42_elementwise_mat",
    "Ellalgo.C42_elementwise_vec",
    "Ellalgo.C42_pointwise_functions",
    "Ellalgo.C42_named_functions",
    "Ellalgo.C42_from_shape_vec",
    "Ellalgo.C42_mismatch_panics"
   ],
   "note": ""
  },
  {
   "property": "C43",
   "status": "proved",
   "theorems": [
    "Ellalgo.C43_get_after_set",
    "Ellalgo.C43_vector_access",
    "Ellalgo.C43_out_of_range_panics",
    "Ellalgo.C43_vector_two_index_panics",
    "Ellalgo.C43_tuple_index",
    "Ellalgo.C43_tuple_index_on_vector",
    "Ellalgo.C43_column_overflow_aliases",
    "Ellalgo.C43_row"
   ],
   "note": ""
  },
  {
   "property": "C44",
   "status": "proved",
   "theorems": [
    "Ellalgo.C44_linspace",
    "Ellalgo.C44_arange"
   ],
   "note": ""
  },
  {
   "property": "C45",
   "status": "proved",
   "theorems": [
    "Ellalgo.C45_lowpass_accepts",
    "Ellalgo.C45_lowpass_new"
   ],
   "note": ""
  },
  {
   "property": "C46",
   "status": "proved",
   "theorems": [
    "Ellalgo.C46_lowpass_cut",
    "Ellalgo.C46_lowpass_optim",
    "Ellalgo.C46_lowpass_empty_stopband"
   ],
   "note": "Optimisation mode needs a nonempty stopband; C46_lowpass_empty_stopband proves the panic otherwise."
  },
  {
   "property": "C47",
   "status": "partial",
   "theorems": [
    "Ellalgo.C47_case_built_partial",
    "Ellalgo.C47_case_infeasible",
    "Ellalgo.C47_case_never_solved"
   ],
   "note": "False of the code: delta1 is negative, so the lower passband bound is about 162 and the upper about 0.006; C47_case_infeasible and C47_case_never_solved prove that no filter is ever accepted. The _partial theorem proves that construction succeeds and which problem it sets up."
  },
  {
   "property": "C48",
   "status": "proved",
   "theorems": [
    "Ellalgo.C48_profit",
    "Ellalgo.C48_profit_new"
   ],
   "note": ""
  },
  {
   "property": "C49",
   "status": "partial",
   "theorems": [
    "Ellalgo.C49_discrete_run_partial",
    "Ellalgo.C49_discrete_partial",
    "Ellalgo.C49_new_partial",
    "Ellalgo.C49_shift_sign_wrong"
   ],
   "note": "The integer-rounding and feasibility half is proved. The shifted cut is false of the code: the shift has the wrong sign (C49_shift_sign_wrong exhibits a better integer point that the alternative cut removes). Whole runs: C49_discrete_run_partial."
  },
  {
   "property": "C50",
   "status": "proved",
   "theorems": [
    "Ellalgo.C50_svm",
    "Ellalgo.C50_svm_new"
   ],
   "note": ""
  },
  {
   "property": "C51",
   "status": "proved",
   "theorems": [
    "Ellalgo.C51_maxcut_new",
    "Ellalgo.C51_new_rejects",
    "Ellalgo.C51_maxcut",
    "Ellalgo.C51_maxcut_history",
    "Ellalgo.C51_maxcut_stuck"
   ],
   "note": ""
  },
  {
   "property": "C52",
   "status": "proved",
   "theorems": [
    "Ellalgo.C52_quasicvx"
   ],
   "note": ""
  },
  {
   "property": "C53",
   "status": "partial",
   "theorems": [
    "Ellalgo.C53_inactive_cut_reported_noSoln",
    "Ellalgo.C53_shallow_cut_loses_points",
    "Ellalgo.C53_shallow_cut_partial"
   ],
   "note": "False of the code for beta < -tau/n: the two refutation theorems show every such cut is mishandled (NoSoln although the whole ellipsoid satisfies the cut; points lost). The _partial theorem proves the remaining range and that update_q is safe for every beta."
  },
  {
   "property": "C54",
   "status": "proved",
   "theorems": [
    "Ellalgo.C54_energy_decreases"
   ],
   "note": ""
  },
  {
   "property": "C55",
   "status": "proved",
   "theorems": [
    "Ellalgo.C55_power_iteration_terminates"
   ],
   "note": ""
  },
  {
   "property": "C56",
   "status": "proved",
   "theorems": [
    "Ellalgo.C56_epsilon_optimal"
   ],
   "note": ""
  },
  {
   "property": "C57",
   "status": "proved",
   "theorems": [
    "Ellalgo.C57_quasicvx_solved"
   ],
   "note": ""
  },
  {
   "property": "C58",
   "status": "proved",
   "theorems": [
    "Ellalgo.C58_example1",
    "Ellalgo.C58_example1_rr",
    "Ellalgo.C58_example1_agree",
    "Ellalgo.C58_example4",
    "Ellalgo.C58_example3",
    "Ellalgo.C58_example3_default"
   ],
   "note": ""
  },
  {
   "property": "C59",
   "status": "proved",
   "theorems": [
    "Ellalgo.C59_example1_solved",
    "Ellalgo.C59_example1_rr_solved",
    "Ellalgo.C59_example4_solved"
   ],
   "note": ""
  },
  {
   "property": "C60",
   "status": "proved",
   "theorems": [
    "Ellalgo.C60_robust_profit",
    "Ellalgo.C60_robust_value_guaranteed",
    "Ellalgo.C60_robust_new"
   ],
   "note": ""
  },
  {
   "property": "C61",
   "status": "proved",
   "theorems": [
    "Ellalgo.C61_epsilon_optimal_smooth"
   ],
   "note": ""
  },
  {
   "property": "C62",
   "status": "proved",
   "theorems": [
    "Ellalgo.C62_profit_solved",
    "Ellalgo.C62_robust_profit_solved"
   ],
   "note": ""
  },
  {
   "property": "C63",
   "status": "proved",
   "theorems": [
    "Ellalgo.C63_svm_trained",
    "Ellalgo.C63_svm_separable"
   ],
   "note": ""
  },
  {
   "property": "C64",
   "status": "proved",
   "theorems": [
    "Ellalgo.C64_lowpass_designed"
   ],
   "note": ""
  },
  {
   "property": "C65",
   "status": "proved",
   "theorems": [
    "Ellalgo.C65_bsearch_minimizes",
    "Ellalgo.C65_example3_solved"
   ],
   "note": ""
  },
  {
   "property": "C66",
   "status": "proved",
   "theorems": [
    "Ellalgo.C66_least_volume",
    "Ellalgo.C66_bias_least_volume",
    "Ellalgo.C66_parallel_least_volume"
   ],
   "note": ""
  },
  {
   "property": "C67",
   "status": "proved",
   "theorems": [
    "Ellalgo.C67_scaled_cut_single",
    "Ellalgo.C67_scaled_cut_parallel"
   ],
   "note": ""
  },
  {
   "property": "C68",
   "status": "proved",
   "theorems": [
    "Ellalgo.C68_affine_feas",
    "Ellalgo.C68_affine_optim",
    "Ellalgo.C68_affine_optim_q",
    "Ellalgo.C68_affine_bsearch",
    "Ellalgo.C68_region_image"
   ],
   "note": ""
  },
  {
   "property": "C69",
   "status": "proved",
   "theorems": [
    "Ellalgo.C69_updates_defined_single",
    "Ellalgo.C69_updates_defined_parallel",
    "Ellalgo.C69_new_defined",
    "Ellalgo.C69_new_undefined_dim1",
    "Ellalgo.C69_zero_gradient_undefined",
    "Ellalgo.C69_feas_defined",
    "Ellalgo.C69_optim_defined"
   ],
   "note": ""
  },
  {
   "property": "C70",
   "status": "proved",
   "theorems": [
    "Ellalgo.C70_optimQ_better_points_kept",
    "Ellalgo.C70_optimQ_early_stop"
   ],
   "note": ""
  },
  {
   "property": "C71",
   "status": "proved",
   "theorems": [
    "Ellalgo.C71_posDef_lost",
    "Ellalgo.C71_dot_error",
    "Ellalgo.C71_tsq_error",
    "Ellalgo.C71_noSoln_margin",
    "Ellalgo.C71_central_kappa",
    "Ellalgo.C71_central_run",
    "Ellalgo.C71_bsearch_rounded",
    "Ellalgo.C71_bsearch_stops",
    "Ellalgo.C71_bsearch_flag",
    "Ellalgo.C71_bsearch_flag_converse_fails"
   ],
   "note": ""
  },
  {
   "property": "C72",
   "status": "proved",
   "theorems": [
    "Ellalgo.C72_iterations_for_accuracy",
    "Ellalgo.C72_linear_convergence",
    "Ellalgo.C72_unreachable_level",
    "Ellalgo.C72_example1",
    "Ellalgo.C72_example1_default",
    "Ellalgo.C72_example1_rr",
    "Ellalgo.C72_example4",
    "Ellalgo.C72_example1_infeasible"
   ],
   "note": ""
  },
  {
   "property": "C73",
   "status": "proved",
   "theorems": [
    "Ellalgo.C73_reaches_goal",
    "Ellalgo.C73_integration_test",
    "Ellalgo.C73_ill_conditioned_test",
    "Ellalgo.C73_quadratic_oracle",
    "Ellalgo.C73_target_oracle",
    "Ellalgo.C73_bench_oracle",
    "Ellalgo.C73_scaling_oracle",
    "Ellalgo.C73_ill_conditioned_oracle",
    "Ellalgo.C73_extreme_scale_oracle",
    "Ellalgo.C73_quadratic_solved",
    "Ellalgo.C73_quadratic_safe",
    "Ellalgo.C73_cuts_off_better_points",
    "Ellalgo.C73_bench_stops_at_once"
   ],
   "note": ""
  },
  {
   "property": "C74",
   "status": "partial",
   "theorems": [
    "Ellalgo.C74_answers",
    "Ellalgo.C74_value_overwritten",
    "Ellalgo.C74_result_partial",
    "Ellalgo.C74_stuck",
    "Ellalgo.C74_two_lmis_partial",
    "Ellalgo.C74_loses_solutions"
   ],
   "note": "The last clause (gamma ends as the cost of the returned point) is false of the code: gamma is overwritten with the cost of a point whose other constraints have not been tested yet (C74_value_overwritten), and a run can then lose every solution (C74_loses_solutions). Proved: everything else, with gamma' <= cost of the returned point instead of equality."
  },
  {
   "property": "C75",
   "status": "partial",
   "theorems": [
    "Ellalgo.C75_answers",
    "Ellalgo.C75_run_safe",
    "Ellalgo.C75_stops_at_feasible_points",
    "Ellalgo.C75_example_returns_zero",
    "Ellalgo.C75_near_optimal_partial"
   ],
   "note": "The last clause (with enough iterations the return is as good as that of a ball of feasible portfolios) is false of the code: a feasible point that is no improvement gets a zero gradient, which ends the run (C75_stops_at_feasible_points), and the shipped example returns the zero portfolio in exact arithmetic (C75_example_returns_zero). Proved: everything else, and the last clause unless tsq() == 0 at the end (C75_near_optimal_partial)."
  },
  {
   "property": "C76",
   "status": "proved",
   "theorems": [
    "Ellalgo.C76_factor_defined",
    "Ellalgo.C76_factorize_defined",
    "Ellalgo.C76_sqrt_defined",
    "Ellalgo.C76_witness_defined",
    "Ellalgo.C76_cg_defined",
    "Ellalgo.C76_power_defined",
    "Ellalgo.C76_power_zero_start",
    "Ellalgo.C76_lmi_defined",
    "Ellalgo.C76_lmi0_defined",
    "Ellalgo.C76_lowpass_defined",
    "Ellalgo.C76_lowpass_new_defined",
    "Ellalgo.C76_profit_defined",
    "Ellalgo.C76_profit_q_defined",
    "Ellalgo.C76_profit_new_defined",
    "Ellalgo.C76_examples_defined",
    "Ellalgo.C76_lmi_run_defined",
    "Ellalgo.C76_lowpass_run_defined"
   ],
   "note": ""
  },
  {
   "property": "C77",
   "status": "proved",
   "theorems": [
    "Ellalgo.C77_example1",
    "Ellalgo.C77_none_excludes_balls",
    "Ellalgo.C77_stop_excludes_balls",
    "Ellalgo.C77_stop_gap"
   ],
   "note": ""
  },
  {
   "property": "C78",
   "status": "proved",
   "theorems": [
    "Ellalgo.C78_feas_stops",
    "Ellalgo.C78_optim_stops",
    "Ellalgo.C78_feas_stops_single",
    "Ellalgo.C78_optim_stops_single",
    "Ellalgo.C78_feas_decides",
    "Ellalgo.C78_example1"
   ],
   "note": ""
  },
  {
   "property": "C79",
   "status": "proved",
   "theorems": [
    "Ellalgo.C79_power_iteration",
    "Ellalgo.C79_power_iteration4",
    "Ellalgo.C79_power_iteration2",
    "Ellalgo.C79_power_iteration3",
    "Ellalgo.C79_error",
    "Ellalgo.C79_vector_error",
    "Ellalgo.C79_stop_bound_value",
    "Ellalgo.C79_stop_bound_vector",
    "Ellalgo.C79_all_terminate",
    "Ellalgo.C79_accuracy",
    "Ellalgo.C79_accuracy_psd",
    "Ellalgo.C79_rayleigh_stop_wrong"
   ],
   "note": ""
  },
  {
   "property": "C80",
   "status": "proved",
   "theorems": [
    "Ellalgo.C80_ok_iff",
    "Ellalgo.C80_error_iff",
    "Ellalgo.C80_distinct_eigenvalues",
    "Ellalgo.C80_rate",
    "Ellalgo.C80_error_bound"
   ],
   "note": ""
  },
  {
   "property": "C81",
   "status": "proved",
   "theorems": [
    "Ellalgo.C81_nan_cut_succeeds",
    "Ellalgo.C81_nan_parallel_cut",
    "Ellalgo.C81_nan_is_permanent",
    "Ellalgo.C81_feas_on_nan",
    "Ellalgo.C81_optim_on_nan",
    "Ellalgo.C81_ldlt_accepts_nan",
    "Ellalgo.C81_lmi_accepts_nan",
    "Ellalgo.C81_lmi0_accepts_nan",
    "Ellalgo.C81_lmi_run_reports_feasible",
    "Ellalgo.C81_power_on_nan",
    "Ellalgo.C81_cg_on_nan",
    "Ellalgo.C81_bsearch_on_nan",
    "Ellalgo.C81_examples_accept_nan",
    "Ellalgo.C81_svm_accepts_nan",
    "Ellalgo.C81_profit_accepts_nan",
    "Ellalgo.C81_lowpass_on_nan",
    "Ellalgo.C81_early_stop_is_not_nan",
    "Ellalgo.C81_optim_answer_is_nan",
    "Ellalgo.C81_example1_answer_is_nan"
   ],
   "note": ""
  },
  {
   "property": "C82",
   "status": "proved",
   "theorems": [
    "Ellalgo.C82_factor_accepts",
    "Ellalgo.C82_factor_margin",
    "Ellalgo.C82_lmi_rounded",
    "Ellalgo.C82_lmi_cut",
    "Ellalgo.C82_lmi0_rounded",
    "Ellalgo.C82_lmi_run",
    "Ellalgo.C82_lmi_old_same",
    "Ellalgo.C82_two_lmis_run"
   ],
   "note": ""
  },
  {
   "property": "C83",
   "status": "partial",
   "theorems": [
    "Ellalgo.C83_example2_test_feasible",
    "Ellalgo.C83_example2_test_infeasible",
    "Ellalgo.C83_example2",
    "Ellalgo.C83_example2_solved",
    "Ellalgo.C83_example2_infeasible",
    "Ellalgo.C83_quasicvx2_partial",
    "Ellalgo.C83_quasicvx2_solved_partial",
    "Ellalgo.C83_quasicvx2_zero",
    "Ellalgo.C83_quasicvx2_zero_run"
   ],
   "note": "Proved in full for MyOracle2. For MyQuasicvxOracle false of the code at feasible points with x = 0 (its comment says such points violate x > 0, the code tests -x > 0): the gradient is -0.5/0, and a run started there returns a point made of NaN (C83_quasicvx2_zero, C83_quasicvx2_zero_run, in checked arithmetic). The _partial theorems prove everything for queries elsewhere."
  },
  {
   "property": "C84",
   "status": "partial",
   "theorems": [
    "Ellalgo.C84_noSoln_complete_partial",
    "Ellalgo.C84_noSoln_iff",
    "Ellalgo.C84_missed_parallel_cut_succeeds"
   ],
   "note": "False of the code for parallel cuts with beta0 <= beta1 < -tau, which miss the ellipsoid but are reported as Success (C84_missed_parallel_cut_succeeds). The _partial theorem proves it for all other cuts, in particular all single cuts and all parallel cuts with beta1 >= 0."
  },
  {
   "property": "C85",
   "status": "proved",
   "theorems": [
    "Ellalgo.C85_example1_oracle",
    "Ellalgo.C85_example1_rr_oracle",
    "Ellalgo.C85_example4_oracle",
    "Ellalgo.C85_quadratic_oracle",
    "Ellalgo.C85_target_oracle",
    "Ellalgo.C85_bench_oracle",
    "Ellalgo.C85_ill_conditioned_oracle",
    "Ellalgo.C85_extreme_scale_oracle",
    "Ellalgo.C85_portfolio_oracle",
    "Ellalgo.C85_maxcut_oracle",
    "Ellalgo.C85_svm_oracle",
    "Ellalgo.C85_constructors",
    "Ellalgo.C85_exact_run",
    "Ellalgo.C85_never_improves",
    "Ellalgo.C85_minimise_from_neg_inf",
    "Ellalgo.C85_benchmark_returns",
    "Ellalgo.C85_maximise_from_pos_inf",
    "Ellalgo.C85_minimise_finds_point",
    "Ellalgo.C85_example1_infeasible",
    "Ellalgo.C85_example1_run",
    "Ellalgo.C85_infinite_start",
    "Ellalgo.C85_infinite_start_stable"
   ],
   "note": "In arithmetic without rounding, with the infinities of IEEE 754; a finite operation never overflows to an infinity there. MyLmi (tests/lmi_tests.rs), which also starts at f64::INFINITY, is not covered."
  },
  {
   "property": "C86",
   "status": "proved",
   "theorems": [
    "Ellalgo.C86_example1",
    "Ellalgo.C86_example1_rr",
    "Ellalgo.C86_example4",
    "Ellalgo.C86_example2",
    "Ellalgo.C86_example3",
    "Ellalgo.C86_ell_steady",
    "Ellalgo.C86_optim_run",
    "Ellalgo.C86_feas_run",
    "Ellalgo.C86_exact_feasibility_fails"
   ],
   "note": "Rounding model: relative error u per operation, monotone, unbounded exponent range (no overflow or underflow). C86_exact_feasibility_fails shows that the margin cannot be dropped."
  },
  {
   "property": "C87",
   "status": "proved",
   "theorems": [
    "Ellalgo.C87_stable_no_panic_and_shapes",
    "Ellalgo.C87_stable_long_gradient_ignored",
    "Ellalgo.C87_stable_short_gradient_panics"
   ],
   "note": "C87_stable_long_gradient_ignored records a difference from Ell, which panics (C11_bad_gradient_panics)."
  },
  {
   "property": "C88",
   "status": "proved",
   "theorems": [
    "Ellalgo.C88_lowpass_feas",
    "Ellalgo.C88_lowpass_optim",
    "Ellalgo.C88_f64_lowpass32",
    "Ellalgo.C88_lowpass_optim_run",
    "Ellalgo.C88_lowpass_feas_run",
    "Ellalgo.C88_lowpass_new"
   ],
   "note": "Rounding model as in C71 and C86; cos is taken to be correctly rounded up to relative error u."
  },
  {
   "property": "C89",
   "status": "proved",
   "theorems": [
    "Ellalgo.C89_constructors",
    "Ellalgo.C89_step",
    "Ellalgo.C89_sequence",
    "Ellalgo.C89_sequence_stable",
    "Ellalgo.C89_feas_run",
    "Ellalgo.C89_feas_run_stable",
    "Ellalgo.C89_optim_run",
    "Ellalgo.C89_optim_run_stable",
    "Ellalgo.C89_bisection_collapses",
    "Ellalgo.C89_interval_not_found"
   ],
   "note": "Not covered: a central cut with two planes, whose strategy does not use the constant 1/0."
  },
  {
   "property": "C90",
   "status": "proved",
   "theorems": [
    "Ellalgo.C90_test_oracles",
    "Ellalgo.C90_tests_count",
    "Ellalgo.C90_first_stop_unique",
    "Ellalgo.C90_feas_same_cut",
    "Ellalgo.C90_optim_same_cut",
    "Ellalgo.C90_optim_q_same_cut"
   ],
   "note": "Ell only; the iterates of EllStable differ from those of Ell (C28)."
  },
  {
   "property": "C91",
   "status": "proved",
   "theorems": [
    "Ellalgo.C91_feas_answer",
    "Ellalgo.C91_optim_answer",
    "Ellalgo.C91_q3_answer",
    "Ellalgo.C91_q3_removes",
    "Ellalgo.C91_q3_removes_better_points",
    "Ellalgo.C91_feas_run",
    "Ellalgo.C91_first_point",
    "Ellalgo.C91_optim_run",
    "Ellalgo.C91_hopeless_value",
    "Ellalgo.C91_q3_run",
    "Ellalgo.C91_bsearch",
    "Ellalgo.C91_bsearch_adaptor"
   ],
   "note": "The comment in the file says that MyOracleOptim minimises x + y; the code maximises it."
  },
  {
   "property": "C92",
   "status": "proved",
   "theorems": [
    "Ellalgo.C92_core_fields",
    "Ellalgo.C92_central_positive",
    "Ellalgo.C92_bias_positive",
    "Ellalgo.C92_parallel_positive",
    "Ellalgo.C92_construct",
    "Ellalgo.C92_central_kappa",
    "Ellalgo.C92_bias_kappa",
    "Ellalgo.C92_many_central_cuts"
   ],
   "note": "Dimension one, which the quickcheck generators also draw, is excluded: there delta is infinite (C89), and the sampled property delta > 0 holds only because infinity is positive."
  },
  {
   "property": "C93",
   "status": "proved",
   "theorems": [
    "Ellalgo.C93_svm_answer",
    "Ellalgo.C93_svm_run",
    "Ellalgo.C93_exact_margin_fails"
   ],
   "note": "Rounding without overflow or underflow (relative-error model of Spec/Rounded). Labels are assumed representable, which holds for \u00b11."
  },
  {
   "property": "C94",
   "status": "proved",
   "theorems": [
    "Ellalgo.C94_maxcut_answer",
    "Ellalgo.C94_maxcut_run",
    "Ellalgo.C94_exact_weight_fails"
   ],
   "note": "Rounding without overflow or underflow. The rounded gradient is only shown to be a vector of the right length."
  },
  {
   "property": "C95",
   "status": "proved",
   "theorems": [
    "Ellalgo.C95_discrete_answer",
    "Ellalgo.C95_discrete_run",
    "Ellalgo.C95_discrete_new",
    "Ellalgo.C95_profit_answer",
    "Ellalgo.C95_profit_new",
    "Ellalgo.C95_profit_run",
    "Ellalgo.C95_robust_answer",
    "Ellalgo.C95_robust_run",
    "Ellalgo.C95_robust_new",
    "Ellalgo.C95_exact_profit_fails"
   ],
   "note": "exp and ln are assumed correctly rounded (relative error u); no overflow or underflow. When gamma + cost <= 0 the code computes ln of a non-positive number (NaN, and the point is accepted) where the model's logarithm is a real number; the comparison claims therefore assume gamma >= 0. The offset and gradient of a rejecting cut are not bounded."
  },
  {
   "property": "C96",
   "status": "proved",
   "theorems": [
    "Ellalgo.C96_stays_diagonal",
    "Ellalgo.C96_tsq_accurate",
    "Ellalgo.C96_central_step",
    "Ellalgo.C96_central_run",
    "Ellalgo.C96_deep_cut",
    "Ellalgo.C96_new"
   ],
   "note": "Rounding without overflow or underflow. The update only reads and writes the diagonal in effect: from a diagonal start the code never leaves diagonal matrices. Accuracy against the exact update is proved for central cuts; for deep cuts positivity is proved."
  },
  {
   "property": "C97",
   "status": "proved",
   "theorems": [
    "Ellalgo.C97_power_iteration",
    "Ellalgo.C97_residual",
    "Ellalgo.C97_eigenvalue_near",
    "Ellalgo.C97_power_iteration2",
    "Ellalgo.C97_power_iteration4",
    "Ellalgo.C97_power_iteration3"
   ],
   "note": "Rounding without overflow or underflow. A zero returned vector is the model's stand-in for the NaN the code gets from 0/0. The residual after an early stop is proved for power_iteration."
  },
  {
   "property": "C98",
   "status": "proved",
   "theorems": [
    "Ellalgo.C98_iterates",
    "Ellalgo.C98_one_end",
    "Ellalgo.C98_residual_drift",
    "Ellalgo.C98_true_residual",
    "Ellalgo.ExCgFl.C98_f64_below_tol_fails"
   ],
   "note": "Rounding without overflow or underflow. The bound is in terms of the size of the iterates actually made; that they stay bounded for a positive definite system in rounded arithmetic is not proved."
  },
  {
   "property": "C99",
   "status": "proved",
   "theorems": [
    "Ellalgo.C99_nan_laws",
    "Ellalgo.C99_non_finite_laws",
    "Ellalgo.C99_tiny_gradient",
    "Ellalgo.C99_tiny_gradient_nosoln",
    "Ellalgo.C99_feas_gives_up",
    "Ellalgo.C99_optim_gives_up",
    "Ellalgo.ExB64.C99_scaled_constraint_infeasible",
    "Ellalgo.C99_huge_gradient",
    "Ellalgo.C99_normal_range",
    "Ellalgo.C99_tiny_gradient_stable",
    "Ellalgo.C99_feas_gives_up_stable"
   ],
   "note": "Ell and EllStable. +, -, *, / and sqrt are the IEEE operations; exp, ln, cos and log10 are taken as correctly rounded and are not used by these theorems. One NaN."
  },
  {
   "property": "C100",
   "status": "proved",
   "theorems": [
    "Ellalgo.C100_power_tiny_start",
    "Ellalgo.C100_power_huge",
    "Ellalgo.C100_bsearch_overflow"
   ],
   "note": "power_iteration3 and power_iteration4 scale by the largest entry and are not covered."
  },
  {
   "property": "C101",
   "status": "proved",
   "theorems": [
    "Ellalgo.C101_adaptor",
    "Ellalgo.C101_new",
    "Ellalgo.C101_update_exact",
    "Ellalgo.C101_update_halves",
    "Ellalgo.C101_zero_gradient",
    "Ellalgo.C101_feas_finds",
    "Ellalgo.C101_feas_none",
    "Ellalgo.C101_optim"
   ],
   "note": "ell1d.rs is not declared in lib.rs and is written for an older SearchSpace trait; the model reads it as it stands and adapts it to today's trait by storing tsq."
  },
  {
   "property": "C102",
   "status": "proved",
   "theorems": [
    "Ellalgo.C102_values",
    "Ellalgo.C102_spectrum",
    "Ellalgo.C102_filter_accepted"
   ],
   "note": "spectral_fact itself calls FFT functions outside the repository and is not modelled."
  },
  {
   "property": "C103",
   "status": "proved",
   "theorems": [
    "Ellalgo.C103_central_step",
    "Ellalgo.C103_central_run",
    "Ellalgo.C103_first_cuts",
    "Ellalgo.C103_inflation_closed_form",
    "Ellalgo.C103_deep_step",
    "Ellalgo.C103_step_any_flag"
   ],
   "note": "Complements C71_posDef_lost: without a bound on the condition a cut in f64 can make the matrix singular. Overflow and underflow are outside Fl (see C99). Parallel cuts are C110; C103_step_any_flag covers no_defer_trick = true."
  },
  {
   "property": "C104",
   "status": "proved",
   "theorems": [
    "Ellalgo.C104_feas_converges",
    "Ellalgo.C104_disc_f64",
    "Ellalgo.C104_margin",
    "Ellalgo.C104_precision_exists",
    "Ellalgo.C104_high_precision"
   ],
   "note": "Floating-point counterpart of C22. For deep cuts the precision that the explicit condition asks for grows with the number of cuts and is above 53 bits except for short runs; for central cuts f64 is enough for an example (C104_disc_f64). Overflow and underflow are outside Fl (see C99). Both settings of no_defer_trick are covered, parallel cuts are C110. C104_margin replaces the lower bound on the gradients by a margin of the cuts at one interior point."
  },
  {
   "property": "C105",
   "status": "proved",
   "theorems": [
    "Ellalgo.C105_optim_converges",
    "Ellalgo.C105_high_precision",
    "Ellalgo.C105_reaches_level",
    "Ellalgo.C105_finds_point",
    "Ellalgo.C105_disc_f64",
    "Ellalgo.C105_example1",
    "Ellalgo.C105_example2",
    "Ellalgo.C105_example1_rr",
    "Ellalgo.C105_example4"
   ],
   "note": "Floating-point counterpart of C25. As in C104 the explicit condition asks for far more than 53 bits when cuts may be deep; for central cuts of the unit disc 53 bits are shown to suffice (C105_disc_f64). Overflow and underflow are not covered; parallel cuts are C112."
  },
  {
   "property": "C106",
   "status": "proved",
   "theorems": [
    "Ellalgo.EllipsoidError.C106_kind",
    "Ellalgo.EllipsoidError.C106_fields",
    "Ellalgo.EllipsoidError.C106_message_determines",
    "Ellalgo.EllipsoidError.C106_instability_ambiguous",
    "Ellalgo.EllipsoidError.C106_clone",
    "Ellalgo.EllipsoidError.C106_eq",
    "Ellalgo.EllipsoidError.C106_clone_equal"
   ],
   "note": "The ambiguity of NumericalInstability messages is C106_instability_ambiguous. Printing of f64 is a parameter."
  },
  {
   "property": "C107",
   "status": "proved",
   "theorems": [
    "Ellalgo.C107_bisection",
    "Ellalgo.C107_example3"
   ],
   "note": "Floating-point counterpart of C65. The caller cannot see the level t (C08: the interval is not written back). Overflow and underflow are not covered."
  },
  {
   "property": "C108",
   "status": "proved",
   "theorems": [
    "Ellalgo.C108_lmi_feasible",
    "Ellalgo.ExLmiFl.C108_example"
   ],
   "note": "Exact counterpart: C36. The margin replaces the bound on the gradient. Overflow and underflow are not covered."
  },
  {
   "property": "C109",
   "status": "proved",
   "theorems": [
    "Ellalgo.C109_update",
    "Ellalgo.C109_feas",
    "Ellalgo.C109_optim",
    "Ellalgo.C109_new",
    "Ellalgo.C109_disc_f64",
    "Ellalgo.C109_disc_optim_f64",
    "Ellalgo.C109_optim_q"
   ],
   "note": "The range conditions are stated on the run in Fl bin53 and follow the code operation by operation. EllStable, cutting_plane_optim_q and bsearch are not related."
  },
  {
   "property": "C110",
   "status": "proved",
   "theorems": [
    "Ellalgo.C110_parallel_step",
    "Ellalgo.C110_feas_converges"
   ],
   "note": "u0 is obtained by continuity; ParPlan.EnoughPrecision states the explicit condition on u. The step theorem covers deep, nondeep and central cuts; the optimisation loop is C112. The exponent range is unlimited (C109 relates runs in range to f64)."
  },
  {
   "property": "C111",
   "status": "proved",
   "theorems": [
    "Ellalgo.C111_lowpass_found",
    "Ellalgo.C111_lowpass_example"
   ],
   "note": "Feasibility version of the design problem; the optimisation version is C112."
  },
  {
   "property": "C112",
   "status": "proved",
   "theorems": [
    "Ellalgo.C112_optim_converges",
    "Ellalgo.C112_lowpass_optim",
    "Ellalgo.C112_lowpass_example"
   ],
   "note": "u0 is obtained by continuity; the exponent range is unlimited (C109 relates runs in range to f64). cutting_plane_optim_q with parallel cuts is not covered in rounded arithmetic."
  },
  {
   "property": "C113",
   "status": "proved",
   "theorems": [
    "Ellalgo.C113_value",
    "Ellalgo.C113_value_stop",
    "Ellalgo.C113_vector_stop",
    "Ellalgo.C113_vector_stop4"
   ],
   "note": "Positive semidefiniteness is needed: C79_rayleigh_stop_wrong is a wrong early stop of power_iteration2 and power_iteration3 on an indefinite matrix."
  },
  {
   "property": "C114",
   "status": "proved",
   "theorems": [
    "Ellalgo.C114_svm_trained"
   ],
   "note": "Overflow and underflow are outside the rounding model (C109 relates f64 runs within range to it)."
  },
  {
   "property": "C115",
   "status": "proved",
   "theorems": [
    "Ellalgo.C115_profit_solved",
    "Ellalgo.C115_robust_solved"
   ],
   "note": "The unit u0 depends on the data the oracle stores; for ProfitRbOracle these are the rounded price - e3, limit - e4 and cost + e5. The worst elasticities at the returned point are taken as computed (rounded). Overflow and underflow are outside the rounding model."
  },
  {
   "property": "C116",
   "status": "proved",
   "theorems": [
    "Ellalgo.C116_cg_solves"
   ],
   "note": "The unit u0 is not computed; it depends on the class only. The hypothesis that the initial residual is not small is needed: from an exact solution the code reports breakdown (C39). Overflow and underflow are outside the rounding model."
  },
  {
   "property": "C117",
   "status": "proved",
   "theorems": [
    "Ellalgo.C117_power_iteration",
    "Ellalgo.C117_power_iteration4",
    "Ellalgo.C117_power_iteration2",
    "Ellalgo.C117_power_iteration3"
   ],
   "note": "The arithmetic is any type with the operations of the model; sums are taken left to right from zero, as in the model of ndarray."
  },
  {
   "property": "C118",
   "status": "proved",
   "theorems": [
    "Ellalgo.C118_dominant"
   ],
   "note": "N and u0 are not computed; they depend on the class only. Overflow and underflow are outside the rounding model. As in exact arithmetic (C79) the tolerance alone does not bound the error for the variants that compare estimates."
  },
  {
   "property": "C119",
   "status": "partial",
   "theorems": [
    "Ellalgo.C119_values",
    "Ellalgo.C119_round_trip",
    "Ellalgo.C119_inverse_partial",
    "Ellalgo.C119_not_inverse",
    "Ellalgo.C119_empty_panics"
   ],
   "note": "The claim is false of the code: C119_not_inverse for every length >= 2. Proved: exactly what is computed (C119_values, C119_round_trip), and the claim for one positive tap (C119_inverse_partial). The file is not compiled in the crate; fft/ifft are read as the exact transforms."
  },
  {
   "property": "C120",
   "status": "proved",
   "theorems": [
    "Ellalgo.C120_quasicvx_solved"
   ],
   "note": "Existence of the roundoff is proved, not its size; no overflow in the arithmetic model."
  },
  {
   "property": "C121",
   "status": "proved",
   "theorems": [
    "Ellalgo.C121_answers",
    "Ellalgo.C121_run"
   ],
   "note": "Soundness of what is returned; that a good portfolio is returned is false even in exact arithmetic (C75)."
  },
  {
   "property": "C122",
   "status": "proved",
   "theorems": [
    "Ellalgo.C122_bsearch",
    "Ellalgo.C122_threshold",
    "Ellalgo.C122_panics"
   ],
   "note": "Intervals whose difference overflows are excluded; the widths are those of the bracket left by the recorded answers."
  },
  {
   "property": "C123",
   "status": "proved",
   "theorems": [
    "Ellalgo.C123_cg",
    "Ellalgo.C123_true_residual",
    "Ellalgo.ExCg64.C123_below_tol_fails",
    "Ellalgo.C123_power_iteration",
    "Ellalgo.C123_power_iteration4",
    "Ellalgo.C123_power_iteration2",
    "Ellalgo.C123_power_iteration3",
    "Ellalgo.C123_eigenvalue_near"
   ],
   "note": "The range hypothesis is stated on the run in 53-bit arithmetic, operation by operation."
  },
  {
   "property": "C124",
   "status": "proved",
   "theorems": [
    "Ellalgo.C124_lmi_oracle",
    "Ellalgo.C124_lmi_old_oracle",
    "Ellalgo.C124_lmi0_oracle",
    "Ellalgo.C124_lmi_run"
   ],
   "note": "The range hypothesis is stated on the run in 53-bit arithmetic, operation by operation."
  },
  {
   "property": "C125",
   "status": "proved",
   "theorems": [
    "Ellalgo.C125_update_value",
    "Ellalgo.C125_update",
    "Ellalgo.C125_new",
    "Ellalgo.C125_feas",
    "Ellalgo.C125_optim",
    "Ellalgo.C125_optim_q"
   ],
   "note": "The range hypothesis is stated on the run in 53-bit arithmetic, operation by operation."
  },
  {
   "property": "C126",
   "status": "proved",
   "theorems": [
    "Ellalgo.C126_lowpass_query",
    "Ellalgo.C126_lowpass_feas",
    "Ellalgo.C126_lowpass_optim",
    "Ellalgo.C126_lowpass_run",
    "Ellalgo.C126_lowpass_run_stable",
    "Ellalgo.C126_svm_run",
    "Ellalgo.C126_svm_run_stable",
    "Ellalgo.C126_svm_optim"
   ],
   "note": "The range hypothesis is stated on the run in 53-bit arithmetic, operation by operation; the table of cosines may be wrong by a relative amount that enters the error."
  },
  {
   "property": "C127",
   "status": "proved",
   "theorems": [
    "Ellalgo.C127_maxcut_query",
    "Ellalgo.C127_maxcut_run"
   ],
   "note": "No range hypothesis on the run: only the weights are bounded."
  },
  {
   "property": "C128",
   "status": "proved",
   "theorems": [
    "Ellalgo.C128_profit_query",
    "Ellalgo.C128_profit_value",
    "Ellalgo.C128_profit_run",
    "Ellalgo.C128_robust_run",
    "Ellalgo.C128_profit_new",
    "Ellalgo.C128_discrete_new",
    "Ellalgo.C128_discrete_run"
   ],
   "note": "exp, ln and round are taken to be correctly rounded. Range hypotheses only on the data and the returned point."
  },
  {
   "property": "C129",
   "status": "proved",
   "theorems": [
    "Ellalgo.C129_svm_query",
    "Ellalgo.C129_svm_margin",
    "Ellalgo.C129_svm_run"
   ],
   "note": "A NaN margin compares below nothing, so a classifier with NaN margins passes (C81)."
  },
  {
   "property": "C130",
   "status": "proved",
   "theorems": [
    "Ellalgo.C130_level_ignored",
    "Ellalgo.C130_lowpass_feas",
    "Ellalgo.C130_lowpass_new",
    "Ellalgo.C130_lowpass_query",
    "Ellalgo.C130_lowpass_response",
    "Ellalgo.C130_lowpass_feas_run",
    "Ellalgo.C130_lowpass_optim_run"
   ],
   "note": "A NaN response fails no test, so a filter of NaNs is accepted by the feasibility oracle (C81) and makes the optimisation oracle panic."
  },
  {
   "property": "C131",
   "status": "proved",
   "theorems": [
    "Ellalgo.C131_portfolio_query",
    "Ellalgo.C131_portfolio_values",
    "Ellalgo.C131_portfolio_run"
   ],
   "note": "A NaN amount or risk violates no limit, but the comparison of a NaN return with the current value fails, so it is never reported as an improvement."
  },
  {
   "property": "C132",
   "status": "proved",
   "theorems": [
    "Ellalgo.C132_quasicvx_query",
    "Ellalgo.C132_quasicvx_values",
    "Ellalgo.C132_quasicvx_better",
    "Ellalgo.C132_quasicvx_run"
   ],
   "note": "A NaN fails no test, so a point with a NaN may be returned (C81)."
  },
  {
   "property": "C133",
   "status": "proved",
   "theorems": [
    "Ellalgo.C133_lmi0_query",
    "Ellalgo.C133_lmi0_meaning",
    "Ellalgo.C133_lmi_query",
    "Ellalgo.C133_lmi_run",
    "Ellalgo.C133_lmi_meaning"
   ],
   "note": "A NaN pivot compares as not <= 0, so a point with a NaN is accepted (C81)."
  }
 ]
}