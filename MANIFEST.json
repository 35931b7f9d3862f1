{
 "claims": [
  {
   "property": "C01",
   "status": "proved",
   "theorems": [
    "Verif.C01_bounded_work"
   ],
   "note": ""
  },
  {
   "property": "C02",
   "status": "partial",
   "theorems": [
    "Verif.C02_diverges_without_limit",
    "Verif.C02_terminates_partial"
   ],
   "note": "Violated for max_consec_failures=0: divergence proved; partial assumes the linear solve eventually succeeds."
  },
  {
   "property": "C03",
   "status": "proved",
   "theorems": [
    "Verif.C03_histories_aligned"
   ],
   "note": ""
  },
  {
   "property": "C04",
   "status": "proved",
   "theorems": [
    "Verif.C04_final_cost_is_best"
   ],
   "note": ""
  },
  {
   "property": "C05",
   "status": "partial",
   "theorems": [
    "Verif.C05_rollback_rounds",
    "Verif.C05_best_or_one_step_roundtrips",
    "Verif.C05_returned_x_roundtrips",
    "Verif.C05_best_or_one_step_partial",
    "Verif.C05_returned_x_partial",
    "Verif.C05_returned_x_float",
    "Verif.C05_returned_x_bound"
   ],
   "note": "Violated in floating point: a rejected step is undone by adding -dx, which does not restore x (witness in double precision). Proved for all parameter types up to such round trips, exactly when (x+d)+(-d)=x, and with an error bound for IEEE formats."
  },
  {
   "property": "C06",
   "status": "partial",
   "theorems": [
    "Verif.C06_returned_x_not_checked",
    "Verif.C05_rollback_rounds",
    "Verif.C06_returned_x_has_final_cost_partial"
   ],
   "note": "Violated: witness; partial covers runs that end with a failed step."
  },
  {
   "property": "C07",
   "status": "proved",
   "theorems": [
    "Verif.C07_stop_reason_justified"
   ],
   "note": ""
  },
  {
   "property": "C08",
   "status": "partial",
   "theorems": [
    "Verif.C08_max_iters_wraps",
    "Verif.C08_reports_stop_partial"
   ],
   "note": "Violated when the budget reaches 65536 (uint16 wrap); proved below."
  },
  {
   "property": "C09",
   "status": "partial",
   "theorems": [
    "Verif.C09_timeout_hides_failure",
    "Verif.C09_flags_faithful_partial"
   ],
   "note": "Violated when a time-out replaces a failure; proved otherwise."
  },
  {
   "property": "C10",
   "status": "proved",
   "theorems": [
    "Verif.C10_no_dims",
    "Verif.C10_out_of_memory",
    "Verif.C10_no_residuals",
    "Verif.C10_bad_cost",
    "Verif.C10_bad_step",
    "Verif.C10_solver_failed",
    "Verif.C10_invalid_size",
    "Verif.C10_wrong_size",
    "Verif.C10_gn_no_residuals",
    "Verif.C10_gd_no_residuals",
    "Verif.C10_lm_no_residuals",
    "Verif.C10_lm_no_residuals_eval"
   ],
   "note": ""
  },
  {
   "property": "C11",
   "status": "proved",
   "theorems": [
    "Verif.C11_results_finite"
   ],
   "note": ""
  },
  {
   "property": "C12",
   "status": "partial",
   "theorems": [
    "Verif.C12_max_iters_zero_moves",
    "Verif.C12_moves_bounded_partial"
   ],
   "note": "Violated (max_iters=0 moves x); partial bounds by budget."
  },
  {
   "property": "C13",
   "status": "partial",
   "theorems": [
    "Verif.C13_limit_missed",
    "Verif.C13_count_wraps",
    "Verif.C13_rejected_step_limit_partial",
    "Verif.C13_total_failures_partial",
    "Verif.C13_counts_failures_partial"
   ],
   "note": "Violated by failed linear solves and by 8 bit wrap; proved for rejected steps."
  },
  {
   "property": "C14",
   "status": "proved",
   "theorems": [
    "Verif.C14_time_limit"
   ],
   "note": ""
  },
  {
   "property": "C15",
   "status": "proved",
   "theorems": [
    "Verif.C15_callback_ends_run",
    "Verif.C15_callback_consulted_last"
   ],
   "note": ""
  },
  {
   "property": "C16",
   "status": "partial",
   "theorems": [
    "Verif.C16_hessian_leaks",
    "Verif.C16_lm_reset_partial",
    "Verif.C16_gd_stateless",
    "Verif.C16_gn_stateless_partial"
   ],
   "note": "Violated for the saved Hessian of a run whose first resize fails; everything else proved equal."
  },
  {
   "property": "C17",
   "status": "partial",
   "theorems": [
    "Verif.C17_damping_leaks",
    "Verif.C17_stale_system",
    "Verif.C17_lm_reuse_partial"
   ],
   "note": "Violated: damping state and even the linear system of an earlier run leak; equal when the damping state is as new."
  },
  {
   "property": "C18",
   "status": "proved",
   "theorems": [
    "Verif.C18_acc_gets_zeros",
    "Verif.C18_accumulate_like_assign"
   ],
   "note": ""
  },
  {
   "property": "C20",
   "status": "proved",
   "theorems": [
    "Verif.C20_damping_in_range",
    "Verif.C20_run"
   ],
   "note": ""
  },
  {
   "property": "C21",
   "status": "proved",
   "theorems": [
    "Verif.C21_bad_steps",
    "Verif.C21_bad_step_monotone",
    "Verif.C21_reaches_max",
    "Verif.C21_good_after_good",
    "Verif.C21_bad_step_monotone_float",
    "Verif.C21_reaches_max_float"
   ],
   "note": "Exact arithmetic for the growth law; monotonicity and reaching the maximum also with rounding."
  },
  {
   "property": "C24",
   "status": "partial",
   "theorems": [
    "Verif.C24_reverts_too_much",
    "Verif.C24_reverts_partial"
   ],
   "note": "Violated: a good step divides by the already grown factor."
  },
  {
   "property": "C26",
   "status": "proved",
   "theorems": [
    "Verif.C26_clip",
    "Verif.C26_build",
    "Verif.C26_gn",
    "Verif.C26_lm",
    "Verif.C26_gd"
   ],
   "note": "NaN components stay NaN."
  },
  {
   "property": "C27",
   "status": "proved",
   "theorems": [
    "Verif.C27_upper_only"
   ],
   "note": ""
  },
  {
   "property": "C29",
   "status": "partial",
   "theorems": [
    "Verif.C29_rounding_ties",
    "Verif.C29_scaling_monotone_partial",
    "Verif.C29_scaled_decrease_partial",
    "Verif.C29_value",
    "Verif.C111_scaling"
   ],
   "note": "Violated in double precision: different costs can have equal square roots, which changes an acceptance (witness). Proved in exact arithmetic, for whole runs in C111_scaling; with rounding, a decrease of the scaled cost is a decrease of the raw cost."
  },
  {
   "property": "C51",
   "status": "partial",
   "theorems": [
    "Verif.C51_any_not_all",
    "Verif.C51_exact_partial"
   ],
   "note": "Violated: any instead of all."
  },
  {
   "property": "C22",
   "status": "partial",
   "theorems": [
    "Verif.C22_range_is_used",
    "Verif.C22_no_damping_partial"
   ],
   "note": "Violated with the default damping_range; proved when the lower end is 0."
  },
  {
   "property": "C23",
   "status": "partial",
   "theorems": [
    "Verif.C23_damped_after_one_iteration",
    "Verif.C23_failed_evaluation",
    "Verif.C23_saved_hessian_partial"
   ],
   "note": "Violated after a single iteration and after a failed evaluation; proved otherwise, for runs whose points have a finite cost (exact arithmetic)."
  },
  {
   "property": "C50",
   "status": "partial",
   "theorems": [
    "Verif.C50_stale_step",
    "Verif.C50_step_from_current_partial"
   ],
   "note": "Violated after two rejected steps; proved for iterations that rebuild the system."
  },
  {
   "property": "C25",
   "status": "partial",
   "theorems": [
    "Verif.C25_clipping_ascends",
    "Verif.C25_tiny_hessian",
    "Verif.C25_lm_descent_partial",
    "Verif.C25_gn_descent_partial",
    "Verif.C25_step_shrinks"
   ],
   "note": "Violated for a static size of one without LDLT and a Hessian below FloatEpsilon, and when gradient clipping changes the gradient; proved otherwise (exact arithmetic, Eigen's solution assumed correct on positive definite matrices)."
  },
  {
   "property": "C28",
   "status": "proved",
   "theorems": [
    "Verif.C28_gn_one_step"
   ],
   "note": "Exact arithmetic; no gradient clipping; the minimum-diagonal test is off or passes."
  },
  {
   "property": "C52",
   "status": "proved",
   "theorems": [
    "Verif.C52_step_decreases",
    "Verif.C52_lm_monotone"
   ],
   "note": "Exact arithmetic; runs of at most 65536 iterations."
  },
  {
   "property": "C19",
   "status": "partial",
   "theorems": [
    "Verif.C19_never_reported",
    "Verif.C19_violated",
    "Verif.C19_never_rescaled",
    "Verif.C19_variance_squared",
    "Verif.C19_num_diff_partial",
    "Verif.C19_rescale_partial"
   ],
   "note": "Violated: no run sets the statistics that the rescaling of the covariance needs; the rescaling formula squares the variance."
  },
  {
   "property": "C30",
   "status": "partial",
   "theorems": [
    "Verif.C30_messages",
    "Verif.C30_accumulate",
    "Verif.C30_order",
    "Verif.C30_outliers_partial",
    "Verif.C30_fractional",
    "Verif.C30_from_default",
    "Verif.C30_ratio_nan"
   ],
   "note": "Sums, residual and inlier counts proved; outlier counts only when every ratio is a count over the number of residuals (witness otherwise)."
  },
  {
   "property": "C31",
   "status": "partial",
   "theorems": [
    "Verif.C31_inliers_wrong",
    "Verif.C31_outliers_wrong",
    "Verif.C31_accumulated_wrong",
    "Verif.C31_counts_partial"
   ],
   "note": "Violated: witnesses; counts are at most one short for n up to 2^23 and exact for powers of two."
  },
  {
   "property": "C49",
   "status": "proved",
   "theorems": [
    "Verif.C49_description_safe"
   ],
   "note": "Outputs built by hand can still read an empty history: C49_handmade_ub."
  },
  {
   "property": "C53",
   "status": "proved",
   "theorems": [
    "Verif.C53_covariance_inverse"
   ],
   "note": "Exact arithmetic, Eigen's LDLT solution assumed correct on positive definite matrices."
  },
  {
   "property": "C32",
   "status": "partial",
   "theorems": [
    "Verif.C32_dims",
    "Verif.C32_dynDims",
    "Verif.C32_cast",
    "Verif.C32_cast_shape",
    "Verif.C32_plusEq_partial",
    "Verif.C32_undo_partial",
    "Verif.C32_pair_wrong",
    "Verif.C32_pair_witness",
    "Verif.C32_dynamic_elements_wrong",
    "Verif.C32_vectors_witness"
   ],
   "note": "Dimensions and cast proved for all nested types. The update is wrong for pairs with a static second type and for containers of dynamic-size elements (witnesses, also general); proved for all other types."
  },
  {
   "property": "C33",
   "status": "proved",
   "theorems": [
    "Verif.C33_sqrt"
   ],
   "note": ""
  },
  {
   "property": "C34",
   "status": "proved",
   "theorems": [
    "Verif.C34_max",
    "Verif.C34_symmetric",
    "Verif.C34_zero_iff",
    "Verif.C34_throws",
    "Verif.C34_float"
   ],
   "note": "Exact arithmetic, and rounded arithmetic for finite matrices; NaN coefficients are ignored (C34_nan_hidden)."
  },
  {
   "property": "C48",
   "status": "partial",
   "theorems": [
    "Verif.C48_dispatch_partial",
    "Verif.C48_overloads",
    "Verif.C48_never_incompatible"
   ],
   "note": "Violated for functions overloaded with (x,grad) and (x,grad,H); proved for functions with one documented signature."
  },
  {
   "property": "C41",
   "status": "partial",
   "theorems": [
    "Verif.Loss.C41_scale_partial",
    "Verif.Loss.C41_jacobian_partial",
    "Verif.Loss.C41_own_jacobian_partial",
    "Verif.Loss.C41_scale_close",
    "Verif.Loss.C41_scale_floor"
   ],
   "note": "Exact arithmetic. Violated by Huber, Arctan and Cauchy only where the derivative is below the smallest normal number, which is then exported instead."
  },
  {
   "property": "C42",
   "status": "partial",
   "theorems": [
    "Verif.Loss.C42_continuous",
    "Verif.Loss.C42_monotone",
    "Verif.Loss.C42_zero",
    "Verif.Loss.C42_bounded",
    "Verif.Loss.C42_scale_antitone",
    "Verif.Loss.C42_below_partial",
    "Verif.Loss.C42_scale_range_partial",
    "Verif.Loss.C42_geman_exceeds"
   ],
   "note": "Exact arithmetic. Violated only by GemanMcClure with th2 < 1, whose loss exceeds the squared norm and whose scale exceeds 1."
  },
  {
   "property": "C43",
   "status": "partial",
   "theorems": [
    "Verif.Loss.C43_values",
    "Verif.Loss.C43_squaredL2",
    "Verif.Loss.C43_squaredL2_scalar",
    "Verif.Loss.C43_l1",
    "Verif.Loss.C43_l1_differentiable",
    "Verif.Loss.C43_linf",
    "Verif.Loss.C43_linf_differentiable",
    "Verif.Loss.C43_linf_scalar",
    "Verif.Loss.C43_l2_partial",
    "Verif.Loss.C43_abs_partial",
    "Verif.Loss.C43_squaredL2_scalar_Jx_wrong",
    "Verif.Loss.C43_l2_small_wrong",
    "Verif.Loss.C43_abs_negative_wrong"
   ],
   "note": "Exact arithmetic. Violated for L2 of non-zero vectors with a norm up to FloatEpsilon, for L2 and L1 of negative scalars and for scalars with an input Jacobian; proved otherwise."
  },
  {
   "property": "C44",
   "status": "proved",
   "theorems": [
    "Verif.Loss.C44_distribution",
    "Verif.Loss.C44_shift",
    "Verif.Loss.C44_safe",
    "Verif.Loss.C44_no_overflow",
    "Verif.Loss.C44_jacobian",
    "Verif.Loss.C44_jacobian_sums"
   ],
   "note": "Exact arithmetic."
  },
  {
   "property": "C45",
   "status": "partial",
   "theorems": [
    "Verif.Loss.C45_values",
    "Verif.Loss.C45_vector_partial",
    "Verif.Loss.C45_differentiable",
    "Verif.Loss.C45_scalar_wrong",
    "Verif.Loss.C45_scalar_partial"
   ],
   "note": "Exact arithmetic. Violated for scalars (the exported derivative is 0); proved for vectors."
  },
  {
   "property": "C46",
   "status": "partial",
   "theorems": [
    "Verif.Loss.C46_whitened",
    "Verif.Loss.C46_upper",
    "Verif.Loss.C46_squared_jacobian",
    "Verif.Loss.C46_whitened_jacobian",
    "Verif.Loss.C46_variances",
    "Verif.Loss.C46_isotropic",
    "Verif.Loss.C46_infoU",
    "Verif.Loss.C46_norm_jacobian_partial",
    "Verif.Loss.C46_scalar_partial",
    "Verif.Loss.C46_small_wrong",
    "Verif.Loss.C46_infoU_jacobian_wrong",
    "Verif.Loss.C46_scalar_wrong",
    "Verif.Loss.exists_fact"
   ],
   "note": "Exact arithmetic, Eigen's LDLT and LLT assumed correct on positive definite matrices. Violated by the Jacobian of MahaNorm for norms up to FloatEpsilon, by the own Jacobian of MahaWhitenedInfoU and for scalars with a variance below FloatEpsilon."
  },
  {
   "property": "C47",
   "status": "partial",
   "theorems": [
    "Verif.Loss.C47_metrics",
    "Verif.Loss.C47_jacobians_partial",
    "Verif.Loss.C47_cosine_partial",
    "Verif.Loss.C47_cosine_second_wrong",
    "Verif.Loss.C47_cosine_small_wrong",
    "Verif.Loss.C47_cosine_scalar_wrong"
   ],
   "note": "Exact arithmetic. Metrics proved; violated by the cosine: Jacobian of the second vector, small vectors, scalars."
  },
  {
   "property": "C35",
   "status": "proved",
   "theorems": [
    "Verif.Loss.C35_evaluations",
    "Verif.Loss.C35_evaluations_manifold",
    "Verif.Loss.C35_affine",
    "Verif.Loss.C35_quadratic",
    "Verif.Loss.C35_forward_error",
    "Verif.Loss.C35_central_error"
   ],
   "note": "Exact arithmetic. The forward method with matrix residuals of several columns is not modelled."
  },
  {
   "property": "C36",
   "status": "proved",
   "theorems": [
    "Verif.Loss.C36_gradient",
    "Verif.Loss.C36_value",
    "Verif.Loss.C36_jacobian"
   ],
   "note": "Exact arithmetic. Comparisons and signed zeros are not modelled; for the domain of the Bessel functions see C91."
  },
  {
   "property": "C37",
   "status": "partial",
   "theorems": [
    "Verif.Loss.C37_partial",
    "Verif.Loss.C37_eval_partial",
    "Verif.Loss.C37_hypot_fails",
    "Verif.Loss.C37_fma_lerp_fail",
    "Verif.Loss.C37_midpoint_fails",
    "Verif.Loss.C37_fmax_fails",
    "Verif.Loss.C37_pow_fails",
    "Verif.Loss.C37_unconnected_residual_fails"
   ],
   "note": "Violated by the three-argument and several two-argument functions when one jet has an unset infinitesimal part; proved for all other cases."
  },
  {
   "property": "C38",
   "status": "proved",
   "theorems": [
    "Verif.Loss.C38_vector",
    "Verif.Loss.C38_scalar"
   ],
   "note": "Exact arithmetic, compile-time dimension."
  },
  {
   "property": "C39",
   "status": "partial",
   "theorems": [
    "Verif.Loss.C39_partial",
    "Verif.Loss.C39_numdiff_partial",
    "Verif.Loss.C39_negative_fails",
    "Verif.Loss.C39_zero_fails",
    "Verif.Loss.C39_numdiff_abs",
    "Verif.Loss.C39_fails_example"
   ],
   "note": "Exact arithmetic. Violated for costs with negative or zero values: the accumulated gradient is f times the gradient of f; proved for positive costs."
  },
  {
   "property": "C40",
   "status": "proved",
   "theorems": [
    "Verif.Loss.C40_decision",
    "Verif.Loss.C40_accepts_quadratic",
    "Verif.Loss.C40_accepts_smooth",
    "Verif.Loss.C40_sound"
   ],
   "note": "Exact arithmetic."
  },
  {
   "property": "C54",
   "status": "proved",
   "theorems": [
    "Verif.Loss.C54_decision",
    "Verif.Loss.C54_accepts_linear"
   ],
   "note": "Exact arithmetic."
  },
  {
   "property": "C55",
   "status": "proved",
   "theorems": [
    "Verif.C55_log_faithful",
    "Verif.C55_judgements",
    "Verif.C55_iterations",
    "Verif.C55_rebuilds"
   ],
   "note": "On the run with the solver's calls logged; C55_log_faithful: logging does not change the run. Runs of at most 65536 iterations for (1) and (2)."
  },
  {
   "property": "C56",
   "status": "proved",
   "theorems": [
    "Verif.C56_consecutive_failures"
   ],
   "note": "At most 65536 iterations."
  },
  {
   "property": "C57",
   "status": "partial",
   "theorems": [
    "Verif.C57_value",
    "Verif.C57_better_is_lower_partial",
    "Verif.C57_zero_quality"
   ],
   "note": "Exact arithmetic. Violated by quality 0, which means 'no quality' and lowers the damping like a perfect step."
  },
  {
   "property": "C58",
   "status": "proved",
   "theorems": [
    "Verif.Loss.C58_lm_step",
    "Verif.Loss.C58_gn_step",
    "Verif.Loss.C58_gn_affine_autodiff",
    "Verif.Loss.C58_gn_affine_numdiff",
    "Verif.Loss.C58_lm_affine",
    "Verif.C58_gd_step",
    "Verif.C58_gd_numdiff"
   ],
   "note": "Exact arithmetic, Eigen's solution assumed correct on positive definite matrices; the tiny one-dimensional Hessians and active clipping of C25 are excluded."
  },
  {
   "property": "C59",
   "status": "partial",
   "theorems": [
    "Verif.Loss.C59_costs_differ",
    "Verif.Loss.C59_same_system_partial"
   ],
   "note": "Violated: automatic differentiation reports the sum of squares, numerical differentiation its square root. Gradients, Hessians and comparisons of costs agree."
  },
  {
   "property": "C60",
   "status": "proved",
   "theorems": [
    "Verif.C60_step",
    "Verif.C60_gd_run",
    "Verif.C60_rate"
   ],
   "note": "Exact arithmetic; the user's function returns the cost and its gradient."
  },
  {
   "property": "C61",
   "status": "proved",
   "theorems": [
    "Verif.C61_lm",
    "Verif.C61_gn",
    "Verif.C61_gn_upper",
    "Verif.C61_lm_linear"
   ],
   "note": "Any arithmetic. Assumes that the sparse and the dense LDLT return the same result for the same coefficients of the upper triangle; C61_lm_linear is in exact arithmetic."
  },
  {
   "property": "C62",
   "status": "partial",
   "theorems": [
    "Verif.C62_gn_partial",
    "Verif.C62_lm_partial",
    "Verif.C62_sparse_uphill"
   ],
   "note": "Exact arithmetic. Violated for sparse Hessians: the sparse LDLT is not tested for positivity, Gauss-Newton climbs to a maximum and reports success (run). Proved for dense Hessians."
  },
  {
   "property": "C63",
   "status": "partial",
   "theorems": [
    "Verif.C63_dense_partial",
    "Verif.C63_sparse_inverse_partial",
    "Verif.C63_sparse_shift",
    "Verif.C63_sparse_refused",
    "Verif.C63_negative_variance"
   ],
   "note": "Exact arithmetic. Violated by 1x1 and by sparse matrices: the covariance of the Hessian -1 is -1. The dense inverse of positive definite matrices is C53."
  },
  {
   "property": "C64",
   "status": "partial",
   "theorems": [
    "Verif.C64_gn_partial",
    "Verif.C64_lm_partial",
    "Verif.C64_no_covariance"
   ],
   "note": "Exact arithmetic. Violated where there is no covariance: Levenberg-Marquardt reports 0, Gauss-Newton throws."
  },
  {
   "property": "C65",
   "status": "partial",
   "theorems": [
    "Verif.C65_lm",
    "Verif.C65_gn_partial",
    "Verif.C65_gn_throws"
   ],
   "note": "Violated by Gauss-Newton without LDLT: print_max_stdev makes Optimize throw where the Hessian is indefinite (run). Proved for Levenberg-Marquardt and for Gauss-Newton with LDLT."
  },
  {
   "property": "C66",
   "status": "proved",
   "theorems": [
    "Verif.C66_gn",
    "Verif.C66_lm",
    "Verif.C66_gd"
   ],
   "note": ""
  },
  {
   "property": "C67",
   "status": "proved",
   "theorems": [
    "Verif.C67_lm_rate",
    "Verif.C67_lm_converges"
   ],
   "note": "Exact arithmetic, Eigen's solution assumed correct on positive definite matrices; good_factor <= 1, use_step_quality_approx off, no clipping."
  },
  {
   "property": "C68",
   "status": "proved",
   "theorems": [
    "Verif.C68_coordinate_finite",
    "Verif.C68_x_finite"
   ],
   "note": "Floating point. Coordinates updated by addition (scalars, vectors, matrices and containers of these)."
  },
  {
   "property": "C69",
   "status": "partial",
   "theorems": [
    "Verif.C69_softmax_overflows",
    "Verif.C69_safe_softmax_partial"
   ],
   "note": "Floating point; std::exp is assumed to map 0 to 1, -inf to 0 and non-positive numbers to [0,1]. Violated by Softmax, which returns NaN where the exponential overflows; proved for SafeSoftmax."
  },
  {
   "property": "C70",
   "status": "proved",
   "theorems": [
    "Verif.C70_gn_quadratic",
    "Verif.C70_gn_local",
    "Verif.C70_gn_autodiff"
   ],
   "note": "Exact arithmetic, Eigen's solution assumed correct on positive definite matrices; no clipping, Hessian diagonal not below check_min_H_diag."
  },
  {
   "property": "C71",
   "status": "proved",
   "theorems": [
    "Verif.C71_lm_monotone",
    "Verif.C71_gn_monotone",
    "Verif.C71_gn_newton",
    "Verif.C71_lm_newton"
   ],
   "note": "Exact arithmetic, Eigen's solution assumed correct on positive definite matrices; no clipping. Levenberg-Marquardt: at most 65536 iterations; C71_lm_newton: good_factor <= 1 and use_step_quality_approx off."
  },
  {
   "property": "C72",
   "status": "partial",
   "theorems": [
    "Verif.Loss.C72_static",
    "Verif.Loss.C72_dynamic_partial",
    "Verif.Loss.C72_coordinates",
    "Verif.Loss.C72_pair_wrong",
    "Verif.Loss.C72_unavailable"
   ],
   "note": "Exact arithmetic. Compile-time dimension: all types. Run-time dimension: the types whose update is right (C32) and the expressions for which jets of run-time dimension are right (C37). The derivatives with respect to the second component of a pair of static type are lost, as its update is (C72_pair_wrong)."
  },
  {
   "property": "C73",
   "status": "proved",
   "theorems": [
    "Verif.Loss.C73_values",
    "Verif.Loss.C73_residuals",
    "Verif.Loss.C73_jacobian",
    "Verif.Loss.C73_switch_wrong"
   ],
   "note": "Exact arithmetic, jets of compile-time dimension. At a point where compared values are equal the derivative can be wrong (C73_switch_wrong)."
  },
  {
   "property": "C74",
   "status": "partial",
   "theorems": [
    "Verif.C74_lm_stationary_partial",
    "Verif.C74_lm_stalls"
   ],
   "note": "Exact arithmetic, Eigen's solution assumed correct on positive definite matrices. Violated with the default damping: any decrease, however small, is accepted and lowers the damping, so a run can stall (65536 accepted iterations, squared gradient never below 1/4). Proved where no allowed damping is below L |r| / (smallest squared column norm)."
  },
  {
   "property": "C75",
   "status": "proved",
   "theorems": [
    "Verif.quiet_run",
    "Verif.C75_gn_quadratic",
    "Verif.C75_gn_newton",
    "Verif.C75_lm_newton",
    "Verif.C75_lm_linear",
    "Verif.C75_lm_stationary",
    "Verif.C75_gd"
   ],
   "note": "Hypotheses of the properties whose rates are used; quiet_run (any arithmetic): all iterations are done if all delivered a step."
  },
  {
   "property": "C76",
   "status": "proved",
   "theorems": [
    "Verif.C76_gn",
    "Verif.C76_lm",
    "Verif.C76_gn_residuals",
    "Verif.C76_lm_residuals",
    "Verif.C76_conditions"
   ],
   "note": "Exact arithmetic. The linear solver is assumed to treat both coordinates alike; this is proved for one that is exact on positive definite systems and refuses the others (pdLinAlg_equiv). C76_conditions: runs that show that the conditions are needed."
  },
  {
   "property": "C77",
   "status": "partial",
   "theorems": [
    "Verif.C77_static_dynamic_partial",
    "Verif.C77_one_without_ldlt"
   ],
   "note": "Any arithmetic. Violated for one parameter without LDLT: the guard against a zero Hessian exists only for Dims == 1 known at compile time. Proved with LDLT or for other sizes, and for gradient descent."
  },
  {
   "property": "C78",
   "status": "partial",
   "theorems": [
    "Verif.C78_column_vanishes",
    "Verif.C78_float_vanishes",
    "Verif.C78_double_vanishes",
    "Verif.C78_gd_stuck",
    "Verif.C78_gn_stuck",
    "Verif.C78_lm_stuck",
    "Verif.C78_central_error_partial"
   ],
   "note": "Binary floating point, round to nearest. Violated: the step is absolute, and the derivatives with respect to a parameter above 2048 (float) or 2^30 (double) are zero for every function, so that a run without derivatives returns such a start and reports convergence. Proved: an error bound of the central method that grows with the magnitude of the parameter. The run theorems assume that Eigen solves a zero system by a zero step (ZeroSolve)."
  },
  {
   "property": "C79",
   "status": "partial",
   "theorems": [
    "Verif.C79_tangent",
    "Verif.C79_gradient",
    "Verif.C79_gn_robust",
    "Verif.C79_lm_robust",
    "Verif.C79_full_rank",
    "Verif.C79_recipe_partial",
    "Verif.C79_recipe_tukey",
    "Verif.C79_recipe_geman"
   ],
   "note": "Exact arithmetic. The weighted equations: proved for GN and LM where the exported scales are exact (not floored, C41) and the Hessian positive definite. The equations of the comment in robust_norms.h: proved for the losses with scales up to one, violated with Tukey (scale near 3) and Geman-McClure with small thresholds: the step increases the cost."
  },
  {
   "property": "C80",
   "status": "partial",
   "theorems": [
    "Verif.C80_real_time_partial",
    "Verif.C80_short_iterations",
    "Verif.C80_never_stops"
   ],
   "note": "Exact arithmetic; reading the clock takes no time. Violated: each iteration is rounded down to whole microseconds, so with iterations below 1 microsecond the limit never stops a run. Proved: no false time-outs, and the duration and the limit hold up to 999 ns per iteration."
  },
  {
   "property": "C81",
   "status": "proved",
   "theorems": [
    "Verif.C81_sqrt",
    "Verif.C81_readme"
   ],
   "note": "Exact arithmetic, Eigen's solution assumed correct on positive definite matrices; damping at most 1/4, good_factor <= 1, use_step_quality_approx off, min_error > 0, no callbacks, no time limit, at most 65535 iterations."
  },
  {
   "property": "C82",
   "status": "partial",
   "theorems": [
    "Verif.C82_format_partial",
    "Verif.C82_stray",
    "Verif.C82_no_overrun",
    "Verif.C82_library",
    "Verif.C82_unclosed"
   ],
   "note": "Violated: an opening brace that is never closed is accepted as a placeholder and the text after it is dropped (C82_unclosed). The rest of the statement is proved for all strings. The conversion of the arguments to strings is not modelled."
  },
  {
   "property": "C83",
   "status": "partial",
   "theorems": [
    "Verif.C83_gd_partial",
    "Verif.C83_gn_partial",
    "Verif.C83_lm_partial",
    "Verif.C83_gn_gradient_partial",
    "Verif.C83_lm_gradient_partial",
    "Verif.C83_rejected",
    "Verif.C83_relative"
   ],
   "note": "Violated: the criteria are applied to rejected steps too, so that a run can stop with kMinDeltaNorm after rolling x back to values that are not nearly stationary (C83_rejected), and two nearly equal costs stop the run with kMinRelError wherever they are (C83_relative). Proved: what the last iteration saw, for the three solvers (for LM if the last iteration rebuilt the system), and that the returned values are that iterate plus the step when the step was accepted."
  },
  {
   "property": "C84",
   "status": "proved",
   "theorems": [
    "Verif.C84_gn",
    "Verif.C84_lm",
    "Verif.C84_gd"
   ],
   "note": "In exact arithmetic, with a linear solver that solves definite systems."
  },
  {
   "property": "C85",
   "status": "proved",
   "theorems": [
    "Verif.C85_gn",
    "Verif.C85_lm",
    "Verif.C85_gd"
   ],
   "note": "In exact arithmetic (sums of rounded numbers depend on the order), for a linear solver that is exact on definite matrices and refuses the others, and whose inverse is that of the matrix. The saved Hessian is not compared."
  },
  {
   "property": "C86",
   "status": "partial",
   "theorems": [
    "Verif.C86_gn_partial",
    "Verif.C86_lm_partial",
    "Verif.C86_gd_partial",
    "Verif.C86_gn_residuals_partial",
    "Verif.C86_lm_residuals_partial",
    "Verif.C86_gd_residuals_partial",
    "Verif.C86_conditions"
   ],
   "note": "Violated: the code compares with constants that no option changes. With one parameter known at compile time and without LDLT, Solve returns a zero step for H <= FloatEpsilon, and the relative decrease is taken to be 0 for costs up to FloatEpsilon (C86_conditions). Proved under the hypotheses that exclude these two cases; C86_conditions also shows that min_error and the learning rate must be adapted."
  },
  {
   "property": "C87",
   "status": "proved",
   "theorems": [
    "Verif.C87_rotations_stay",
    "Verif.C87_quaternions_stay",
    "Verif.C87_poses_stay",
    "Verif.C87_undo",
    "Verif.C87_returned_x",
    "Verif.C87_frame_gn",
    "Verif.C87_frame_lm",
    "Verif.C87_frame_gd",
    "Verif.C87_frame_commutes",
    "Verif.C87_quat_plus",
    "Verif.C87_quat_runs",
    "Verif.C87_reach"
   ],
   "note": "The exponential map is that of the power series; the closed formulas and the rounding of the two libraries (and the renormalisation of quaternions in Sophus) are not modelled."
  },
  {
   "property": "C88",
   "status": "proved",
   "theorems": [
    "Verif.C88_prior_one_step",
    "Verif.C88_prior_derivative"
   ],
   "note": "For a linear solver that is exact on positive definite matrices; the Jacobian must be invertible at the start and at the prior, clipping off. The tests use the default solver (Levenberg-Marquardt), whose damped steps are shorter."
  },
  {
   "property": "C89",
   "status": "partial",
   "theorems": [
    "Verif.C89_gn_covariance",
    "Verif.C89_lm_covariance_partial",
    "Verif.C89_lm_one_iteration",
    "Verif.C89_gn_weighted",
    "Verif.C89_prior",
    "Verif.C89_estimator",
    "Verif.C89_estimator_weighted"
   ],
   "note": "Levenberg-Marquardt runs of one iteration are missing: the matrix they return is still damped (C89_lm_one_iteration). For a linear solver that is exact on positive definite matrices, clipping off. The mean and the covariance of the estimate are about Gauss-Newton, which returns the minimiser exactly."
  },
  {
   "property": "C90",
   "status": "partial",
   "theorems": [
    "Verif.C90_gn_stuck",
    "Verif.C90_gn_stuck_real",
    "Verif.C90_gd_stuck",
    "Verif.C90_gd_stuck_real",
    "Verif.C90_lm_recovers_partial"
   ],
   "note": "False for Gauss-Newton and gradient descent: after a rejected step every further iteration is rejected, the parameters alternate between the two points and the run ends at the last accepted one or one step off it. True for Levenberg-Marquardt (C90_lm_recovers_partial, more than K + 2 rejected iterations are not followed by another one unless the last accepted point is stationary); a run may still stop early if the system at a rejected point cannot be built or solved."
  },
  {
   "property": "C91",
   "status": "partial",
   "theorems": [
    "Verif.Loss.C91_bessel_partial",
    "Verif.Loss.C91_bessel_fails"
   ],
   "note": "Orders between 0 and 1 and negative arguments are missing, there the code fails (C91_bessel_fails): the derivative asks std::cyl_bessel_j for the negative order v - 1, and the C++17 function, unlike j0, j1 and jn, takes no negative argument. The branch of the POSIX functions, which has neither gap, is C130. Exact arithmetic."
  },
  {
   "property": "C92",
   "status": "proved",
   "theorems": [
    "Verif.C92_sqrt",
    "Verif.C92_sqrt2_float",
    "Verif.noisy_run"
   ],
   "note": "Gauss-Newton only. The cost, the gradient and the Hessian are computed with correctly rounded operations, without fused operations. LDLT of size 1 is taken as the division (LdltOne). The claim on the test has the stop criteria off; with criteria the bound holds for the iterations done."
  },
  {
   "property": "C93",
   "status": "proved",
   "theorems": [
    "Verif.C93_looser",
    "Verif.Looser.of_thresholds"
   ],
   "note": "max_consec_failures and use_step_quality_approx act on the iterates (number of retries, damping) and have to be the same in both runs, as well as the stop callbacks."
  },
  {
   "property": "C94",
   "status": "proved",
   "theorems": [
    "Verif.C94_gn_local",
    "Verif.C94_lm_local",
    "Verif.C94_gd_local",
    "Verif.C94_gn_outliers",
    "Verif.C94_lm_outliers",
    "Verif.C94_gd_outliers",
    "Verif.C94_truncated",
    "Verif.C94_recovery"
   ],
   "note": "The measurements combine the losses and scales of robust_norms.h as in C79 (weighted Hessian)."
  },
  {
   "property": "C95",
   "status": "partial",
   "theorems": [
    "Verif.C95_best",
    "Verif.C95_shorter",
    "Verif.C95_retry",
    "Verif.C95_retry_shorter_partial",
    "Verif.C95_longer",
    "Verif.C95_longer_run"
   ],
   "note": "The last sentence holds if the first step of the run is rejected or if good_factor * bad_factor > 1. With the default factors (1/3 and 2) it is violated at every other rejected step: GoodStep lowers the damping before the step is judged, one BadStep does not make up for it, and the next try is longer (C95_longer, C95_longer_run)."
  },
  {
   "property": "C96",
   "status": "partial",
   "theorems": [
    "Verif.C96_minima",
    "Verif.C96_gradient",
    "Verif.C96_run_partial",
    "Verif.C96_negative",
    "Verif.C96_far"
   ],
   "note": "The run theorem asks that the first step decreases the cost and that the radius after it is not too small (s < 5 rho^2). Without this the statement is violated: if the first step does not decrease the cost all later iterations fail (C96_far, met by the data of the test: centre (2,7), radius 2, start (0,0,1)), and a run can end at the right centre with a negative radius (C96_negative)."
  },
  {
   "property": "C97",
   "status": "partial",
   "theorems": [
    "Verif.Loss.C97_value",
    "Verif.Loss.C97_shape",
    "Verif.Loss.C97_shape_wrong",
    "Verif.Loss.C97_jacobian_wrong",
    "Verif.Loss.C97_derivative_wrong"
   ],
   "note": "The value and the shape of the result of Softmax are right. Violated: the Jacobian exported by both is Jx (or 1) although the value is constant, so it is right only if Jx = 0; SafeSoftmax returns a pair without a second argument and a plain value if asked for the derivative."
  },
  {
   "property": "C98",
   "status": "proved",
   "theorems": [
    "Verif.C98_autodiff",
    "Verif.C98_numdiff",
    "Verif.C98_order",
    "Verif.C98_whitening"
   ],
   "note": "Exact arithmetic; the residuals are defined everywhere. The two runs are equal in every field, including all records of iterations."
  },
  {
   "property": "C99",
   "status": "proved",
   "theorems": [
    "Verif.C99_gn",
    "Verif.C99_lm",
    "Verif.C99_linear"
   ],
   "note": "Exact arithmetic and automatic differentiation. The exceptional points are in the conclusion: a run either visits one or succeeds."
  },
  {
   "property": "C100",
   "status": "proved",
   "theorems": [
    "Verif.C100_step",
    "Verif.C100_powers"
   ],
   "note": "Exact arithmetic, Gauss-Newton."
  },
  {
   "property": "C101",
   "status": "partial",
   "theorems": [
    "Verif.Limits.C101_standard_partial",
    "Verif.Limits.C101_min_exponent10_wrong"
   ],
   "note": "All clauses hold but that of min_exponent10, which is violated for every jet type over a type such as float or double: it is a copy of max_exponent10."
  },
  {
   "property": "C102",
   "status": "partial",
   "theorems": [
    "Verif.C102_gn_partial",
    "Verif.C102_lm_partial",
    "Verif.C102_indefinite"
   ],
   "note": "Violated on indefinite Hessians: SparseInvCov does not test the signs of the pivots, MaxStdDev is then a finite number where the dense solver throws (GN) or reports 0 (LM)."
  },
  {
   "property": "C103",
   "status": "partial",
   "theorems": [
    "Verif.C103_gn_partial",
    "Verif.C103_lm",
    "Verif.C103_gn_refused"
   ],
   "note": "Levenberg-Marquardt: proved. Gauss-Newton: violated when the LDLT refuses a singular Hessian (C104): no run moves."
  },
  {
   "property": "C104",
   "status": "partial",
   "theorems": [
    "Verif.C104_solves_partial",
    "Verif.C104_psd",
    "Verif.C104_consistent",
    "Verif.C104_refuses",
    "Verif.C104_wrong_answer",
    "Verif.C104_cov"
   ],
   "note": "Positive definite systems are solved, indefinite ones are refused, and consistent singular ones are solved if they are not refused. Violated for singular matrices: some positive semidefinite ones are refused, others get an answer to a system without solution, or an inverse."
  },
  {
   "property": "C105",
   "status": "partial",
   "theorems": [
    "Verif.C105_gn_partial",
    "Verif.C105_lm",
    "Verif.C105_lm_residuals",
    "Verif.C105_gd",
    "Verif.C105_gn_refused"
   ],
   "note": "Levenberg-Marquardt with positive damping and valid evaluations, and gradient descent: proved. Gauss-Newton: proved for Hessians that are definite up to rows of zeros, violated for other singular ones: with a parameter added in front the LDLT can refuse a Hessian that it accepts without it. With check_min_H_diag > 0 Hessians with a zero on the diagonal are refused, hence the hypothesis."
  },
  {
   "property": "C106",
   "status": "proved",
   "theorems": [
    "Verif.Loss.C106_derivatives",
    "Verif.Loss.C106_symmetric",
    "Verif.Loss.C106_hessian"
   ],
   "note": "Exact arithmetic. Depths above 2 do not compile today (explicit conversion in T(1.0)). Functions not in Fn/Bin are not covered."
  },
  {
   "property": "C107",
   "status": "proved",
   "theorems": [
    "Verif.C107_newton",
    "Verif.C107_lm",
    "Verif.C107_jets_newton",
    "Verif.C107_jets_lm"
   ],
   "note": "Exact arithmetic, no gradient clipping. The cost at the minimum may be negative when use_squared_norm is on; otherwise it must not be."
  },
  {
   "property": "C108",
   "status": "partial",
   "theorems": [
    "Verif.JetTypes.C108_exclusive_scan",
    "Verif.JetTypes.C108_remove_value",
    "Verif.JetTypes.C108_all_equal",
    "Verif.JetTypes.C108_operands",
    "Verif.JetTypes.C108_common_type",
    "Verif.JetTypes.C108_fmax_compiles_partial",
    "Verif.JetTypes.C108_rank_clash",
    "Verif.JetTypes.C108_nested_operands"
   ],
   "note": "The sequences and the operand traits are proved in full for numbers and jets. The last clause is proved for numbers and jets of numbers; it is violated for jets of jets (C108_nested_operands), and the traits accept unrelated types for jets of run-time size (C108_rank_clash)."
  },
  {
   "property": "C109",
   "status": "partial",
   "theorems": [
    "Verif.JetMax.C109_missing",
    "Verif.JetMax.C109_select",
    "Verif.JetMax.C109_equal_cpp20",
    "Verif.JetMax.C109_symmetric_partial",
    "Verif.JetMax.C109_both_nan",
    "Verif.JetMax.C109_equal_cpp17_partial",
    "Verif.JetMax.C109_overflow_cpp17",
    "Verif.JetMax.C109_double_cpp17",
    "Verif.JetMax.C109_fdim"
   ],
   "note": "Violated twice: in C++17 builds fmax and fmin of equal values above half the largest number are infinite (C109_overflow_cpp17, C109_double_cpp17; exact up to there), and with two NaNs the order matters (C109_both_nan). All else is proved for all formats."
  },
  {
   "property": "C110",
   "status": "partial",
   "theorems": [
    "Verif.C110_solves",
    "Verif.C110_positive",
    "Verif.C110_exact",
    "Verif.C110_answer",
    "Verif.C110_indefinite",
    "Verif.C110_order"
   ],
   "note": "Violated: the documented nullopt for matrices that are not positive definite; diagonal matrices without zeros are solved whatever their signs (C110_indefinite), and for indefinite matrices the elimination order decides (C110_order). Proved: positive definite matrices are always solved, with positive pivots and only they (C110_positive), answers are always the only solution (C110_answer), so the contracts ExactSparse and ExactShift used in C61, C63 and C102 hold for this algorithm (C110_exact)."
  },
  {
   "property": "C111",
   "status": "proved",
   "theorems": [
    "Verif.C111_gn",
    "Verif.C111_lm",
    "Verif.C111_gd",
    "Verif.C111_constant",
    "Verif.C111_scaling",
    "Verif.C111_conditions",
    "Verif.C111_rounding"
   ],
   "note": "In exact arithmetic. The conditions on the options are needed (C111_conditions); in double precision a constant residual can hide a decrease (C111_rounding). C111_scaling is C29 for whole runs."
  },
  {
   "property": "C112",
   "status": "proved",
   "theorems": [
    "Verif.C112_linear",
    "Verif.C112_distance",
    "Verif.C112_convex",
    "Verif.C112_quiet",
    "Verif.C112_certificate",
    "Verif.C112_overshoot"
   ],
   "note": "In exact arithmetic and without clipping of the gradient (C60 has clipping, with the rate of the gradients). Convexity is Mathlib's ConvexOn; strong convexity is convexity of the cost minus mu/2 times the squared norm."
  },
  {
   "property": "C113",
   "status": "proved",
   "theorems": [
    "Verif.C113_solves",
    "Verif.C113_descent",
    "Verif.C113_accuracy",
    "Verif.C113_hessian",
    "Verif.C113_run",
    "Verif.C113_double",
    "Verif.C113_ieee"
   ],
   "note": "Arithmetic without overflow and underflow: Num/Rounded. Num/RoundedBin shows that each operation of the IEEE formats of Num/Ieee is one of these, unless its result overflows or (products and quotients) underflows; Props/LdltIeee (C113_ieee) takes the whole decomposition over: in an IEEE format, with no overflow or underflow on the way, it solves the system up to the same error. Whole runs of the optimizer in IEEE arithmetic are not related. Eigen's LDLT is Model/EigenLDLT, with sums from left to right."
  },
  {
   "property": "C114",
   "status": "proved",
   "theorems": [
    "Verif.C114_work",
    "Verif.C114_failures",
    "Verif.C114_failures_exact",
    "Verif.C114_damping",
    "Verif.C114_gd_slow",
    "Verif.C114_last_step",
    "Verif.C114_gradient_only"
   ],
   "note": "Literals with the suffix f are rounded to binary32 (Num/Ieee) and converted to double. `counted` adds the count of the calls to any problem. The statement about Gradient Descent is in exact arithmetic with the same literals."
  },
  {
   "property": "C115",
   "status": "partial",
   "theorems": [
    "Verif.C115_succeeds_iff",
    "Verif.C115_factor",
    "Verif.C115_substitution",
    "Verif.C115_contract",
    "Verif.C115_whitens_partial",
    "Verif.C115_factor_rounded",
    "Verif.C115_whitens_rounded",
    "Verif.C115_silent",
    "Verif.C115_silent_witness"
   ],
   "note": "Partial because the code violates the claim for covariances that are not positive definite (`info()` is never looked at): C115_silent, C115_silent_witness. Eigen's algorithm is written after its published source. The rounded statements ignore overflow and underflow."
  },
  {
   "property": "C116",
   "status": "partial",
   "theorems": [
    "Verif.C116_damping_pd",
    "Verif.C116_damping_psd",
    "Verif.C116_finds_step_partial",
    "Verif.C116_finds_step_diag_partial",
    "Verif.C116_gives_up",
    "Verif.C116_never_leaves",
    "Verif.C116_gn_gives_up",
    "Verif.C116_default_gives_up",
    "Verif.C116_rosenbrock"
   ],
   "note": "Violated. With a negative diagonal entry (or a zero one in a row that is not zero) no damping helps: every run that starts there ends with kSolverFailed at the given parameters, or never ends if max_consec_failures is 0 (`C116_never_leaves`); so does the Rosenbrock test of the repository from every start above y = 3x^2 + 1/200. With the default options five attempts raise the damping to 0.1024 only, and the run gives up wherever that does not suffice (`C116_default_gives_up`; literals as exact rationals). Proved: where one of the values that are tried makes the Hessian positive definite a step is found, and which matrices can be repaired. LDLT enters with the contracts PosLDLT and ExactLinAlg, proved for Eigen's algorithm in C104."
  },
  {
   "property": "C117",
   "status": "proved",
   "theorems": [
    "Verif.C117_gd_converges",
    "Verif.C117_gd_dominated",
    "Verif.C117_gd_stuck",
    "Verif.C117_test",
    "Verif.C117_test_far"
   ],
   "note": "Exact arithmetic. `converging_run` and `stuck_run` in Lemmas/Convergent are for any solver whose step and cost are functions of the parameters, in any arithmetic."
  },
  {
   "property": "C118",
   "status": "proved",
   "theorems": [
    "Verif.C118_lm_converges",
    "Verif.C118_gn_converges",
    "Verif.linear_region",
    "Verif.newton_region",
    "Verif.C118_default_linear",
    "Verif.C118_tests"
   ],
   "note": "Exact arithmetic and an exact linear solver; the sparse test is stated for the dense system (C61 relates the two). The criterion on the relative decrease is shown not to end the two tests."
  },
  {
   "property": "C119",
   "status": "proved",
   "theorems": [
    "Verif.C119_simple",
    "Verif.C119_reason",
    "Verif.C119_far",
    "Verif.C10_bad_step"
   ],
   "note": "IEEE binary64 with round to nearest even as in Num/Ieee; Eigen's LDLT as modelled in Model/EigenLDLT. Starting points between 1e150 and 3e154 away are not covered."
  },
  {
   "property": "C120",
   "status": "proved",
   "theorems": [
    "Verif.C120_gn_exact",
    "Verif.C120_two",
    "Verif.sterbenz"
   ],
   "note": "IEEE binary64 with round to nearest even as in Num/Ieee; Eigen's LDLT as modelled in Model/EigenLDLT. `z` smaller than 1e-5 is not covered."
  },
  {
   "property": "C121",
   "status": "proved",
   "theorems": [
    "Verif.C121_gd_test"
   ],
   "note": "IEEE binary64 with round to nearest even as in Num/Ieee. The accuracy of std::pow is a hypothesis; the C++ standard does not bound it. C117 is the same test in exact arithmetic, with the starts from which it fails."
  },
  {
   "property": "C122",
   "status": "partial",
   "theorems": [
    "Verif.C122_derivs_partial",
    "Verif.C122_plateau_hessian",
    "Verif.C122_plateau_definite",
    "Verif.C122_perceptron",
    "Verif.C122_training"
   ],
   "note": "Violated by the Hessian of the plateau (wrong sign outside the diagonal; definite exactly where the right one is) and by the training step of the perceptron, whose gradient is that of half the square of the returned cost. Exact arithmetic."
  },
  {
   "property": "C123",
   "status": "proved",
   "theorems": [
    "Verif.C123_gn_exact",
    "Verif.C123_two",
    "Verif.ldlt_diag",
    "Verif.costN_sqNorm",
    "Verif.costN_norm"
   ],
   "note": "IEEE binary64 with round to nearest even as in Num/Ieee; sums from left to right (the cost is a parameter with four properties, so that another order of summation only needs those). C120 is the case of one parameter. The test itself uses Levenberg-Marquardt and numerical derivatives."
  },
  {
   "property": "C124",
   "status": "partial",
   "theorems": [
    "Verif.C124_same_gn",
    "Verif.C124_same_gd",
    "Verif.C124_same_lm",
    "Verif.C124_lm_float",
    "Verif.C124_gn_float",
    "Verif.C124_gd_float",
    "Verif.C124_rel_stop",
    "Verif.C124_exact",
    "Verif.C124_order",
    "Verif.C124_damping_error_partial",
    "Verif.C124_damping_lost",
    "Verif.C124_lm_is_gn",
    "Verif.C124_long_step",
    "Verif.C124_long_step_run"
   ],
   "note": "(3) and (4) violated (C124_damping_lost, C124_long_step). The solvers over two types coincide with those of the other properties if both types are the same (C124_same_*). IEEE binary32/binary64, round to nearest even. The three runs of TestSqrt2 in tests/sqrt2.cpp are evaluated as examples."
  },
  {
   "property": "C125",
   "status": "partial",
   "theorems": [
    "Verif.Loss.C125_same",
    "Verif.Loss.C125_bounded",
    "Verif.Loss.C125_gm_partial",
    "Verif.Loss.C125_scales",
    "Verif.Loss.C125_monotone",
    "Verif.Loss.C125_blake_monotone",
    "Verif.Loss.C125_huber_monotone",
    "Verif.Loss.C125_huber_double",
    "Verif.Loss.C125_huber_float",
    "Verif.Loss.C125_nan",
    "Verif.Loss.C125_gm_nan",
    "Verif.Loss.C125_gm_zero",
    "Verif.Loss.C125_small_threshold",
    "Verif.Loss.C125_blake",
    "Verif.Loss.C125_blake_double",
    "Verif.Loss.C125_blake_float",
    "Verif.Loss.C125_blake_run"
   ],
   "note": "(1) and (3) proved; (2) proved for sums that do not overflow (C125_gm_partial), violated otherwise; (4) and (5) violated with witnesses. Over the real numbers the functions are those of C41/C42 (C125_same). exp, log and atan2 are parameters: monotone, exact at one point; for BlakeZisserman underflow to 0 below 2^-1075 (float: 2^-150), overflow from 2^1024 (2^128) and log 0 = -inf."
  },
  {
   "property": "C126",
   "status": "partial",
   "theorems": [
    "Verif.Loss.C126_same",
    "Verif.Loss.C126_sigmoid",
    "Verif.Loss.C126_sigmoid_monotone",
    "Verif.Loss.C126_tanh_partial",
    "Verif.Loss.C126_tanh_nan",
    "Verif.Loss.C126_tanh_zero",
    "Verif.Loss.C126_tanh_double",
    "Verif.Loss.C126_tanh_small",
    "Verif.Loss.C126_relu_monotone",
    "Verif.Loss.C126_relu_nan"
   ],
   "note": "(1) and (2) proved; (3) proved where neither the exponentials nor their sum overflow (C126_tanh_partial), violated otherwise (C126_tanh_nan, C126_tanh_double); (4) and (5) violated (C126_tanh_small, C126_relu_nan). Over the real numbers the functions are those of C45 (C126_same). exp is a parameter."
  },
  {
   "property": "C127",
   "status": "partial",
   "theorems": [
    "Verif.Loss.C127_same",
    "Verif.Loss.C127_same_linf",
    "Verif.Loss.C127_never_nan",
    "Verif.Loss.C127_nan",
    "Verif.Loss.C127_order",
    "Verif.Loss.C127_l2_order",
    "Verif.Loss.C127_l1_error",
    "Verif.Loss.C127_l2_error_partial",
    "Verif.Loss.C127_jacobian_double",
    "Verif.Loss.C127_jacobian_float",
    "Verif.Loss.C127_symmetric",
    "Verif.Loss.C127_definite",
    "Verif.Loss.C127_triangle_partial",
    "Verif.Loss.C127_l2_overflow",
    "Verif.Loss.C127_l2_underflow",
    "Verif.Loss.C127_l2_not_definite",
    "Verif.Loss.C127_triangle_wrong"
   ],
   "note": "(1), (2) (L2 for coefficients whose square does not underflow), (3) for L1 proved; (3) for L2 without underflow and overflow (C127_l2_error_partial); the bound in (4) proved for all finite vectors of double and float; symmetry, definiteness of L1 and Linf proved; triangle inequality of L1 up to rounding (C127_triangle_partial). Violated: C127_l2_overflow, C127_l2_underflow, C127_l2_not_definite, C127_triangle_wrong. Over the real numbers the functions are those of C43 (C127_same)."
  },
  {
   "property": "C128",
   "status": "partial",
   "theorems": [
    "Verif.Loss.C128_metric",
    "Verif.Loss.C128_metric_variances",
    "Verif.Loss.C128_metric_scalar",
    "Verif.Loss.C128_affine",
    "Verif.Loss.C128_diagonal",
    "Verif.Loss.C128_jacobians_partial",
    "Verif.Loss.C128_small_wrong",
    "Verif.Loss.C128_input_jacobians",
    "Verif.Loss.C128_input_jacobians_partial",
    "Verif.Loss.C128_whitening",
    "Verif.Loss.C128_test_cov"
   ],
   "note": "All but the Jacobians of the norm proved without conditions; those at distances above FloatEpsilon() (C128_jacobians_partial, C128_input_jacobians_partial). Violated below: C128_small_wrong. That the covariances of the tests meet the hypotheses is C128_test_cov; that Eigen's decompositions do is C115_contract, used in C128_whitening."
  },
  {
   "property": "C129",
   "status": "proved",
   "theorems": [
    "Verif.C129_sqrt"
   ],
   "note": "Proved for all these starts in binary64 with correct rounding. The third start of the test, -0.3, is outside of the range (its first steps are rejected); it is run as an example."
  },
  {
   "property": "C130",
   "status": "proved",
   "theorems": [
    "Verif.Loss.C130_functions",
    "Verif.Loss.C130_derivatives",
    "Verif.Loss.C130_jet"
   ],
   "note": "Exact arithmetic; j0, j1 and jn of the C library are the series of the Bessel functions, shown to solve the differential equation of Bessel. Depths above 2 do not compile (conversion of 0.5), as in C106."
  },
  {
   "property": "C131",
   "status": "proved",
   "theorems": [
    "Verif.C131_lm"
   ],
   "note": "The sum in squaredNorm() is left to right (Eigen may vectorise it) and FMA contraction is off. Eigen's LDLT is modelled in Model/EigenLDLT. With signed zeros: C132_tests. The Jacobian products J^T r and J^T J with J = I are computed in `jacTest`."
  },
  {
   "property": "C132",
   "status": "proved",
   "theorems": [
    "Verif.C132_lm",
    "Verif.C132_gn",
    "Verif.C132_gd",
    "Verif.C132_tests",
    "Verif.C132_same",
    "Verif.C132_signs",
    "Verif.C132_laws",
    "Verif.C132_division"
   ],
   "note": "NaNs have no sign bit in the model. The user's functions are assumed not to turn the sign of a zero into anything else (ProbNum); C132_division shows that a division by -0 would. C132_laws makes every theorem that only needs FloatLaws a theorem about arithmetic with signed zeros."
  },
  {
   "property": "C133",
   "status": "proved",
   "theorems": [
    "Verif.JetSign.C133_classify",
    "Verif.JetSign.C133_abs",
    "Verif.JetSign.C133_copysign",
    "Verif.JetSign.C133_copysign_zero",
    "Verif.JetSign.C133_copysign_inf"
   ],
   "note": "The size of the jets is known at compile time. NaNs have no sign bit in the model, so a NaN scalar part is excluded for abs, and for the second argument of copysign the sign of a NaN counts as positive."
  },
  {
   "property": "C134",
   "status": "partial",
   "theorems": [
    "Verif.Print.C134_sequence",
    "Verif.Print.C134_matrix",
    "Verif.Print.C134_formatter",
    "Verif.Print.C134_log_partial",
    "Verif.Print.C134_log_cxx17",
    "Verif.Print.C134_nested",
    "Verif.Print.C134_log_mat"
   ],
   "note": "Violated in three places: in C++17 builds without fmt the step is printed over several lines, nested vectors of different sizes have the same text, and TINYOPT_LOG_MAT writes the size of a column vector and its first entry without a separator. operator<< of Eigen is modelled after its print_matrix; sparse matrices and the conversion of numbers to text are not modelled."
  },
  {
   "property": "C135",
   "status": "partial",
   "theorems": [
    "Verif.Rectangle.C135_update",
    "Verif.Rectangle.C135_update_wrong",
    "Verif.Rectangle.C135_zeros",
    "Verif.Rectangle.C135_wanted",
    "Verif.Rectangle.C135_area_wrong",
    "Verif.Rectangle.C135_jets",
    "Verif.Rectangle.C135_stationary",
    "Verif.Rectangle.C135_minima"
   ],
   "note": "Over the reals; the test has float. Violated in three places: the first coordinates of a step are not the change of the centre, area() is the length of the diagonal, and the guard max(height, 1e-8) adds a second zero of the residuals with negative height, where the last assertion of the test fails. Proved is what is true: there are exactly these two zeros and no other local minima."
  },
  {
   "property": "C136",
   "status": "proved",
   "theorems": [
    "Verif.Landscape.C136_rosenbrock",
    "Verif.Landscape.C136_powell",
    "Verif.Landscape.C136_plateau",
    "Verif.Landscape.C136_freudenstein_roth",
    "Verif.Landscape.C136_freudenstein_barrier",
    "Verif.Landscape.C136_himmelblau",
    "Verif.Landscape.C136_beale",
    "Verif.Landscape.C136_wood",
    "Verif.Landscape.C136_jennrich",
    "Verif.Landscape.C136_plateau_minima",
    "Verif.Landscape.C136_jennrich_min"
   ],
   "note": "Over the reals; the tests have double. Two of the tests are commented out in the repository, and the theorems say why: the start of Freudenstein and Roth is cut off from (5, 4) by a ridge, and the residuals of the Wood test are the summands of Wood's function themselves, so the Jacobian is zero at the solution. Not stated: whether the costs of Wood and of Jennrich and Sampson have further local minima away from the solution and the diagonal."
  },
  {
   "property": "C137",
   "status": "proved",
   "theorems": [
    "Verif.Landscape.C137_powell",
    "Verif.Landscape.C137_rosenbrock",
    "Verif.Landscape.C137_rosenbrock_far"
   ],
   "note": "Exact arithmetic. The tests themselves run Levenberg-Marquardt; the theorems are about the Gauss-Newton solver with the same user functions. C137_rosenbrock_far assumes a user function whose result depends on the parameters alone and a budget of at most 65536 iterations."
  },
  {
   "property": "C138",
   "status": "proved",
   "theorems": [
    "Verif.C138_gives_up",
    "Verif.C138_sqrt",
    "Verif.C138_sqrt2",
    "Verif.C138_benchmark"
   ],
   "note": "Exact arithmetic. The runs of the model are followed iteration by iteration: the system is rebuilt in the first three iterations and only rescaled afterwards, the odd iterations roll back."
  },
  {
   "property": "C139",
   "status": "partial",
   "theorems": [
    "Verif.Prior.C139_branches",
    "Verif.Prior.C139_branches_partial",
    "Verif.Prior.C139_derivs",
    "Verif.Prior.C139_rate",
    "Verif.Prior.C139_benchmark"
   ],
   "note": "Violated by the benchmark function: the two branches agree only if all standard deviations are 1 (C139_branches); C139_branches_partial has the points where they agree. The rate is proved in full, in exact arithmetic."
  },
  {
   "property": "C140",
   "status": "partial",
   "theorems": [
    "Verif.C140_calls_partial",
    "Verif.C140_repeated",
    "Verif.C140_two_hooks",
    "Verif.C140_test",
    "Verif.C140_vanishes"
   ],
   "note": "Violated for repeated Builds without a hook (C140_repeated, C140_vanishes) and for two hooks in a row (C140_two_hooks); C140_calls_partial has the order of calls of the optimizer. Exact arithmetic; the resize at the start of Build is not part of lmBuild, the system is assumed to have its size."
  },
  {
   "property": "C141",
   "status": "proved",
   "theorems": [
    "Verif.SparseBench.C141_derivs",
    "Verif.SparseBench.C141_rate",
    "Verif.SparseBench.C141_benchmark"
   ],
   "note": "Exact arithmetic. The product of two sparse matrices is modelled by its coefficients that are not zero."
  },
  {
   "property": "C142",
   "status": "partial",
   "theorems": [
    "Verif.Forgot.C142_gn_partial",
    "Verif.Forgot.C142_lm_partial",
    "Verif.Forgot.C142_gn_converges",
    "Verif.Forgot.C142_lm_converges",
    "Verif.Forgot.C142_gd_converges",
    "Verif.Forgot.C142_test"
   ],
   "note": "Violated with the default check_min_H_diag = 0 (C142_gn_converges, C142_lm_converges) and with gradient descent (C142_gd_converges); the partial theorems have the check. Exact arithmetic."
  }
 ]
}