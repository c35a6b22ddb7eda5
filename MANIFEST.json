{
 "claims": [
  {
   "property": "C01",
   "status": "proved",
   "theorems": [
    "Rstat.C01_new_accepts_iff",
    "Rstat.C01_new_value",
    "Rstat.C01_new_error",
    "Rstat.C01_is_valid_iff"
   ],
   "note": ""
  },
  {
   "property": "C02",
   "status": "proved",
   "theorems": [
    "Rstat.C02_checked_ops",
    "Rstat.C02_checked_ops_closed"
   ],
   "note": ""
  },
  {
   "property": "C03",
   "status": "proved",
   "theorems": [
    "Rstat.C03_mul_valid",
    "Rstat.C03_not_valid",
    "Rstat.C03_values"
   ],
   "note": ""
  },
  {
   "property": "C04",
   "status": "partial",
   "theorems": [
    "Rstat.C04_not_antitone",
    "Rstat.C04_not_not_exact",
    "Rstat.C04_not_not_error",
    "Rstat.C04_not_not_violated_binary64"
   ],
   "note": "Order reversal, exactness in exact arithmetic and the error bound are proved; exact involution is false in binary64 (witness 2^-60)."
  },
  {
   "property": "C05",
   "status": "proved",
   "theorems": [
    "Rstat.C05_simplex_new_iff",
    "Rstat.C05_simplex_new_bad_entry",
    "Rstat.C05_simplex_new_bad_sum"
   ],
   "note": ""
  },
  {
   "property": "C06",
   "status": "proved",
   "theorems": [
    "Rstat.C06_simplex_exact_sum"
   ],
   "note": ""
  },
  {
   "property": "C07",
   "status": "proved",
   "theorems": [
    "Rstat.C07_sample_index_in_range",
    "Rstat.C07_sample_index_empty_panics",
    "Rstat.C07_sample_index_empty_release"
   ],
   "note": ""
  },
  {
   "property": "C08",
   "status": "proved",
   "theorems": [
    "Rstat.C08_sample_index_spec",
    "Rstat.C08_sample_index_measure"
   ],
   "note": ""
  },
  {
   "property": "C09",
   "status": "partial",
   "theorems": [
    "Rstat.C09_zero_weight_partial",
    "Rstat.C09_zero_weight_violated"
   ],
   "note": "Full claim is false of the code: zero-weight last index can be drawn when the accepted weights sum to less than 1 (witness proved). The partial theorem shows this is the only case."
  },
  {
   "property": "C10",
   "status": "partial",
   "theorems": [
    "Rstat.C10_simplex_sample_iff",
    "Rstat.C10_simplex_sample_empty",
    "Rstat.C10_simplex_sample_partial",
    "Rstat.C10_simplex_sample_draws",
    "Rstat.C10_simplex_sample_violated"
   ],
   "note": "Sum to one proved; non-negativity is false (witness K=2, draw 1/2): the code divides by the sum of the draws instead of the sum of their -ln."
  },
  {
   "property": "C11",
   "status": "proved",
   "theorems": [
    "Rstat.C11_centre_entries",
    "Rstat.C11_centre_valid",
    "Rstat.C11_centre_exact"
   ],
   "note": ""
  },
  {
   "property": "C12",
   "status": "proved",
   "theorems": [
    "Rstat.C12_check_returns_value",
    "Rstat.C12_error_names_a_failing_constraint",
    "Rstat.C12_f64_atoms",
    "Rstat.C12_f64_never_nan",
    "Rstat.C12_i64_atoms",
    "Rstat.C12_usize_atoms"
   ],
   "note": ""
  },
  {
   "property": "C13",
   "status": "proved",
   "theorems": [
    "Rstat.C13_check_combinators",
    "Rstat.C13_sat_combinators",
    "Rstat.C13_all",
    "Rstat.C13_all_scalar",
    "Rstat.C13_any_depth"
   ],
   "note": ""
  },
  {
   "property": "C14",
   "status": "partial",
   "theorems": [
    "Rstat.C14_empty_vec_partial",
    "Rstat.C14_empty_array_inverted_violated",
    "Rstat.C14_empty_violated"
   ],
   "note": "The code does not have the full property; proved negation: arrays: `Empty` accepts exactly the NON-empty arrays | the emptiness constraint in full is false: for arrays it is inverted and accepts exactly the non-empty ones Proved part: what holds: `Vec` (the array half of C14 is missing)"
  },
  {
   "property": "C15",
   "status": "proved",
   "theorems": [
    "Rstat.C15_positive_params",
    "Rstat.C15_positive_params_refuse",
    "Rstat.C15_integer_params",
    "Rstat.C15_count",
    "Rstat.C15_corr",
    "Rstat.C15_loc"
   ],
   "note": ""
  },
  {
   "property": "C16",
   "status": "partial",
   "theorems": [
    "Rstat.C16_nonempty_always_rejected_violated",
    "Rstat.C16_concentrations_violated",
    "Rstat.C16_concentrations_sound_partial"
   ],
   "note": "The code does not have the full property; proved negation: no non-empty vector at all is accepted | `Concentrations::new` does not accept the vectors of positive numbers; it refuses every non-empty vector Proved part: the part that holds: nothing with a non-positive or NaN entry is accepted, what is accepted is stored unchanged. Missing: acceptance of valid vectors (impossible, see above)."
  },
  {
   "property": "C17",
   "status": "proved",
   "theorems": [
    "Rstat.C17_params_new_ok",
    "Rstat.C17_params_new_first_error",
    "Rstat.C17_params_new_total"
   ],
   "note": ""
  },
  {
   "property": "C18",
   "status": "proved",
   "theorems": [
    "Rstat.C18_arcsine_round_trip",
    "Rstat.C18_cauchy_round_trip",
    "Rstat.C18_cosine_round_trip",
    "Rstat.C18_exponential_round_trip",
    "Rstat.C18_frechet_round_trip",
    "Rstat.C18_gev_round_trip",
    "Rstat.C18_gpd_round_trip",
    "Rstat.C18_gumbel_round_trip",
    "Rstat.C18_kumaraswamy_round_trip",
    "Rstat.C18_laplace_round_trip",
    "Rstat.C18_logistic_round_trip",
    "Rstat.C18_pareto_round_trip",
    "Rstat.C18_rayleigh_round_trip",
    "Rstat.C18_triangular_round_trip",
    "Rstat.C18_weibull_round_trip",
    "Rstat.C18_poisson_round_trip",
    "Rstat.C18_gamma_round_trip",
    "Rstat.C18_inverse_gamma_round_trip",
    "Rstat.C18_beta_round_trip",
    "Rstat.C18_beta_prime_round_trip",
    "Rstat.C18_student_t_round_trip",
    "Rstat.C18_levy_round_trip",
    "Rstat.C18_folded_normal_round_trip",
    "Rstat.C18_chi_sq_round_trip",
    "Rstat.C18_chi_round_trip",
    "Rstat.C18_erlang_round_trip",
    "Rstat.C18_f_dist_round_trip",
    "Rstat.C18_uniform_round_trip",
    "Rstat.C18_normal_round_trip",
    "Rstat.C18_lognormal_round_trip",
    "Rstat.C18_inverse_normal_round_trip",
    "Rstat.C18_beta_binomial_round_trip",
    "Rstat.C18_bernoulli_round_trip",
    "Rstat.C18_binomial_round_trip",
    "Rstat.C18_geometric_round_trip",
    "Rstat.C18_categorical_round_trip",
    "Rstat.C18_degenerate_round_trip",
    "Rstat.C18_uniform_discrete_round_trip"
   ],
   "note": ""
  },
  {
   "property": "C19",
   "status": "partial",
   "theorems": [
    "Rstat.C19_matrix_accepts_nonnegative_partial",
    "Rstat.C19_matrix_refuses_valid_violated",
    "Rstat.C19_matrix_accepts_invalid_violated",
    "Rstat.C19_covariance_violated",
    "Rstat.C19_diagonal",
    "Rstat.C19_isotropic",
    "Rstat.C19_bivariate_accepts_partial",
    "Rstat.C19_bivariate_accepts_singular_violated",
    "Rstat.C19_advertised_constraints_differ_violated"
   ],
   "note": "The code does not have the full property; proved negation: a valid covariance with a negative off-diagonal entry is refused: [[1,-1/2],[-1/2,1]] | an asymmetric, indefinite matrix is accepted: [[1,2],[1/2,1]] | `Covariance::matrix` does not accept exactly the positive semidefinite matrices: an indefinite one is accepted | the degenerate correlations ±1 (singular covariance) are accepted | the constraints a matrix covariance advertises differ from the ones it enforces Proved part: what `matrix` really tests: every entry is ≥ 0 | bivariate: what is accepted. `rho = ±1` is accepted too, see the next theorem."
  },
  {
   "property": "C20",
   "status": "proved",
   "theorems": [
    "Rstat.C20_only_cdf",
    "Rstat.C20_only_log_cdf",
    "Rstat.C20_cdf_plus_ccdf",
    "Rstat.C20_ccdf_valid",
    "Rstat.C20_neither_diverges"
   ],
   "note": ""
  },
  {
   "property": "C21",
   "status": "proved",
   "theorems": [
    "Rstat.C21_pmf_defaults",
    "Rstat.C21_pdf_defaults",
    "Rstat.C21_pdf_is_exp_log_pdf",
    "Rstat.C21_pmf_is_exp_log_pmf",
    "Rstat.C21_neither_diverges",
    "Rstat.C21_zero_mass_log"
   ],
   "note": ""
  },
  {
   "property": "C22",
   "status": "proved",
   "theorems": [
    "Rstat.C22_std_squared",
    "Rstat.C22_kurtosis",
    "Rstat.C22_returns"
   ],
   "note": ""
  },
  {
   "property": "C23",
   "status": "proved",
   "theorems": [
    "Rstat.C23_quantile_cquantile",
    "Rstat.C23_values",
    "Rstat.C23_ordered"
   ],
   "note": ""
  },
  {
   "property": "C24",
   "status": "proved",
   "theorems": [
    "Rstat.C24_sample_n",
    "Rstat.C24_sample_n_length",
    "Rstat.C24_sample_n_append",
    "Rstat.C24_sample_iter",
    "Rstat.C24_iter_never_ends"
   ],
   "note": ""
  },
  {
   "property": "C25",
   "status": "partial",
   "theorems": [
    "Rstat.C25_convolve_many_partial",
    "Rstat.C25_singleton_refused_violated",
    "Rstat.C25_violated",
    "Rstat.C25_additive_partial"
   ],
   "note": "The code does not have the full property; proved negation: a singleton list is refused although one convolution would do | `convolve_many` in full is false: a one-element collection is refused Proved part: C25 for two or more distributions; the order is: last, then first to last-but-one | for an additive, never failing convolution (normal, Poisson, Cauchy, ...) convolve_many adds everything up"
  },
  {
   "property": "C26",
   "status": "partial",
   "theorems": [
    "Rstat.C26_variance_is_diagonal",
    "Rstat.C26_correlation_is_product_violated",
    "Rstat.C26_correlation_unit_variance_partial",
    "Rstat.C26_correlation_violated"
   ],
   "note": "The code does not have the full property; proved negation: what the code computes: the covariance is multiplied by the standard deviations instead of divided | the default correlation is not the correlation: it multiplies by the standard deviations Proved part: unit variances are the case where it is right"
  },
  {
   "property": "C27",
   "status": "proved",
   "theorems": [
    "Rstat.C27_likelihood_defaults",
    "Rstat.C27_likelihood",
    "Rstat.C27_mahalanobis"
   ],
   "note": ""
  },
  {
   "property": "C28",
   "status": "proved",
   "theorems": [
    "Rstat.C28_choose_debug",
    "Rstat.C28_choose_debug_sound",
    "Rstat.C28_choose_release_above",
    "Rstat.C28_choose",
    "Rstat.C28_choose_62",
    "Rstat.C28_choose_symm",
    "Rstat.C28_choose_panics"
   ],
   "note": ""
  },
  {
   "property": "C29",
   "status": "proved",
   "theorems": [
    "Rstat.C29_factorial",
    "Rstat.C29_factorial_overflow",
    "Rstat.C29_factorial_wraps"
   ],
   "note": ""
  },
  {
   "property": "C30",
   "status": "proved",
   "theorems": [
    "Rstat.C30_stirling",
    "Rstat.C30_table",
    "Rstat.C30_max_overflow"
   ],
   "note": ""
  },
  {
   "property": "C31",
   "status": "proved",
   "theorems": [
    "Rstat.C31_roundtrip",
    "Rstat.C31_length",
    "Rstat.C31_short",
    "Rstat.C31_element_error",
    "Rstat.C31_never_incomplete"
   ],
   "note": ""
  },
  {
   "property": "C32",
   "status": "proved",
   "theorems": [
    "Rstat.C32_new_iff",
    "Rstat.C32_new_keeps",
    "Rstat.C32_new_support",
    "Rstat.C32_new_error",
    "Rstat.C32_empty_panics"
   ],
   "note": ""
  },
  {
   "property": "C33",
   "status": "proved",
   "theorems": [
    "Rstat.C33_cdf",
    "Rstat.C33_pdf",
    "Rstat.C33_valid"
   ],
   "note": ""
  },
  {
   "property": "C34",
   "status": "partial",
   "theorems": [
    "Rstat.C34_cdf_in_unit_partial",
    "Rstat.C34_cdf_bound_partial",
    "Rstat.C34_cdf_in_unit_violated"
   ],
   "note": "The code does not have the full property; proved negation: C34 fails: weights `[1, 2^-18]` are accepted, and where both components have cdf 1 the mixture cdf is 1 + 2^-18 > 1, for every lawful arithmetic (in particular binary64) Proved part: with weights summing exactly to one, exact arithmetic gives a cdf in [0,1]. The full claim is false (`C34_cdf_in_unit_violated`). | for any rounding, an accepted mixture of at most 2^30 components with valid cdfs has cdf in [0, 1 + 1.2e-5]"
  },
  {
   "property": "C35",
   "status": "proved",
   "theorems": [
    "Rstat.C35_mean",
    "Rstat.C35_variance"
   ],
   "note": ""
  },
  {
   "property": "C36",
   "status": "proved",
   "theorems": [
    "Rstat.C36_sample",
    "Rstat.C36_sample_measure"
   ],
   "note": ""
  },
  {
   "property": "C37",
   "status": "proved",
   "theorems": [
    "Rstat.C37_params_roundtrip",
    "Rstat.C37_new_roundtrip",
    "Rstat.C37_too_many_panics",
    "Rstat.C37_too_few_ub"
   ],
   "note": ""
  },
  {
   "property": "C38",
   "status": "proved",
   "theorems": [
    "Rstat.C38_normal_is_gaussian",
    "Rstat.C38_normal_sample_law"
   ],
   "note": ""
  },
  {
   "property": "C39",
   "status": "partial",
   "theorems": [
    "Rstat.C39_kurtosis_violated",
    "Rstat.C39_kurtosis_partial"
   ],
   "note": "The code does not have the full property; proved negation: for every normal, `kurtosis()` is not the fourth standardised moment, and `excess_kurtosis()` is not that minus 3. Proved part: what holds is that both values are exactly 3 too small, so that `excess = kurtosis − 3`. Missing: agreement with the moments themselves, which is false."
  },
  {
   "property": "C40",
   "status": "proved",
   "theorems": [
    "Rstat.C40_convolve_law",
    "Rstat.C40_convolve_comm",
    "Rstat.C40_convolve_assoc"
   ],
   "note": ""
  },
  {
   "property": "C41",
   "status": "partial",
   "theorems": [
    "Rstat.C41_loglik_violated",
    "Rstat.C41_loglik_partial"
   ],
   "note": "The code does not have the full property; proved negation: for every non-empty sample and every normal with 2πσ² ≠ 1 the reported log-likelihood is not `Σ ln pdf(x_i)`. Proved part: the reported value differs from `Σ ln pdf(x_i)` by exactly `n/4 · ln(2πσ²)`; it is additive over concatenation. Missing: equality, which is false."
  },
  {
   "property": "C42",
   "status": "proved",
   "theorems": [
    "Rstat.C42_score_gradient"
   ],
   "note": ""
  },
  {
   "property": "C43",
   "status": "proved",
   "theorems": [
    "Rstat.C43_mle_maximises",
    "Rstat.C43_mle_refuses_constant",
    "Rstat.C43_mle_refuses_empty"
   ],
   "note": ""
  },
  {
   "property": "C44",
   "status": "proved",
   "theorems": [
    "Rstat.C44_entropy_fisher_mode_median"
   ],
   "note": ""
  },
  {
   "property": "C45",
   "status": "partial",
   "theorems": [
    "Rstat.C45_mv_grad_mul",
    "Rstat.C45_diag_grad_mul",
    "Rstat.C45_iso_grad_mul",
    "Rstat.C45_uv_grad_mul",
    "Rstat.C45_bv_grad_mul_violated",
    "Rstat.C45_bv_grad_mul_partial"
   ],
   "note": "The code does not have the full property; proved negation: scaling a bivariate gradient leaves the second variance component unscaled; whenever that component is a nonzero finite number and the factor is finite and not 1, the result is wrong. Proved part: all the other components of a bivariate gradient are scaled. Missing: the second variance component."
  },
  {
   "property": "C46",
   "status": "proved",
   "theorems": [
    "Rstat.C46_bivariate_density"
   ],
   "note": ""
  },
  {
   "property": "C47",
   "status": "partial",
   "theorems": [
    "Rstat.C47_bivariate_entropy_violated",
    "Rstat.C47_bivariate_entropy_partial",
    "Rstat.C47_paired_entropy_violated"
   ],
   "note": "The code does not have the full property; proved negation: for every bivariate normal with |ρ| < 1 the reported entropy strictly exceeds `1 + ln 2π + ½ ln det Σ`, where Σ is the matrix returned by `covariance()`. | for every paired normal the reported entropy strictly exceeds `1 + ln 2π + ½ ln(σ₀²σ₁²)` Proved part: the reported value is `1 + ln 2π + ½ σ₀²σ₁²(1-ρ)`. Missing: the logarithm and the square."
  },
  {
   "property": "C48",
   "status": "proved",
   "theorems": [
    "Rstat.C48_bivariate_sample"
   ],
   "note": ""
  },
  {
   "property": "C49",
   "status": "partial",
   "theorems": [
    "Rstat.C49_paired_product",
    "Rstat.C49_paired_loglik_violated",
    "Rstat.C49_paired_loglik_partial",
    "Rstat.C49_paired_score",
    "Rstat.C49_paired_sample"
   ],
   "note": "The code does not have the full property; proved negation: the log-likelihood of a paired normal is not additive over samples: for every accepted paired normal and every point other than its mean, the log-likelihood of that point taken twice is not twice that of the point. Proved part: for a single observation the log-likelihood is the log of the density. Missing: additivity for more than one observation, which is false."
  },
  {
   "property": "C50",
   "status": "partial",
   "theorems": [
    "Rstat.C50_diag_mahalanobis_points_partial",
    "Rstat.C50_iso_mahalanobis_points_partial",
    "Rstat.C50_mv_mahalanobis_violated",
    "Rstat.C50_mv_mahalanobis_partial",
    "Rstat.C50_diag_mahalanobis_violated",
    "Rstat.C50_diag_mahalanobis_partial",
    "Rstat.C50_iso_mahalanobis_violated",
    "Rstat.C50_iso_mahalanobis_partial"
   ],
   "note": "The code does not have the full property; proved negation: whenever some off-diagonal entry of the inverse covariance is nonzero there is an `x` at which the returned value is not `(x-μ)ᵀ Σ⁻¹ (x-μ)`. | in every positive dimension the \"squared distance\" is even negative at some points, hence not `Σ (x_i-μ_i)²/v_i`. | as in the diagonal case Proved part: at every point the value returned is `Σ (x_i-μ_i)/v_i²`; it is the squared Mahalanobis distance exactly where `Σ ((x_i-μ_i)² v_i - (x_i-μ_i))/v_i² = 0`, in particular where every coordinate is `μ_i` or `μ_i + 1/v_i`. Missing: every other point, where it is wrong. | as in the diagonal case. | the distance is right when the inverse covariance is diagonal (equivalently, the coordinates are uncorrelated). Missing: correlated coordinates, where it is wrong. | the distance is 0 at the mean. Missing: everything else, which is wrong. | the distance is 0 at the mean"
  },
  {
   "property": "C51",
   "status": "partial",
   "theorems": [
    "Rstat.C51_mv_sample",
    "Rstat.C51_diag_sample_violated",
    "Rstat.C51_diag_sample_partial",
    "Rstat.C51_iso_sample_violated",
    "Rstat.C51_iso_sample_partial"
   ],
   "note": "The code does not have the full property; proved negation: unless every variance is 1 the samples do not have the requested covariance | unless the variance is 1 (or the dimension 0) the samples do not have the requested covariance Proved part: right when every variance is 1. Missing: all other variances (there the samples have covariance `diag(v²)`). | right when the variance is 1"
  },
  {
   "property": "C52",
   "status": "proved",
   "theorems": [
    "Rstat.C52_mv_entropy_moments",
    "Rstat.C52_diag_entropy_moments",
    "Rstat.C52_iso_entropy_moments",
    "Rstat.C52_homogeneous"
   ],
   "note": ""
  },
  {
   "property": "C53",
   "status": "proved",
   "theorems": [
    "Rstat.C53_uniform",
    "Rstat.C53_uniform_domain"
   ],
   "note": ""
  },
  {
   "property": "C54",
   "status": "partial",
   "theorems": [
    "Rstat.C54_uniform_int_partial",
    "Rstat.C54_uniform_int_overflow_violated"
   ],
   "note": "The code does not have the full property; proved negation: with `width = i64::MAX` construction panics in debug builds and in release builds produces a distribution of negative probability whose entropy is NaN (its variance is still the right one); with `lb + width > i64::MAX` every query of the support, the mass or the distribution function panics in debug builds, and in release builds every mass is zero and the distribution function is the unit step at `lb`. Proved part: the discrete uniform law, whenever the interval `lb ..= lb + width` and its cardinality fit in i64 (for the rest see `C54_uniform_int_overflow_violated`)."
  },
  {
   "property": "C55",
   "status": "partial",
   "theorems": [
    "Rstat.C55_uniform_int_quantile_violated",
    "Rstat.C55_uniform_int_quantile_partial"
   ],
   "note": "The code does not have the full property; proved negation: for every discrete uniform law, `quantile(1)` lies outside the support, one above the largest value. Proved part: `quantile(p)` is the least `k` of the support with `p <= cdf(k)` for every `p` in `[0,1]` that is not a positive multiple of `1/(width+1)`."
  },
  {
   "property": "C56",
   "status": "proved",
   "theorems": [
    "Rstat.C56_degenerate_real",
    "Rstat.C56_degenerate_step",
    "Rstat.C56_degenerate_int"
   ],
   "note": ""
  },
  {
   "property": "C57",
   "status": "proved",
   "theorems": [
    "Rstat.C57_arcsine",
    "Rstat.C57_arcsine_modes"
   ],
   "note": ""
  },
  {
   "property": "C58",
   "status": "partial",
   "theorems": [
    "Rstat.C58_arcsine_entropy_violated",
    "Rstat.C58_arcsine_entropy_partial"
   ],
   "note": "The code does not have the full property; proved negation: the entropy returned ignores the width: it is the differential entropy exactly when the width is 1. Proved part: the value returned differs from the differential entropy by exactly `ln w`."
  },
  {
   "property": "C59",
   "status": "proved",
   "theorems": [
    "Rstat.C59_cauchy"
   ],
   "note": ""
  },
  {
   "property": "C60",
   "status": "proved",
   "theorems": [
    "Rstat.C60_cauchy_convolve",
    "Rstat.C60_cauchy_convolve_comm_assoc"
   ],
   "note": ""
  },
  {
   "property": "C61",
   "status": "proved",
   "theorems": [
    "Rstat.C61_exponential"
   ],
   "note": ""
  },
  {
   "property": "C62",
   "status": "partial",
   "theorems": [
    "Rstat.C62_exponential_off_support_violated",
    "Rstat.C62_exponential_on_support_partial"
   ],
   "note": "The code does not have the full property; proved negation: below the support, for every rate, `cdf` is negative (not a valid probability) and `pdf` positive. Proved part: on the support `cdf` is a valid probability."
  },
  {
   "property": "C63",
   "status": "partial",
   "theorems": [
    "Rstat.C63_exponential_quantile_violated",
    "Rstat.C63_exponential_median_partial"
   ],
   "note": "The code does not have the full property; proved negation: for every rate and every `p < 1`, `quantile(p)` is negative and `cdf(quantile(p)) < 0`, so it is never `p`. Proved part: `cdf(median) = 1/2`."
  },
  {
   "property": "C64",
   "status": "partial",
   "theorems": [
    "Rstat.C64_exponential_kurtosis_fisher_violated",
    "Rstat.C64_exponential_excess_partial"
   ],
   "note": "The code does not have the full property; proved negation: `kurtosis()` is never the fourth standardised moment, and the Fisher information is right only at rate 1. Proved part: the excess kurtosis, 6, is right."
  },
  {
   "property": "C65",
   "status": "partial",
   "theorems": [
    "Rstat.C65_laplace_cdf_pdf_swapped_violated",
    "Rstat.C65_laplace_rest_partial"
   ],
   "note": "The code does not have the full property; proved negation: `cdf` and `pdf` are swapped. For every Laplace law, `cdf` computes the density and `pdf` the distribution function; so `cdf` is not the distribution function, `pdf` is no density at all (of any law), and for `b < 1/2` `cdf(mu)` is not even a valid probability. Proved part: apart from that swap, the moments, entropy, median and mode are those of the Laplace law (whose density and distribution function are the swapped methods), and the sampler is its inverse distribution function."
  },
  {
   "property": "C66",
   "status": "proved",
   "theorems": [
    "Rstat.C66_logistic"
   ],
   "note": ""
  },
  {
   "property": "C67",
   "status": "proved",
   "theorems": [
    "Rstat.C67_gumbel"
   ],
   "note": ""
  },
  {
   "property": "C68",
   "status": "proved",
   "theorems": [
    "Rstat.C68_frechet"
   ],
   "note": ""
  },
  {
   "property": "C69",
   "status": "partial",
   "theorems": [
    "Rstat.C69_frechet_sampling_violated"
   ],
   "note": "The code does not have the full property; proved negation: fed a uniform draw `u`, the sampler returns `(-ln u)^(1/α)`, whose law is the *Weibull* law with scale 1 and shape `α`, not the Fréchet law: for every `u` in `(0,1)` the Weibull distribution function at the sample is `1 - u`, while the Fréchet distribution function at the sample equals `u` only for the single value `u = 1/e`."
  },
  {
   "property": "C70",
   "status": "proved",
   "theorems": [
    "Rstat.C70_weibull"
   ],
   "note": ""
  },
  {
   "property": "C71",
   "status": "partial",
   "theorems": [
    "Rstat.C71_weibull_mode_violated",
    "Rstat.C71_weibull_mode_partial"
   ],
   "note": "The code does not have the full property; proved negation: for every shape `k > 1`, `modes()` returns 0, where the density vanishes. Proved part: for `k ≤ 1` the density decreases on the whole support, so it peaks at its left end, 0."
  },
  {
   "property": "C72",
   "status": "proved",
   "theorems": [
    "Rstat.C72_kumaraswamy"
   ],
   "note": ""
  },
  {
   "property": "C73",
   "status": "proved",
   "theorems": [
    "Rstat.C73_pareto"
   ],
   "note": ""
  },
  {
   "property": "C74",
   "status": "partial",
   "theorems": [
    "Rstat.C74_pareto_below_support_violated"
   ],
   "note": "The code does not have the full property; proved negation: `new` accepts every `x_m` whatsoever (zero, negative, even NaN or infinite); and with a positive `x_m`, `cdf` at every point of `(0, x_m)` is a negative number, not a valid probability."
  },
  {
   "property": "C75",
   "status": "partial",
   "theorems": [
    "Rstat.C75_rayleigh_cdf_kurtosis_violated",
    "Rstat.C75_rayleigh_partial"
   ],
   "note": "The code does not have the full property; proved negation: `cdf` ignores `sigma` (it divides and multiplies by it), so it is the Rayleigh distribution function for no scale but 1; and `kurtosis`/`excess_kurtosis` return constants above 80 while the true kurtosis is below 4. Proved part: `pdf` is the Rayleigh density on `x ≥ 0`; mean, variance, skewness, entropy and mode are its; `median` is the median of the Rayleigh law (not of the method `cdf`, unless `sigma = 1`)."
  },
  {
   "property": "C76",
   "status": "partial",
   "theorems": [
    "Rstat.C76_triangular_partial",
    "Rstat.C76_triangular_symmetric",
    "Rstat.C76_triangular_pdf_near_peak_violated"
   ],
   "note": "The code does not have the full property; proved negation: at every point of the support within `1e-7` of the peak, other than the peak itself, `pdf` returns the peak value `2/(b-a)`, which is not the density there. Proved part: with `c = a + a2c` and `b = c + c2b`: `support` is `[a, b]`; `cdf` is the distribution function of the triangular law at every point; `pdf` is its density at the peak and everywhere further than `1e-7` from it; variance, skewness, kurtosis and excess kurtosis are its moments, `cdf(median) = 1/2`, the mode maximises the density."
  },
  {
   "property": "C77",
   "status": "partial",
   "theorems": [
    "Rstat.C77_triangular_mean_violated"
   ],
   "note": "The code does not have the full property; proved negation: the mean of the law is `(a+b+c)/3`; the code divides by 2, so it is right only where `a+b+c = 0`."
  },
  {
   "property": "C78",
   "status": "partial",
   "theorems": [
    "Rstat.C78_cosine_partial",
    "Rstat.C78_cosine_pdf_violated"
   ],
   "note": "The code does not have the full property; proved negation: `pdf` is `s/2` times the density of the law at every point, so it is wrong at every interior point of the support unless `s = 2`, and its total mass over the support is `s/2`. Proved part: on the support `cdf` is the distribution function of the raised-cosine law; `support` is `[μ - s, μ + s]`; mean, variance, skewness are its moments, `cdf(median) = 1/2`, and the mode maximises its density. Missing: `pdf`, below."
  },
  {
   "property": "C79",
   "status": "proved",
   "theorems": [
    "Rstat.C79_gpd"
   ],
   "note": ""
  },
  {
   "property": "C80",
   "status": "partial",
   "theorems": [
    "Rstat.C80_gpd_moment_domain_violated",
    "Rstat.C80_gpd_returned_values_violated"
   ],
   "note": "The code does not have the full property; proved negation: the guards are the wrong way round. `mean` panics for every shape `ζ ≤ 1`, in particular whenever the mean exists (`ζ < 1`), and returns a number for every `ζ > 1`, where there is no finite mean; `variance` panics for every `ζ ≤ 1/2`, in particular whenever the variance exists, and returns for every larger `ζ`, where there is none; the same for skewness and excess kurtosis. | C80 (violated), the values returned: where `mean` does return, its answer lies below the whole support; `variance` returns a negative number; `skewness` is NaN for `ζ > 1/2`, and for `1/3 < ζ ≤ 1/2`, as `excess_kurtosis` for every `ζ > 1/3`, the textbook expression at a shape where the law has no such moment."
  },
  {
   "property": "C81",
   "status": "proved",
   "theorems": [
    "Rstat.C81_gev"
   ],
   "note": ""
  },
  {
   "property": "C82",
   "status": "proved",
   "theorems": [
    "Rstat.C82_poisson"
   ],
   "note": ""
  },
  {
   "property": "C83",
   "status": "proved",
   "theorems": [
    "Rstat.C83_poisson_convolve"
   ],
   "note": ""
  },
  {
   "property": "C84",
   "status": "partial",
   "theorems": [
    "Rstat.C84_poisson_log_likelihood",
    "Rstat.C84_poisson_additive",
    "Rstat.C84_poisson_score_violated",
    "Rstat.C84_poisson_score_partial",
    "Rstat.C84_poisson_mle"
   ],
   "note": "The code does not have the full property; proved negation: `score` is the derivative of the log-likelihood only for the empty sample: the sign of the sample size is wrong. Proved part: the score of the empty sample is 0."
  },
  {
   "property": "C85",
   "status": "proved",
   "theorems": [
    "Rstat.C85_bernoulli",
    "Rstat.C85_bernoulli_mle"
   ],
   "note": ""
  },
  {
   "property": "C86",
   "status": "partial",
   "theorems": [
    "Rstat.C86_bernoulli_cdf_violated",
    "Rstat.C86_bernoulli_cdf_partial"
   ],
   "note": "The code does not have the full property; proved negation: `cdf(false)` is 0 for every parameter, while P(X ≤ false) = 1 - p; wrong unless p = 1. Proved part: `cdf(true) = 1`, and `cdf` is monotone with valid values."
  },
  {
   "property": "C87",
   "status": "proved",
   "theorems": [
    "Rstat.C87_bernoulli_convolve",
    "Rstat.C87_binomial_convolve_bernoulli",
    "Rstat.C87_binomial_convolve"
   ],
   "note": ""
  },
  {
   "property": "C88",
   "status": "partial",
   "theorems": [
    "Rstat.C88_binomial",
    "Rstat.C88_binomial_62",
    "Rstat.C88_binomial_pmf_violated",
    "Rstat.C88_binomial_overflow_violated",
    "Rstat.C88_binomial_release_above",
    "Rstat.C88_binomial_release_nan_violated"
   ],
   "note": "The code does not have the full property; proved negation: above `n` a debug build panics (the mass is 0); for 2^31 ≤ n < 2^32 the cast of the exponent wraps, and `pmf(0)` is greater than 1 for every p in (0,1). | the u64 products inside `choose` overflow for moderate `n`: a debug build panics at n = 100, k = 50, for every p. | with `p = 1` and `n < k < 2^31` the mass is 0 but `pmf(k)` is NaN, in every lawful floating-point implementation: the exponent of `q = 0` wraps to a negative number, and `0 · ∞` is NaN."
  },
  {
   "property": "C89",
   "status": "partial",
   "theorems": [
    "Rstat.C89_binomial_violated",
    "Rstat.C89_binomial_support_partial"
   ],
   "note": "The code does not have the full property; proved negation: the reported support is `[0, n+1]` for every `n` that fits, although `n+1` has mass 0; `kurtosis()` is the *excess* kurtosis, and `excess_kurtosis()` is 3 below that. Proved part: every `k` with positive mass is in the reported support."
  },
  {
   "property": "C90",
   "status": "partial",
   "theorems": [
    "Rstat.C90_geometric_partial",
    "Rstat.C90_geometric_cdf_violated",
    "Rstat.C90_geometric_pmf_violated"
   ],
   "note": "The code does not have the full property; proved negation: for every p in (0,1) and every k with 2^31 - 1 ≤ k < 2^32 - 1, `cdf(k)` is not the distribution function: it panics at k = 2^31 - 1 in a debug build and otherwise returns a negative number. | for every p in (0,1) and 2^31 ≤ k < 2^32, `pmf(k)` is not the mass at k (it exceeds p, the largest mass of the law). Proved part: for every accepted p > 0 the law is geometric, with the right mean and variance; `pmf(k)` is right for k < 2^31 and `cdf(k)` for k < 2^31 - 1, without panic in either build, and they are valid probabilities. Missing: larger k (see `C90_geometric_cdf_violated`) and p = 0 (see C126)."
  },
  {
   "property": "C91",
   "status": "proved",
   "theorems": [
    "Rstat.C91_categorical_pmf",
    "Rstat.C91_categorical_sample",
    "Rstat.C91_categorical_modes"
   ],
   "note": ""
  },
  {
   "property": "C92",
   "status": "partial",
   "theorems": [
    "Rstat.C92_categorical_cdf_violated",
    "Rstat.C92_categorical_cdf_partial"
   ],
   "note": "The code does not have the full property; proved negation: `cdf(i)` is P(X ≤ i) exactly when category i has weight 0: the code sums the weights *before* i. Proved part: `cdf(i)` is P(X < i); it is 0 at 0 and the total weight from N on, and is monotone."
  },
  {
   "property": "C93",
   "status": "partial",
   "theorems": [
    "Rstat.C93_chisq_partial",
    "Rstat.C93_chisq_variance_violated"
   ],
   "note": "The code does not have the full property; proved negation: the usize product `2 * k` overflows: the debug build panics and the release build returns 2k − 2^64 instead of the variance 2k. Proved part: `pdf` is the density of the Gamma(k/2, 1/2) law, and mean, variance, skewness, kurtosis, entropy and mode are those of that law. For k = 1 the density is unbounded at 0, the reported mode, and decreases on the support."
  },
  {
   "property": "C94",
   "status": "partial",
   "theorems": [
    "Rstat.C94_chisq_convolve_violated",
    "Rstat.C94_chisq_convolve_partial"
   ],
   "note": "The code does not have the full property; proved negation: convolution is refused for every pair of different degrees of freedom. Proved part: for equal degrees of freedom the result is the law of the sum."
  },
  {
   "property": "C95",
   "status": "partial",
   "theorems": [
    "Rstat.C95_chi_vs_chisq_violated",
    "Rstat.C95_chisq_is_gamma_partial"
   ],
   "note": "The code does not have the full property; proved negation: at every x > 0, `Chi(k).cdf(x)` and `ChiSq(k).cdf(x²)` agree only for k = 2 and k = 4. Proved part: `ChiSq(k)` and `Gamma(k/2, 1/2)` compute the same cdf and pdf values."
  },
  {
   "property": "C96",
   "status": "proved",
   "theorems": [
    "Rstat.C96_gamma"
   ],
   "note": ""
  },
  {
   "property": "C97",
   "status": "partial",
   "theorems": [
    "Rstat.C97_gamma_convolve_violated",
    "Rstat.C97_gamma_convolve_partial"
   ],
   "note": "The code does not have the full property; proved negation: the equality test is on the *shapes*: unequal shapes are always refused, even with equal rates; equal shapes are always accepted, even with unequal rates, and then the mean of the result is not the sum of the means. Proved part: for equal shapes and equal rates the result is the law of the sum of two independent variables."
  },
  {
   "property": "C98",
   "status": "proved",
   "theorems": [
    "Rstat.C98_beta"
   ],
   "note": ""
  },
  {
   "property": "C99",
   "status": "partial",
   "theorems": [
    "Rstat.C99_lognormal_partial",
    "Rstat.C99_lognormal_violated"
   ],
   "note": "The code does not have the full property; proved negation: C99, violated: `pdf` misses the factor `1/x`, so on the support it is the density of its own `cdf` only at `x = 1`; `mean` and `variance` are those of the law with distribution function `cdf` only if `v = 1` (they are those of `exp N(mu, variance v²)`). Proved part: C99, the part that holds: the constructor accepts exactly positive second arguments `v`; `cdf` is the distribution function of `exp N(mu, variance v)` on `[0, ∞)` (that law has the density `logNormalPDF mu v`), and `median` is its median."
  },
  {
   "property": "C100",
   "status": "proved",
   "theorems": [
    "Rstat.C100_dirichlet_pdf",
    "Rstat.C100_dirichlet_moments",
    "Rstat.C100_dirichlet_rows"
   ],
   "note": ""
  },
  {
   "property": "C101",
   "status": "partial",
   "theorems": [
    "Rstat.C101_dirichlet_sample_violated",
    "Rstat.C101_dirichlet_sample_null_violated",
    "Rstat.C101_dirichlet_sample_partial"
   ],
   "note": "The code does not have the full property; proved negation: C101 is violated: for every concentration vector and every stream of Gamma draws, the sampled vector adds up to (sum of draws)/α₀; so it lies on the simplex only if the draws happen to add up to α₀, … | … which has probability zero: with ideal independent Gamma draws, the sampler leaves the simplex almost surely. Proved part: the sample is a positive multiple of a point of the simplex: normalising it gives the normalised draws."
  },
  {
   "property": "C102",
   "status": "proved",
   "theorems": [
    "Rstat.C102_multinomial_moments",
    "Rstat.C102_multinomial_correlation",
    "Rstat.C102_multinomial_cov_symm"
   ],
   "note": ""
  },
  {
   "property": "C103",
   "status": "partial",
   "theorems": [
    "Rstat.C103_multinomial_pmf_violated",
    "Rstat.C103_multinomial_zero_violated",
    "Rstat.C103_multinomial_off_support_violated",
    "Rstat.C103_multinomial_pmf_partial"
   ],
   "note": "The code does not have the full property; proved negation: C103 is violated: at every point whose counts add up to `n ≥ 1` - that is, on the whole support of the law - both `pmf` and `log_pmf` panic. | C103 is violated: at the zero vector `pmf` is 0, also for `n = 0` where the mass is 1. | C103 is violated: at every point whose total is neither 0 nor `n` the mass is zero, but (positive weights) `pmf` returns a positive number or panics. Proved part: for every accepted law and every point with a total below 2^64, `pmf` returns the mass exactly when the point has total 0 while `n ≠ 0`, or its total is neither 0 nor `n` and it counts a category of probability 0. (Missing: every other point, in particular all points of positive mass.)"
  },
  {
   "property": "C104",
   "status": "partial",
   "theorems": [
    "Rstat.C104_mvlognormal_cov_partial",
    "Rstat.C104_mvlognormal_cov_upper_partial",
    "Rstat.C104_mvlognormal_cov_violated",
    "Rstat.C104_diag_lognormal_cov",
    "Rstat.C104_iso_lognormal_cov"
   ],
   "note": "The code does not have the full property; proved negation: whenever coordinates `j < i` are correlated and the mean of coordinate `j` is nonnegative, the entry `(i, j)` is not the covariance, and the matrix returned is not symmetric. Proved part: the entry `(i, j)` of `covariance()` is the covariance of the `i`-th and `j`-th coordinates of the exponential of the Gaussian exactly when `i ≤ j`, or `Σ_ij = 0`, or the variance of the `j`-th coordinate happens to equal `Σ_jj`. Missing: the other entries below the diagonal, which are wrong (`C104_mvlognormal_cov_violated`). | C104 (partial, general covariance), in the cases where it is right: on and above the diagonal"
  },
  {
   "property": "C105",
   "status": "partial",
   "theorems": [
    "Rstat.C105_diag_pdf_partial",
    "Rstat.C105_iso_pdf_partial",
    "Rstat.C105_mv_pdf_partial",
    "Rstat.C105_mv_pdf_violated",
    "Rstat.C105_diag_pdf_violated",
    "Rstat.C105_iso_pdf_violated"
   ],
   "note": "The code does not have the full property; proved negation: with correlated coordinates `pdf` is not the Gaussian density | in every positive dimension there is a point where `pdf` exceeds its value at the mode, so it is not the Gaussian density | C105 (violated, isotropic covariance) Proved part: the density is right exactly where the distance is, in particular at the mean. | the density is right exactly where the distance is, in particular at the mean. | `pdf` is the Gaussian density when the coordinates are uncorrelated. Missing: the correlated case, where it is not (`C105_mv_pdf_violated`)."
  },
  {
   "property": "C106",
   "status": "partial",
   "theorems": [
    "Rstat.C106_degenerate_pdf_violated"
   ],
   "note": "The code does not have the full property; proved negation: the f64 \"density\" of the point mass is not a density: it is the indicator of an interval of width `2e-7` around `k`, with total mass `2e-7`, not 1 (a point mass has none)."
  },
  {
   "property": "C107",
   "status": "partial",
   "theorems": [
    "Rstat.C107_arcsine_off_support_violated",
    "Rstat.C107_arcsine_on_support_partial"
   ],
   "note": "The code does not have the full property; proved negation: off the support, for all parameters, `cdf` returns NaN (never 0 or 1), so the returned `Probability` is not valid; `pdf` is NaN there too. Proved part: on the closed support `cdf` is a valid probability."
  },
  {
   "property": "C108",
   "status": "partial",
   "theorems": [
    "Rstat.C108_frechet_below_support_violated"
   ],
   "note": "The code does not have the full property; proved negation: below the support no value of `cdf` is 0: at every `x < 0` it is NaN (non-integer shape), a number strictly between 0 and 1 (even integer shape), or a number above 1 (odd integer shape; then not a valid probability)."
  },
  {
   "property": "C109",
   "status": "partial",
   "theorems": [
    "Rstat.C109_rayleigh_below_support_violated"
   ],
   "note": "The code does not have the full property; proved negation: below the support `cdf` is strictly positive and `pdf` strictly negative, at every `x < 0`."
  },
  {
   "property": "C110",
   "status": "partial",
   "theorems": [
    "Rstat.C110_pareto_fisher_violated",
    "Rstat.C110_pareto_fisher_partial"
   ],
   "note": "The code does not have the full property; proved negation: the Fisher information of the Pareto family in `(x_m, α)` is `diag(α²/x_m², 1/α²)`. The returned matrix has a wrong off-diagonal entry for every parameter, and a wrong first entry for every `α ≠ 1`. Proved part: the last diagonal entry is the Fisher information in `α`."
  },
  {
   "property": "C111",
   "status": "partial",
   "theorems": [
    "Rstat.C111_below_support_violated"
   ],
   "note": "The code does not have the full property; proved negation: below the support. Generalised Pareto: at every `x` in `(mu - sigma/ζ, mu)` `cdf` is a negative number (not a valid probability) and `pdf` is positive. Generalised extreme value with `ζ ≥ 1e-7` and `1/ζ` not an integer: at every `x < mu - sigma/ζ` `cdf` and `pdf` are NaN."
  },
  {
   "property": "C112",
   "status": "partial",
   "theorems": [
    "Rstat.C112_gev_small_shape_violated",
    "Rstat.C112_gev_small_shape_partial"
   ],
   "note": "The code does not have the full property; proved negation: for every shape `0 < ζ < 1e-7` the code switches `cdf` to the Gumbel distribution function but keeps the exponent `ζ + 1` in `pdf`, so at every `x ≠ mu` the returned density is not the derivative of the returned distribution function. Proved part: for every shape `0 < ζ < 1e-7` mean, variance, skewness, excess kurtosis, median and mode are those of the limiting Gumbel law `ζ = 0`, the law whose distribution function `cdf` returns; the entropy is that of the generalised extreme value law itself; `pdf` is the Gumbel density times the factor `exp(-ζ (x - mu)/sigma)`. Missing: that factor, see `C112_gev_small_shape_violated`."
  },
  {
   "property": "C113",
   "status": "partial",
   "theorems": [
    "Rstat.C113_kumaraswamy_entropy_violated",
    "Rstat.C113_kumaraswamy_entropy_partial"
   ],
   "note": "The code does not have the full property; proved negation: the differential entropy of the Kumaraswamy law is `(1 - 1/b) + (1 - 1/a) H_b - ln(ab)` with the generalised harmonic number `H_b = ψ(b+1) - ψ(1)`; the code uses `H_⌊b⌋`, with `⌊b⌋` cut off at 2^64 - 1, so the returned value differs from the entropy for every `a ≠ 1` and every `b` that is not an integer below 2^64. Proved part: for integer `b` below 2^64, or `a = 1`, `shannon_entropy` is the differential entropy."
  },
  {
   "property": "C114",
   "status": "partial",
   "theorems": [
    "Rstat.C114_kumaraswamy_off_support_violated"
   ],
   "note": "The code does not have the full property; proved negation: at every point above the support, where the distribution function is 1, `cdf` returns something else (NaN for non-integer `b`); at every point of `(-1, 0)`, where it is 0, `cdf` returns something else as well."
  },
  {
   "property": "C115",
   "status": "partial",
   "theorems": [
    "Rstat.C115_cosine_off_support_violated"
   ],
   "note": "The code does not have the full property; proved negation: at every point above the support `cdf` exceeds 1 and at every point below it it is negative; neither is a valid probability."
  },
  {
   "property": "C116",
   "status": "partial",
   "theorems": [
    "Rstat.C116_cosine_kurtosis_violated"
   ],
   "note": "The code does not have the full property; proved negation: the excess kurtosis of the law is `6(90 - π⁴)/(5(π² - 6)²)`; the code has `60` for `90`."
  },
  {
   "property": "C117",
   "status": "partial",
   "theorems": [
    "Rstat.C117_triangular_entropy_violated"
   ],
   "note": "The code does not have the full property; proved negation: the differential entropy of the law is `1/2 + ln((b-a)/2)`; `shannon_entropy` is larger by `1/2` for all parameters."
  },
  {
   "property": "C118",
   "status": "partial",
   "theorems": [
    "Rstat.C118_bernoulli_kurtosis_violated"
   ],
   "note": "The code does not have the full property; proved negation: for every p in (0,1), `kurtosis()` and `excess_kurtosis()` are both off by exactly 3."
  },
  {
   "property": "C119",
   "status": "partial",
   "theorems": [
    "Rstat.C119_bernoulli_median_violated",
    "Rstat.C119_bernoulli_median_partial",
    "Rstat.C119_bernoulli_modes_violated",
    "Rstat.C119_bernoulli_modes_partial",
    "Rstat.C119_bernoulli_entropy_violated"
   ],
   "note": "The code does not have the full property; proved negation: the returned median is a median of the law exactly when p = 1/2 or p is at least 1e-7 away from 1/2. | the modes returned are the most likely values exactly when p ≤ 1/2; for every p > 1/2 the code answers `[false]`, the *least* likely value. It never panics. | the entropy returned is the Shannon entropy in nats exactly when p is 0, 1, or at least 1e-7 away from both (violated in the open bands, where 0 is returned for a positive entropy). Proved part: away from the 1e-7 band around 1/2, and at 1/2, the median is a median. | for p ≤ 1/2 `modes()` lists exactly the most likely values."
  },
  {
   "property": "C120",
   "status": "partial",
   "theorems": [
    "Rstat.C120_bernoulli_likelihood",
    "Rstat.C120_bernoulli_score_violated",
    "Rstat.C120_bernoulli_score_partial"
   ],
   "note": "The code does not have the full property; proved negation: the score is the derivative of the log-likelihood only for samples without a `false`. Proved part: the score of an all-`true` sample."
  },
  {
   "property": "C121",
   "status": "partial",
   "theorems": [
    "Rstat.C121_binomial_cdf_partial",
    "Rstat.C121_binomial_cdf_violated",
    "Rstat.C121_binomial_cdf_release_violated"
   ],
   "note": "The code does not have the full property; proved negation: P(X ≤ k) = 1 for k > n, but a debug build panics for every such k. | above `n`, where the distribution function is 1, the wrapped subtraction makes `cdf(k)` the distribution function of a binomial law with `n + 2^64` trials, which is smaller than 1 for every `p` in (0,1]. Proved part: `cdf(k)` is the sum of the masses up to `k`."
  },
  {
   "property": "C122",
   "status": "partial",
   "theorems": [
    "Rstat.C122_binomial_modes_violated",
    "Rstat.C122_binomial_modes_partial",
    "Rstat.C122_binomial_median_violated",
    "Rstat.C122_binomial_median_partial",
    "Rstat.C122_binomial_entropy_violated",
    "Rstat.C122_binomial_median_wide_violated",
    "Rstat.C122_binomial_median_every_n_violated"
   ],
   "note": "The code does not have the full property; proved negation: `modes()` is `[floor(np)]`, which is a most likely value exactly when `(n+1)p ≤ floor(np) + 1`. | `median()` of Binomial(2, 0.29) is 1, but P(X ≥ 1) < 1/2. | `shannon_entropy()` of Binomial(1, 1/2) exceeds 1, whereas the entropy is ln 2 nats (1 bit). | whenever the mean `np` rounds to 1 although an outcome of 0 is more likely than not, the returned median 1 is not a median. | for every number of trials n ≥ 2 some success probability makes `median()` wrong: at `p = 1/(2n)` it returns 1, but more than half of the mass is at 0. Proved part: the answer or its successor is a most likely value. | the median returned is an integer within 1/2 of the mean."
  },
  {
   "property": "C123",
   "status": "proved",
   "theorems": [
    "Rstat.C123_geometric_shape"
   ],
   "note": ""
  },
  {
   "property": "C124",
   "status": "partial",
   "theorems": [
    "Rstat.C124_geometric_median_violated",
    "Rstat.C124_geometric_median_partial",
    "Rstat.C124_geometric_entropy_violated",
    "Rstat.C124_geometric_entropy_partial"
   ],
   "note": "The code does not have the full property; proved negation: the median returned is a median of the law only in the exceptional case where some power of 1 - p is exactly 1/2. | `shannon_entropy()` is not the entropy in nats for any p in (0,1) (every other law of the crate reports nats), and is NaN at p = 1, where the entropy is 0. Proved part: rounding the returned value up gives a median, so the answer is less than 1 too small. | for p in (0,1) `shannon_entropy()` is the entropy in bits."
  },
  {
   "property": "C125",
   "status": "partial",
   "theorems": [
    "Rstat.C125_poisson_kurtosis_violated",
    "Rstat.C125_poisson_fisher_violated",
    "Rstat.C125_poisson_median_violated",
    "Rstat.C125_poisson_median_partial",
    "Rstat.C125_poisson_modes_partial",
    "Rstat.C125_poisson_modes_violated",
    "Rstat.C125_poisson_entropy_violated",
    "Rstat.C125_poisson_entropy_wide_violated"
   ],
   "note": "The code does not have the full property; proved negation: `kurtosis()` is 3 less than the fourth standardised moment for every rate (it is the excess), and `excess_kurtosis()` is 6 less. | `fisher_information()` is the Fisher information about the rate only when the rate is 1. | for every rate up to 1/20 the median returned is negative, and for every rate in (ln 2, 0.695] it is 0 although 0 is not a median. | ... but for every positive integer rate (below 2^64) a second mode, rate - 1, is missing. | for every rate up to 1/10 `shannon_entropy()` is negative, which no Shannon entropy is. | for every rate up to 2/5 `shannon_entropy()` is negative, which no Shannon entropy is. Proved part: for rates in [0.052, ln 2] the median is right (0); in general it is an integer within [rate - 2/3 - 0.02/rate, rate + 1/3 - 0.02/rate]. Missing: correctness for rates above 0.695. | `modes()` of every rate below 2^64 is a most likely count ..."
  },
  {
   "property": "C126",
   "status": "partial",
   "theorems": [
    "Rstat.C126_geometric_zero_violated",
    "Rstat.C126_geometric_zero_partial"
   ],
   "note": "The code does not have the full property; proved negation: p = 0 is accepted, but then every `pmf(k)` is 0 (so the masses sum to 0, not 1), `cdf` is 0 everywhere, and the mean is infinite. Proved part: every accepted p other than 0 defines a law."
  },
  {
   "property": "C127",
   "status": "partial",
   "theorems": [
    "Rstat.C127_categorical_support_violated",
    "Rstat.C127_categorical_support_partial"
   ],
   "note": "The code does not have the full property; proved negation: the reported support [0, N+1] contains N and N + 1, on which `pmf` panics, for every accepted weight vector. Proved part: every category lies in the reported support."
  },
  {
   "property": "C128",
   "status": "partial",
   "theorems": [
    "Rstat.C128_gamma_cdf_violated",
    "Rstat.C128_gamma_cdf_partial"
   ],
   "note": "The code does not have the full property; proved negation: `cdf` returns the distribution function divided by Γ(α), so at every point of the support it is wrong unless α is 1 or 2; for α > 2 it stays below 1/Γ(α) < 1 everywhere. Proved part: for shapes 1 and 2 the cdf is the Gamma distribution function on the whole support."
  },
  {
   "property": "C129",
   "status": "partial",
   "theorems": [
    "Rstat.C129_gamma_log_likelihood_violated"
   ],
   "note": "The code does not have the full property; proved negation: the code's log-likelihood has the data term with the wrong sign and `α·max(1/β,ε)` where `−α·ln β` belongs. For Gamma(1,1) it returns Σx − 2n instead of −Σx, right only when Σx = n; for every parameter pair it exceeds the true value for every sufficiently large single observation."
  },
  {
   "property": "C130",
   "status": "partial",
   "theorems": [
    "Rstat.C130_gamma_score_violated",
    "Rstat.C130_gamma_score_partial"
   ],
   "note": "The code does not have the full property; proved negation: on data in the documented range the rate component of `score` is the derivative of the log-likelihood, but the shape component is short of it by 2·n·ln β (it has ln(x/β) where ln(βx) belongs), so it is right exactly when β = 1 or there is no data. Proved part: with unit rate both components of `score` are the derivatives of the log-likelihood."
  },
  {
   "property": "C131",
   "status": "proved",
   "theorems": [
    "Rstat.C131_gamma_convolve_exponential"
   ],
   "note": ""
  },
  {
   "property": "C132",
   "status": "partial",
   "theorems": [
    "Rstat.C132_chisq_cdf_violated",
    "Rstat.C132_chisq_cdf_partial"
   ],
   "note": "The code does not have the full property; proved negation: at every point of the support, `cdf` is the distribution function only for k = 2 and k = 4. Proved part: the cdf is right for 2 and 4 degrees of freedom."
  },
  {
   "property": "C133",
   "status": "partial",
   "theorems": [
    "Rstat.C133_chisq_median_violated",
    "Rstat.C133_chisq_median_partial",
    "Rstat.C133_chisq_median_even_violated"
   ],
   "note": "The code does not have the full property; proved negation: `median()` is the Wilson–Hilferty approximation, not the median: for k = 2 it returns 2·(8/9)^3 where the distribution function is not 1/2. | for every even number of degrees of freedom `median()` returns `k(1 - 2/(9k))³`, and that is never the median: the distribution function there is not 1/2. Proved part: for k = 2 the approximation is within 0.02 of the median 2·ln 2."
  },
  {
   "property": "C134",
   "status": "proved",
   "theorems": [
    "Rstat.C134_chi"
   ],
   "note": ""
  },
  {
   "property": "C135",
   "status": "partial",
   "theorems": [
    "Rstat.C135_chi_entropy_violated",
    "Rstat.C135_chi_entropy_partial"
   ],
   "note": "The code does not have the full property; proved negation: the entropy formula lacks the factor 1/2, so `shannon_entropy()` is never the entropy. Proved part: the code's value and the entropy differ by exactly half the bracket."
  },
  {
   "property": "C136",
   "status": "partial",
   "theorems": [
    "Rstat.C136_chi_median_violated",
    "Rstat.C136_chi_median_partial",
    "Rstat.C136_chi_median_even_violated"
   ],
   "note": "The code does not have the full property; proved negation: `median()` is the square root of the Wilson–Hilferty approximation: for k = 2 the distribution function there is not 1/2. | for every even number of degrees of freedom `median()` of the Chi law returns the square root of `k(1 - 2/(9k))³`, and that is never the median. Proved part: for k = 2 the square of the reported median is within 0.02 of the square of the median."
  },
  {
   "property": "C137",
   "status": "proved",
   "theorems": [
    "Rstat.C137_erlang"
   ],
   "note": ""
  },
  {
   "property": "C138",
   "status": "partial",
   "theorems": [
    "Rstat.C138_erlang_pdf_violated",
    "Rstat.C138_erlang_pdf_partial"
   ],
   "note": "The code does not have the full property; proved negation: at every x > 0 the returned density is more than twice the Erlang density. Proved part: with one stage (k = 1) `pdf` is the exponential density."
  },
  {
   "property": "C139",
   "status": "partial",
   "theorems": [
    "Rstat.C139_erlang_cdf_violated",
    "Rstat.C139_erlang_cdf_partial"
   ],
   "note": "The code does not have the full property; proved negation: the cdf is divided by k!: it is at most 0.51 of the distribution function at every x > 0, so it never reaches 1. Proved part: with one stage the cdf is the exponential distribution function."
  },
  {
   "property": "C140",
   "status": "proved",
   "theorems": [
    "Rstat.C140_inverse_gamma"
   ],
   "note": ""
  },
  {
   "property": "C141",
   "status": "partial",
   "theorems": [
    "Rstat.C141_inverse_gamma_cdf_violated",
    "Rstat.C141_inverse_gamma_cdf_partial"
   ],
   "note": "The code does not have the full property; proved negation: `cdf` is strictly decreasing on the support (it computes a multiple of the complementary distribution function), so it is not a distribution function, and it is right at no more than one point. Proved part: for shapes 1 and 2, `cdf` is the *complementary* distribution function."
  },
  {
   "property": "C142",
   "status": "partial",
   "theorems": [
    "Rstat.C142_beta_excess_kurtosis_violated"
   ],
   "note": "The code does not have the full property; proved negation: the excess kurtosis is `3(α-β)²(α+β+1) - 1/(α+β+3)`, which agrees with the law's exactly when `3(α-β)²(α+β+1)(2 - αβ(α+β+2)(α+β+3)) = 5αβ(α+β+2)`; never for a symmetric law (where it says `-1/(2α+3)` instead of `-6/(2α+3)`), never when `αβ(α+β+2)(α+β+3) ≥ 2` (in particular when both shapes are at least 1/2)."
  },
  {
   "property": "C143",
   "status": "partial",
   "theorems": [
    "Rstat.C143_beta_median_partial",
    "Rstat.C143_beta_median_violated"
   ],
   "note": "The code does not have the full property; proved negation: for both shapes above 1 `median` returns the approximation `(α-1/3)/(α+β-2/3)`; for `β = 2` and every odd integer `α ≥ 3` this is not the median. When one shape is below 1 and neither is near 1, nor the two near each other, it panics although every Beta law has a median. Proved part: `median` is the median for a symmetric law and when one shape is exactly 1 (and the other is not within 1e-7 of it)."
  },
  {
   "property": "C144",
   "status": "partial",
   "theorems": [
    "Rstat.C144_beta_modes_partial",
    "Rstat.C144_beta_modes_violated"
   ],
   "note": "The code does not have the full property; proved negation: when one shape is at most 1 and the other at least 1 (a monotone density, whose mode is an end point: `pdf(0)` for `α ≤ 1 ≤ β`) no mode is reported. Proved part: both shapes above 1: one interior maximiser; both below 1: the two end points, where the density tends to infinity."
  },
  {
   "property": "C145",
   "status": "partial",
   "theorems": [
    "Rstat.C145_beta_log_likelihood_partial",
    "Rstat.C145_beta_log_likelihood_violated"
   ],
   "note": "The code does not have the full property; proved negation: an observation in the support but below 1e-9 is silently moved to 1e-9: unless `α = 1` the result is not the log-likelihood. Proved part: for data at least 1e-9 away from both ends of the unit interval, `log_likelihood` is the sum of the log-densities."
  },
  {
   "property": "C146",
   "status": "partial",
   "theorems": [
    "Rstat.C146_beta_score_partial",
    "Rstat.C146_beta_score_violated"
   ],
   "note": "The code does not have the full property; proved negation: one observation in the support but below 1e-9: the shape component is not the derivative. Proved part: for data at least 1e-9 away from both ends of the unit interval, `score` is the gradient of the log-likelihood in (α, β)."
  },
  {
   "property": "C147",
   "status": "partial",
   "theorems": [
    "Rstat.C147_beta_pdf_negative_violated",
    "Rstat.C147_beta_pdf_negative_even_violated"
   ],
   "note": "The code does not have the full property; proved negation: a density cannot be negative, but for `β = 2` (any `α`) `pdf` is negative at every point beyond the support. | a density cannot be negative, but whenever `β` is an even integer (any `α`) `pdf` is negative at every point above the support."
  },
  {
   "property": "C148",
   "status": "proved",
   "theorems": [
    "Rstat.C148_beta_prime"
   ],
   "note": ""
  },
  {
   "property": "C149",
   "status": "partial",
   "theorems": [
    "Rstat.C149_beta_prime_kurtosis_violated"
   ],
   "note": "The code does not have the full property; proved negation: for `β > 4`, where the kurtosis exists, the code's numerator `6(α+β-1)(5β-11) + (β-1)²(β-2)` misses a factor: it is right exactly when `6(α-1)(α+β-1)(5β-11) + 5(β-1)²(β-2) = 0`, hence for no `α ≥ 1`. For `β ≤ 4` (other than 3 and 4) a finite number is returned although the law has no kurtosis."
  },
  {
   "property": "C150",
   "status": "partial",
   "theorems": [
    "Rstat.C150_beta_prime_entropy_violated"
   ],
   "note": "The code does not have the full property; proved negation: `shannon_entropy` returns the entropy of the *Beta* law with the same shapes, which falls short of the Beta prime entropy by `2(ψ(α+β) - ψ(β)) > 0`."
  },
  {
   "property": "C151",
   "status": "proved",
   "theorems": [
    "Rstat.C151_f_dist"
   ],
   "note": ""
  },
  {
   "property": "C152",
   "status": "partial",
   "theorems": [
    "Rstat.C152_f_skewness_partial",
    "Rstat.C152_f_skewness_violated"
   ],
   "note": "The code does not have the full property; proved negation: with five or six denominator degrees of freedom the law has no skewness, yet a value is returned: a finite *negative* number for five. Proved part: the skewness is right for more than six denominator degrees of freedom and refused up to four."
  },
  {
   "property": "C153",
   "status": "partial",
   "theorems": [
    "Rstat.C153_f_kurtosis_violated"
   ],
   "note": "The code does not have the full property; proved negation: where the kurtosis exists (more than eight denominator degrees of freedom) the returned excess kurtosis is always too small (a factor 12 is applied to one of two terms only); with five to eight it does not exist and yet a value is returned."
  },
  {
   "property": "C154",
   "status": "partial",
   "theorems": [
    "Rstat.C154_f_entropy_violated"
   ],
   "note": "The code does not have the full property; proved negation: with `a = d1/2`, `b = d2/2` the returned entropy is off by `1/a - 1/b + 2bψ(b) + 2ln(a/b)`: it is too large whenever `d2 ≥ 5` (whatever `d1`), and wrong whenever `d1 = d2`."
  },
  {
   "property": "C155",
   "status": "partial",
   "theorems": [
    "Rstat.C155_student_new_violated"
   ],
   "note": "The code does not have the full property; proved negation: `new` accepts every number, also the meaningless ones: NaN and every negative number of degrees of freedom pass, and then the density is NaN at every point."
  },
  {
   "property": "C156",
   "status": "proved",
   "theorems": [
    "Rstat.C156_student"
   ],
   "note": ""
  },
  {
   "property": "C157",
   "status": "partial",
   "theorems": [
    "Rstat.C157_student_cdf_partial",
    "Rstat.C157_student_cdf_violated"
   ],
   "note": "The code does not have the full property; proved negation: at every other point and number of degrees of freedom the value is wrong (`* Γ(ν/2)` instead of `/ Γ(ν/2)`); for `ν ≥ 6` it leaves the unit interval for all large `x`. Proved part: at zero, and everywhere for exactly two or four degrees of freedom."
  },
  {
   "property": "C158",
   "status": "partial",
   "theorems": [
    "Rstat.C158_student_entropy_violated"
   ],
   "note": "The code does not have the full property; proved negation: the digamma functions of the formula are replaced by Gamma functions and a logarithm is missing: the returned value is too large for every `ν ≥ 3`, and wrong for one and two degrees of freedom."
  },
  {
   "property": "C159",
   "status": "proved",
   "theorems": [
    "Rstat.C159_beta_binomial"
   ],
   "note": ""
  },
  {
   "property": "C160",
   "status": "partial",
   "theorems": [
    "Rstat.C160_beta_binomial_skewness_violated"
   ],
   "note": "The code does not have the full property; proved negation: `skewness` returns the third *raw* moment `E X³`; whenever `α ≥ β` this is positive while the skewness is not."
  },
  {
   "property": "C161",
   "status": "partial",
   "theorems": [
    "Rstat.C161_beta_binomial_kurtosis_violated"
   ],
   "note": "The code does not have the full property; proved negation: in `kurtosis` one term is divided by `α` where it should be multiplied by `α+β`: the value is the kurtosis of the law exactly when `α(α+β) = 1`."
  },
  {
   "property": "C162",
   "status": "partial",
   "theorems": [
    "Rstat.C162_beta_binomial_support_violated"
   ],
   "note": "The code does not have the full property; proved negation: the support reported is `{0, ..., n+1}`, one more than the law can produce: its last element has probability zero; `cdf` is right from `n` on and not available below."
  },
  {
   "property": "C163",
   "status": "proved",
   "theorems": [
    "Rstat.C163_levy"
   ],
   "note": ""
  },
  {
   "property": "C164",
   "status": "partial",
   "theorems": [
    "Rstat.C164_levy_boundary_violated"
   ],
   "note": "The code does not have the full property; proved negation: C164, violated: the location `mu` belongs to the declared support, but `pdf(mu)` is NaN (the density is 0 there), and so is `pdf(x)` for every `x < mu`."
  },
  {
   "property": "C165",
   "status": "partial",
   "theorems": [
    "Rstat.C165_levy_cdf_violated"
   ],
   "note": "The code does not have the full property; proved negation: C165, violated: `cdf` is `erfc(c/(2(x-mu)))` instead of `erfc(sqrt(c/(2(x-mu))))`. Above `mu` it is right at the single point `mu + c/2` (where the argument is 1); below `mu` it exceeds 1 and is not a probability."
  },
  {
   "property": "C166",
   "status": "partial",
   "theorems": [
    "Rstat.C166_levy_mode_median_violated"
   ],
   "note": "The code does not have the full property; proved negation: C166, violated: the law has the unique mode `mu + c/3` and a median for every `mu`. `modes` panics whenever `|mu| >= 1e-7`, answers `c/3` otherwise (wrong unless `mu = 0`), and `median` always panics."
  },
  {
   "property": "C167",
   "status": "partial",
   "theorems": [
    "Rstat.C167_lognormal_shape_violated"
   ],
   "note": "The code does not have the full property; proved negation: C167, violated: skewness and kurtosis are those of the law with distribution function `cdf` only if `v = 1`."
  },
  {
   "property": "C168",
   "status": "partial",
   "theorems": [
    "Rstat.C168_lognormal_modes_violated"
   ],
   "note": "The code does not have the full property; proved negation: C168, violated: the law with distribution function `cdf` has the unique mode `exp(mu - v)`; `modes` answers `exp(mu - v²)`, right only if `v = 1`."
  },
  {
   "property": "C169",
   "status": "partial",
   "theorems": [
    "Rstat.C169_lognormal_entropy_violated"
   ],
   "note": "The code does not have the full property; proved negation: C169, violated: `shannon_entropy` is in bits and with `v` for the standard deviation; it is the entropy (in nats) of the law with distribution function `cdf` exactly on one curve of parameters."
  },
  {
   "property": "C170",
   "status": "partial",
   "theorems": [
    "Rstat.C170_lognormal_fisher_violated"
   ],
   "note": "The code does not have the full property; proved negation: C170, violated: the Fisher information of the family in (mu, v) is `diag(1/v, 1/(2v²))`; the code returns `diag(1/v², 1/(2v⁴))`, right on the diagonal only if `v = 1`."
  },
  {
   "property": "C171",
   "status": "partial",
   "theorems": [
    "Rstat.C171_lognormal_sample_violated"
   ],
   "note": "The code does not have the full property; proved negation: C171, violated: for a standard normal draw `z`, `sample` returns `exp(M + S z)` where `M`, `S` are `mean()` and `standard_deviation()` of the distribution itself. The median of the samples, `exp M`, lies strictly above the median of the law with distribution function `cdf`, for all parameters: samples never follow the declared law."
  },
  {
   "property": "C172",
   "status": "partial",
   "theorems": [
    "Rstat.C172_lognormal_negative_violated"
   ],
   "note": "The code does not have the full property; proved negation: C172, violated: below the support, where the density and distribution function are 0, `pdf` is NaN and `cdf` is the normal distribution function routine applied to NaN: not a probability if that routine propagates NaN (as cephes does)."
  },
  {
   "property": "C173",
   "status": "proved",
   "theorems": [
    "Rstat.C173_folded_normal",
    "Rstat.C173_half_normal"
   ],
   "note": ""
  },
  {
   "property": "C174",
   "status": "partial",
   "theorems": [
    "Rstat.C174_folded_negative_violated"
   ],
   "note": "The code does not have the full property; proved negation: C174, violated: below the support, where density and distribution function are 0, `pdf` is positive and `cdf` is negative (it is the odd extension), so `cdf` is not a valid probability at any `x < 0`."
  },
  {
   "property": "C175",
   "status": "partial",
   "theorems": [
    "Rstat.C175_folded_modes_partial",
    "Rstat.C175_folded_modes_violated"
   ],
   "note": "The code does not have the full property; proved negation: C175, violated: for every `mu ≥ sigma` and every `mu < -sigma`, the single value returned by `modes` does not maximise the density. Proved part: C175, the part that holds: for `-sigma ≤ mu < sigma` the answer `[0]` is a mode of the law."
  },
  {
   "property": "C176",
   "status": "partial",
   "theorems": [
    "Rstat.C176_folded_shape_violated"
   ],
   "note": "The code does not have the full property; proved negation: C176, violated: the law has a skewness and a kurtosis, but all three methods panic for every parameter."
  },
  {
   "property": "C177",
   "status": "proved",
   "theorems": [
    "Rstat.C177_invNormal"
   ],
   "note": ""
  },
  {
   "property": "C178",
   "status": "partial",
   "theorems": [
    "Rstat.C178_invNormal_cdf_violated"
   ],
   "note": "The code does not have the full property; proved negation: C178, violated: at every `x > 0`, `cdf(x)` exceeds the probability of `(0, x]` (the second normal probability is taken at the wrong argument); for every `x ≥ mu` it exceeds 1 and is not a probability."
  },
  {
   "property": "C179",
   "status": "partial",
   "theorems": [
    "Rstat.C179_invNormal_kurtosis_violated"
   ],
   "note": "The code does not have the full property; proved negation: C179, violated: `excess_kurtosis` is `16 mu/lambda` where the law's is `15 mu/lambda`, so it and `kurtosis` are wrong for all parameters."
  },
  {
   "property": "C180",
   "status": "partial",
   "theorems": [
    "Rstat.C180_invNormal_entropy_violated"
   ],
   "note": "The code does not have the full property; proved negation: C180, violated: `shannon_entropy` is the entropy of the normal law with the same variance, strictly above the entropy of the inverse Gaussian law for all parameters."
  },
  {
   "property": "C181",
   "status": "proved",
   "theorems": [
    "Rstat.C181_invNormal_sample"
   ],
   "note": ""
  },
  {
   "property": "C182",
   "status": "partial",
   "theorems": [
    "Rstat.C182_invNormal_negative_violated"
   ],
   "note": "The code does not have the full property; proved negation: C182, violated: outside the support the density is 0, but `pdf(x)` is NaN for every `x < 0`."
  },
  {
   "property": "C183",
   "status": "partial",
   "theorems": [
    "Rstat.C183_multinomial_support_partial",
    "Rstat.C183_multinomial_support_violated"
   ],
   "note": "The code does not have the full property; proved negation: C183 is violated: for `n ≥ 1` the box `support` contains the zero vector, and (two or more categories) the vector `(n, …, n)`, which have no mass under any weights. Proved part: every point of positive mass lies in the box `support`"
  },
  {
   "property": "C184",
   "status": "partial",
   "theorems": [
    "Rstat.C184_multinomial_overflow_violated"
   ],
   "note": "The code does not have the full property; proved negation: C184 is violated: counts whose total does not fit a usize make `pmf` and `log_pmf` panic in a checked build; in a release build the total wraps, so a vector whose total is `n` modulo 2^64 is treated as one with total `n`."
  },
  {
   "property": "C185",
   "status": "partial",
   "theorems": [
    "Rstat.C185_dirichlet_pdf_off_simplex_violated"
   ],
   "note": "The code does not have the full property; proved negation: C185 is violated: `pdf` does not vanish off the simplex: it is positive at every vector of positive numbers, whatever their sum."
  },
  {
   "property": "C186",
   "status": "partial",
   "theorems": [
    "Rstat.C186_dirichlet_pdf_boundary_violated"
   ],
   "note": "The code does not have the full property; proved negation: C186 is violated: `pdf` is NaN as soon as some coordinate is negative, or is zero with concentration exactly 1"
  },
  {
   "property": "C187",
   "status": "partial",
   "theorems": [
    "Rstat.C187_dirichlet_modes_partial",
    "Rstat.C187_dirichlet_modes_violated",
    "Rstat.C187_dirichlet_uniform_modes_violated"
   ],
   "note": "The code does not have the full property; proved negation: C187 is violated: if some concentration is below 1 (and α₀ ≠ N), the density is unbounded on the simplex, so it has no mode, but `modes` still returns one point. | C187 is violated: for the uniform law (all concentrations 1) every point is a mode, but `modes` is a vector of NaNs. Proved part: when every concentration is at least 1 and not all are 1, `modes` is a single point of the simplex at which the density is largest."
  },
  {
   "property": "C188",
   "status": "proved",
   "theorems": [
    "Rstat.C188_mvlognormal_moments",
    "Rstat.C188_diag_lognormal_moments",
    "Rstat.C188_iso_lognormal_moments"
   ],
   "note": ""
  },
  {
   "property": "C189",
   "status": "partial",
   "theorems": [
    "Rstat.C189_mvlognormal_pdf_violated",
    "Rstat.C189_mvlognormal_pdf_partial",
    "Rstat.C189_diag_lognormal_pdf_violated",
    "Rstat.C189_diag_lognormal_pdf_partial",
    "Rstat.C189_iso_lognormal_pdf_violated"
   ],
   "note": "The code does not have the full property; proved negation: in every positive dimension and for every mean and covariance there is a point with positive coordinates at which `pdf` is not the density of the law. | in every positive dimension and for all parameters there is a point with positive coordinates at which `pdf` is not the density of the law. | C189 (violated, isotropic covariance) Proved part: for uncorrelated coordinates `pdf` is the Gaussian density at `ln x`, so it is the density of the law exactly where the product of the coordinates is 1. Missing: everywhere else, where the factor `1/∏x` is left out, and correlated coordinates. | the value is positive and finite wherever every coordinate is positive, and depends on the point only through the logarithms. Missing: the density itself."
  },
  {
   "property": "C190",
   "status": "partial",
   "theorems": [
    "Rstat.C190_mvlognormal_sample_exp",
    "Rstat.C190_mvlognormal_sample_law",
    "Rstat.C190_diag_lognormal_sample_violated",
    "Rstat.C190_diag_lognormal_sample_partial",
    "Rstat.C190_iso_lognormal_sample_violated",
    "Rstat.C190_iso_lognormal_sample_partial"
   ],
   "note": "The code does not have the full property; proved negation: unless every variance is 1, the samples do not have the law the moments describe | C190 (violated, isotropic covariance) Proved part: the samples have the law with every variance squared; right when all are 1 | C190 (partial, isotropic covariance)"
  },
  {
   "property": "C191",
   "status": "proved",
   "theorems": [
    "Rstat.C191_exponential_sample",
    "Rstat.C191_cauchy_sample",
    "Rstat.C191_weibull_sample",
    "Rstat.C191_triangular_sample",
    "Rstat.C191_uniform_sample"
   ],
   "note": ""
  },
  {
   "property": "C192",
   "status": "partial",
   "theorems": [
    "Rstat.C192_pareto_sample_partial",
    "Rstat.C192_pareto_sample_violated"
   ],
   "note": "The code does not have the full property; proved negation: every non-positive scale is accepted by the constructor, and then every call to `sample` panics. Proved part: a Pareto sample has the Pareto law of the given scale and shape when the scale is positive (for the rest see `C192_pareto_sample_violated`)."
  },
  {
   "property": "C193",
   "status": "partial",
   "theorems": [
    "Rstat.C193_gamma_sample_violated",
    "Rstat.C193_gamma_sample_partial"
   ],
   "note": "The code does not have the full property; proved negation: the rate `β` is handed over as a scale, so a Gamma sample has the Gamma law of rate `1/β`; this is the law of the distribution's own density only for `β = 1`. Proved part: with rate 1 a Gamma sample has the law of the distribution."
  },
  {
   "property": "C194",
   "status": "proved",
   "theorems": [
    "Rstat.C194_beta_sample",
    "Rstat.C194_chisq_sample",
    "Rstat.C194_fdist_sample"
   ],
   "note": ""
  },
  {
   "property": "C195",
   "status": "partial",
   "theorems": [
    "Rstat.C195_student_sample_partial",
    "Rstat.C195_student_sample_violated"
   ],
   "note": "The code does not have the full property; proved negation: the constructor accepts every non-positive number of degrees of freedom, and then every call to `sample` panics. Proved part: a Student sample has Student's law when the number of degrees of freedom is positive."
  },
  {
   "property": "C196",
   "status": "proved",
   "theorems": [
    "Rstat.C196_binomial_sample",
    "Rstat.C196_bernoulli_sample",
    "Rstat.C196_poisson_sample"
   ],
   "note": ""
  },
  {
   "property": "C197",
   "status": "proved",
   "theorems": [
    "Rstat.C197_kumaraswamy_sample",
    "Rstat.C197_laplace_sample"
   ],
   "note": ""
  },
  {
   "property": "C198",
   "status": "partial",
   "theorems": [
    "Rstat.C198_sample_unimplemented_violated",
    "Rstat.C198_sample_n_violated",
    "Rstat.C198_sample_n_partial"
   ],
   "note": "The code does not have the full property; proved negation: thirteen distributions have no sampler: whatever the parameters and the source, `sample` panics. | the multinomial has no sampler either, and `sample_n(n)` of every distribution without a sampler panics for n ≥ 1. Proved part: when the first `n` draws return, `sample_n(n)` returns exactly these draws, each taken from the state its predecessor left, and leaves the generator in the state after the last; a panic at draw `k < n` (none before) ends the call with that panic."
  },
  {
   "property": "C199",
   "status": "partial",
   "theorems": [
    "Rstat.C199_uniform_int_sample_partial",
    "Rstat.C199_uniform_int_sample_violated"
   ],
   "note": "The code does not have the full property; proved negation: for every lower bound and width whose upper end does not fit an i64, `sample` panics, in both build profiles, although the constructor returned a distribution. Proved part: a sample of the discrete uniform distribution is uniform on the integers from `lb` to `lb + width`, when those fit."
  },
  {
   "property": "C200",
   "status": "partial",
   "theorems": [
    "Rstat.C200_frechet_sample_violated"
   ],
   "note": "The code does not have the full property; proved negation: a Fréchet sample has the Weibull law of scale 1 and the given shape; it never has the Fréchet law."
  },
  {
   "property": "C201",
   "status": "partial",
   "theorems": [
    "Rstat.C201_geometric_sample_partial",
    "Rstat.C201_geometric_sample_violated"
   ],
   "note": "The code does not have the full property; proved negation: the constructor accepts success probability 0; then `pmf` is 0 everywhere while `sample` always returns a value, so for every source and every law of its state some value is drawn with positive probability although its mass is reported as 0. Proved part: a geometric sample has the geometric mass function (number of failures), for a positive success probability."
  },
  {
   "property": "C202",
   "status": "proved",
   "theorems": [
    "Rstat.C202_logistic",
    "Rstat.C202_gumbel",
    "Rstat.C202_weibull"
   ],
   "note": ""
  },
  {
   "property": "C203",
   "status": "partial",
   "theorems": [
    "Rstat.C203_exponential_partial",
    "Rstat.C203_pareto_partial",
    "Rstat.C203_kumaraswamy_partial",
    "Rstat.C203_frechet_partial",
    "Rstat.C203_frechet_violated",
    "Rstat.C203_exponential_violated",
    "Rstat.C203_pareto_violated",
    "Rstat.C203_kumaraswamy_violated"
   ],
   "note": "The code does not have the full property; proved negation: for an odd integer shape the Fréchet cdf at `-0.0` — an f64 that compares equal to the left end of the support — is `+inf`, while at `+0.0` it is 0 | the Exponential cdf at `-inf` is `-inf`, not a probability | the Pareto cdf below its minimum — at `0.0` — is `-inf`, and at `-inf` it is 1 | the Kumaraswamy cdf at `+inf` is an infinity Proved part: Exponential on `[0, +inf]` | Pareto on `[xm, +inf]`, for a positive minimum | Kumaraswamy on `[0, 1]` | Fréchet on `[+0.0, +inf]` — every f64 of the support except `-0.0`"
  },
  {
   "property": "C204",
   "status": "partial",
   "theorems": [
    "Rstat.C204_normal",
    "Rstat.C204_lognormal",
    "Rstat.C204_folded_normal",
    "Rstat.C204_beta",
    "Rstat.C204_chi",
    "Rstat.C204_levy_partial",
    "Rstat.C204_levy_violated"
   ],
   "note": "The code does not have the full property; proved negation: with location `+0.0` the Lévy cdf at `-0.0` evaluates the complementary error function at `-inf`, which is 2 Proved part: Lévy at every `x ≥ mu` with `x - mu` not `-0.0`, unless half the scale underflows"
  },
  {
   "property": "C205",
   "status": "partial",
   "theorems": [
    "Rstat.C205_arcsine_violated",
    "Rstat.C205_cauchy",
    "Rstat.C205_arcsine_partial"
   ],
   "note": "The code does not have the full property; proved negation: whenever the width recovered from the end points of the support, `(a + w) - a`, exceeds `w` by a few units in the last place (which happens for `w` small against `a`), the Arcsine cdf at the upper end of its own support is NaN. Proved part: Arcsine in binary64, on its support `[a, a + w]`, provided the width is recovered exactly from the end points."
  },
  {
   "property": "C206",
   "status": "partial",
   "theorems": [
    "Rstat.C206_uniform_tiny_violated",
    "Rstat.C206_uniform_partial",
    "Rstat.C206_uniform_wide_violated"
   ],
   "note": "The code does not have the full property; proved negation: when the reciprocal of the width overflows (widths below 2^-1024 in binary64) the Uniform cdf at the lower end of the support is `0 * inf`, NaN. | for widths above 2^1022 the reciprocal is subnormal and has lost precision: `Uniform::new(0, 7·2^1021)` has `cdf(x) > 1` at the largest f64 below its upper bound. Proved part: Uniform in binary64 — for every lower bound and every width between 2^-1022 and 2^1022 whose upper bound is finite, the cdf is a distribution function over all binary64 numbers: never NaN, never above 1, monotone."
  },
  {
   "property": "C207",
   "status": "partial",
   "theorems": [
    "Rstat.C207_rayleigh_partial",
    "Rstat.C207_rayleigh_violated",
    "Rstat.C207_triangular_wide_violated",
    "Rstat.C207_triangular_partial",
    "Rstat.C207_cosine_violated",
    "Rstat.C207_cosine_lower_end_violated",
    "Rstat.C207_triangular_rounding_violated"
   ],
   "note": "The code does not have the full property; proved negation: the Rayleigh cdf is symmetric: at `-inf` it is 1 | a triangular distribution whose left part is wide enough for `(c-a)^2` to overflow has `cdf(c) = +inf` | outside the support the raised cosine cdf is not clamped; at the infinities it is NaN | at the lower end `-s` of the support of the raised cosine distribution with `mu = 0` — for every scale — the cdf is negative, because `sin` of the rounded `π` is not zero. | `Triangular::new(0, 1.5 + 2^-52, 2^-60)` has `cdf(c) > 1`: the rounding errors of `(c-a)*(c-a)/(b-a)/(c-a)` add up. Proved part: Rayleigh on `[0, +inf]` (the formula is not that of the Rayleigh law, see C75, but it is a distribution function) | the triangular cdf, when the two half-widths and the width are computed as finite positive numbers: non-decreasing and non-negative up to the peak, non-decreasing and at most 1 beyond it, 0 up to `a` and 1 above `b`."
  },
  {
   "property": "C208",
   "status": "partial",
   "theorems": [
    "Rstat.C208_beta_prime_partial",
    "Rstat.C208_beta_prime_violated",
    "Rstat.C208_f_dist_partial",
    "Rstat.C208_f_dist_violated",
    "Rstat.C208_beta_prime_decreasing_violated"
   ],
   "note": "The code does not have the full property; proved negation: at `+inf` the beta prime cdf evaluates the incomplete beta function at NaN; so the result is NaN, not 1, if that routine propagates NaN. | wherever `d1 * x` overflows — at `+inf` and, for `d1 ≥ 2`, at large finite `x` — the F cdf evaluates the incomplete beta function at NaN; so the result is NaN, not (near) 1, if that routine propagates NaN. | the beta prime cdf decreases: with `alpha = beta = 1`, `cdf(2^53) = 1` but `cdf(2^53 + 2) < 1` Proved part: the beta prime cdf is a valid probability at every finite f64 `x ≥ 0`, and 0 at 0 | the F cdf is a valid probability at every `x ≥ 0` for which `d1 * x` does not overflow, and 0 at 0"
  },
  {
   "property": "C209",
   "status": "partial",
   "theorems": [
    "Rstat.C209_gpd_partial",
    "Rstat.C209_gpd_violated",
    "Rstat.C209_gev_small_partial",
    "Rstat.C209_gev_partial",
    "Rstat.C209_gev_violated"
   ],
   "note": "The code does not have the full property; proved negation: the generalised Pareto cdf at `-inf` — its reported support is the whole line — is 1 | below the support of a generalised extreme value law with shape `≥ 1e-7` — at `-inf` — the cdf is 1, not 0; `support()` is the whole line. Proved part: generalised Pareto on `[mu, +inf]`, when `-1/zeta` does not underflow to zero | generalised extreme value with a shape below the code's `1e-7` threshold: the Gumbel branch, the whole line | generalised extreme value with a shape of at least `1e-7`, where the computed `1 + zeta*(x-mu)/sigma` is positive (inside the support of the law): valid, non-decreasing, and 1 at `+inf`. Missing from a full `FloatCDF`: see `C209_gev_violated`."
  },
  {
   "property": "C210",
   "status": "proved",
   "theorems": [
    "Rstat.C210_exponential",
    "Rstat.C210_uniform",
    "Rstat.C210_laplace",
    "Rstat.C210_normal",
    "Rstat.C210_lognormal",
    "Rstat.C210_folded_normal",
    "Rstat.C210_gpd"
   ],
   "note": ""
  },
  {
   "property": "C211",
   "status": "partial",
   "theorems": [
    "Rstat.C211_cauchy_partial",
    "Rstat.C211_cauchy_violated",
    "Rstat.C211_logistic_partial",
    "Rstat.C211_logistic_violated",
    "Rstat.C211_gumbel_partial",
    "Rstat.C211_gumbel_violated",
    "Rstat.C211_rayleigh_violated",
    "Rstat.C211_frechet_violated",
    "Rstat.C211_weibull_violated",
    "Rstat.C211_gamma_violated",
    "Rstat.C211_chi_sq_violated",
    "Rstat.C211_chi_violated",
    "Rstat.C211_levy_violated",
    "Rstat.C211_inv_gamma_violated",
    "Rstat.C211_f_dist_violated",
    "Rstat.C211_inv_normal_violated"
   ],
   "note": "The code does not have the full property; proved negation: when `1/(π γ)` overflows (a subnormal scale) the Cauchy density is NaN at the infinities | wherever `exp(-z)` overflows, e.g. for every `x` with `z ≤ -710` and at `-inf`, the Logistic density is NaN | the Gumbel density at `-inf` is NaN (`inf - inf`) | the Rayleigh density at `+inf` is NaN (`inf * 0`) when `sigma²` is a positive finite number | the Frechet density at 0, a point of the closed half line returned by `support()`, is NaN (`inf * 0`) | the Weibull density at `+inf` is NaN for every shape above 1 | the Gamma density at `+inf` is NaN for every shape above 1, whatever the rate | the Chi-squared density at `+inf` is NaN for more than two degrees of freedom | the Chi density at `+inf` is NaN for more than one degree of freedom | the Lévy density at `mu`, the closed end of the support, is NaN (`0 / 0`) | the inverse-gamma density at 0, the limit point of its support, is NaN (`inf * 0`) | the F density at 0, the closed end of its support, is NaN (`0 / 0`), whatever the degrees of freedom for which the beta function does not overflow | the inverse-normal density at 0, the closed end of its support, is NaN (`inf * 0`), unless the intermediate quotients underflow Proved part: Cauchy, when `1/(π γ)` does not overflow | Logistic, wherever `1 + exp(-z)` does not overflow | Gumbel, wherever `z = (x-mu)/beta` does not overflow to `-inf`"
  },
  {
   "property": "C212",
   "status": "proved",
   "theorems": [
    "Rstat.C212_exponential",
    "Rstat.C212_cauchy",
    "Rstat.C212_weibull",
    "Rstat.C212_triangular",
    "Rstat.C212_uniform",
    "Rstat.C212_beta",
    "Rstat.C212_chisq",
    "Rstat.C212_fdist",
    "Rstat.C212_binomial",
    "Rstat.C212_bernoulli",
    "Rstat.C212_poisson",
    "Rstat.C212_kumaraswamy",
    "Rstat.C212_laplace",
    "Rstat.C212_degenerate"
   ],
   "note": ""
  },
  {
   "property": "C213",
   "status": "partial",
   "theorems": [
    "Rstat.C213_pareto_partial",
    "Rstat.C213_gamma_partial",
    "Rstat.C213_student_partial",
    "Rstat.C213_geometric_partial",
    "Rstat.C213_uniform_int_partial",
    "Rstat.C213_gamma_violated",
    "Rstat.C213_frechet_partial",
    "Rstat.C213_frechet_violated",
    "Rstat.C213_pareto_violated",
    "Rstat.C213_student_violated",
    "Rstat.C213_uniform_int_violated"
   ],
   "note": "The code does not have the full property; proved negation: for every rate `β` other than 1 and every source that behaves as documented, successive Gamma samples do not have the Gamma law of shape `α` and rate `β` | for no shape and no source that behaves as documented do successive Fréchet samples have the Fréchet law | a Pareto distribution with a scale that is not positive is accepted and never gives a sample | a Student distribution whose number of degrees of freedom is not positive is accepted and never gives a sample | a discrete uniform distribution whose upper end does not fit never gives a sample Proved part: Pareto, for a positive scale (the constructor accepts others, see C192) | Gamma: successive samples are independent, with the Gamma law of rate `1/β` (see C193) | Student, for a positive number of degrees of freedom (the constructor accepts others, see C195) | geometric, for a positive success probability (the constructor accepts 0, see C201) | discrete uniform, when the upper end fits (see C199) | successive samples are independent, with the Weibull law of scale 1 and the given shape (see C200)"
  },
  {
   "property": "C214",
   "status": "proved",
   "theorems": [
    "Rstat.C214_normal",
    "Rstat.C214_folded_normal",
    "Rstat.C214_inverse_normal"
   ],
   "note": ""
  },
  {
   "property": "C215",
   "status": "partial",
   "theorems": [
    "Rstat.C215_multivariate_normal",
    "Rstat.C215_bivariate_normal",
    "Rstat.C215_paired_normal",
    "Rstat.C215_diagonal_normal_partial",
    "Rstat.C215_isotropic_normal_partial",
    "Rstat.C215_multivariate_lognormal",
    "Rstat.C215_diagonal_lognormal_partial",
    "Rstat.C215_isotropic_lognormal_partial",
    "Rstat.C215_diagonal_violated",
    "Rstat.C215_isotropic_violated"
   ],
   "note": "The code does not have the full property; proved negation: unless every variance is 1, successive samples do not have the Gaussian law of the given mean and covariance, nor their exponentials the log-Gaussian one | unless the variance is 1 Proved part: successive samples are independent and Gaussian, but with every variance squared (see C51). | successive samples are independent and Gaussian, but with the variance squared (see C51). | the log-normal with diagonal covariance, with every variance squared (see C190) | the log-normal with isotropic covariance, with the variance squared (see C190)"
  },
  {
   "property": "C216",
   "status": "proved",
   "theorems": [
    "Rstat.C216_categorical",
    "Rstat.C216_mixture"
   ],
   "note": ""
  },
  {
   "property": "C217",
   "status": "partial",
   "theorems": [
    "Rstat.C217_lognormal_partial",
    "Rstat.C217_dirichlet_partial",
    "Rstat.C217_lognormal_violated",
    "Rstat.C217_dirichlet_violated"
   ],
   "note": "The code does not have the full property; proved negation: for no parameters and no source of standard normal variates do successive log-normal samples have the log-normal law that `cdf` describes | for no concentrations and no source of Gamma variates do successive Dirichlet samples have the Dirichlet law Proved part: successive log-normal samples are independent and log-normal, but with the distribution's own mean and standard deviation in the place of the parameters of the logarithm (see C171). | successive Dirichlet samples are independent, each the vector of independent Gamma variates divided by the sum of the parameters (not of the variates, so it is not the Dirichlet law, see C101)."
  },
  {
   "property": "C218",
   "status": "partial",
   "theorems": [
    "Rstat.C218_arcsine_unchecked",
    "Rstat.C218_cauchy_unchecked",
    "Rstat.C218_cosine_unchecked",
    "Rstat.C218_gumbel_unchecked",
    "Rstat.C218_laplace_unchecked",
    "Rstat.C218_logistic_unchecked",
    "Rstat.C218_pareto_unchecked",
    "Rstat.C218_levy_unchecked",
    "Rstat.C218_folded_normal_unchecked",
    "Rstat.C218_uniform_unchecked",
    "Rstat.C218_normal_unchecked",
    "Rstat.C218_lognormal_unchecked",
    "Rstat.C218_inverse_normal_unchecked",
    "Rstat.C218_beta_unchecked",
    "Rstat.C218_beta_prime_unchecked",
    "Rstat.C218_gamma_unchecked",
    "Rstat.C218_inverse_gamma_unchecked",
    "Rstat.C218_erlang_unchecked",
    "Rstat.C218_f_dist_unchecked",
    "Rstat.C218_gev_unchecked",
    "Rstat.C218_gpd_unchecked",
    "Rstat.C218_triangular_unchecked",
    "Rstat.C218_beta_binomial_unchecked",
    "Rstat.C218_chi_unchecked",
    "Rstat.C218_chi_sq_unchecked",
    "Rstat.C218_exponential_unchecked",
    "Rstat.C218_frechet_unchecked",
    "Rstat.C218_poisson_unchecked",
    "Rstat.C218_rayleigh_unchecked",
    "Rstat.C218_student_t_unchecked",
    "Rstat.C218_bernoulli_unchecked",
    "Rstat.C218_geometric_unchecked",
    "Rstat.C218_binomial_unchecked",
    "Rstat.C218_bivariate_normal_unchecked",
    "Rstat.C218_paired_normal_unchecked",
    "Rstat.C218_multivariate_normal_unchecked",
    "Rstat.C218_categorical_unchecked",
    "Rstat.C218_dirichlet_unchecked_partial",
    "Rstat.C218_dirichlet_violated",
    "Rstat.C218_multinomial_unchecked",
    "Rstat.C218_mixture_unchecked",
    "Rstat.C218_uniform_discrete_unchecked"
   ],
   "note": "The code does not have the full property; proved negation: `new` refuses every non-empty vector of concentrations, valid or not, while `new_unchecked` builds the distribution: a Dirichlet distribution can only be built unchecked Proved part: what `new` returns is what `new_unchecked` builds. Missing: `new` accepts nothing (next theorem)."
  },
  {
   "property": "C219",
   "status": "proved",
   "theorems": [
    "Rstat.C219_defaults"
   ],
   "note": ""
  },
  {
   "property": "C220",
   "status": "partial",
   "theorems": [
    "Rstat.C220_gumbel_support",
    "Rstat.C220_cauchy_support",
    "Rstat.C220_logistic_support",
    "Rstat.C220_laplace_support",
    "Rstat.C220_normal_support",
    "Rstat.C220_student_support",
    "Rstat.C220_inverse_gamma_support",
    "Rstat.C220_weibull_support",
    "Rstat.C220_gamma_support",
    "Rstat.C220_beta_prime_support",
    "Rstat.C220_inverse_normal_support",
    "Rstat.C220_frechet_support",
    "Rstat.C220_rayleigh_support",
    "Rstat.C220_exponential_support",
    "Rstat.C220_chi_support",
    "Rstat.C220_chi_sq_support",
    "Rstat.C220_erlang_support",
    "Rstat.C220_f_support",
    "Rstat.C220_lognormal_support",
    "Rstat.C220_folded_normal_support",
    "Rstat.C220_levy_support",
    "Rstat.C220_pareto_support",
    "Rstat.C220_kumaraswamy_support",
    "Rstat.C220_beta_support",
    "Rstat.C220_arcsine_support",
    "Rstat.C220_cosine_support",
    "Rstat.C220_triangular_support",
    "Rstat.C220_uniform_support",
    "Rstat.C220_gpd_support_violated",
    "Rstat.C220_gev_support_violated",
    "Rstat.C220_degenerate_support_violated",
    "Rstat.C220_multivariate_normal_support",
    "Rstat.C220_paired_normal_support",
    "Rstat.C220_bivariate_normal_support_partial",
    "Rstat.C220_bivariate_normal_support_violated",
    "Rstat.C220_multivariate_lognormal_support",
    "Rstat.C220_dirichlet_support_violated",
    "Rstat.C220_uniform_int_support",
    "Rstat.C220_bernoulli_support_partial",
    "Rstat.C220_bernoulli_support_violated",
    "Rstat.C220_geometric_support_partial",
    "Rstat.C220_geometric_support_violated"
   ],
   "note": "The code does not have the full property; proved negation: C220 is violated by the generalised Pareto distribution, for all its parameters: `support()` is the whole line, the law has no mass below `mu` | C220 is violated by the generalised extreme value distribution, for all its parameters: `support()` is the whole line, the law has no mass below `mu - sigma/zeta` | C220 is violated by every degenerate distribution: its law is a point mass, `support()` is the whole line (all integers) | C220 is violated by the bivariate normal with correlation 1 or -1 (accepted by the constructor): its law lives on a line, `support()` is the plane | C220 is violated by every Dirichlet distribution of two or more categories: its law lives on the simplex, `support()` is the unit cube | C220 is violated by the Bernoulli distributions with p = 0 and p = 1: one of the two values is impossible | C220 is violated by the geometric distributions with p = 1 and p = 0: only 0 is possible, or nothing is Proved part: the bivariate normal with correlation strictly between -1 and 1, the plane | Bernoulli with 0 < p < 1 | geometric with 0 < p < 1, all the naturals"
  },
  {
   "property": "C221",
   "status": "proved",
   "theorems": [
    "Rstat.C221_sampler_size_hint",
    "Rstat.C221_n_categories",
    "Rstat.C221_n_components"
   ],
   "note": ""
  },
  {
   "property": "C222",
   "status": "partial",
   "theorems": [
    "Rstat.C222_arithmetic_violated",
    "Rstat.C222_power_violated",
    "Rstat.C222_special_violated",
    "Rstat.C222_laplace_pdf_violated",
    "Rstat.C222_cdf_nan_partial"
   ],
   "note": "The code does not have the full property; proved negation: whatever the arithmetic and whatever the parameters, `cdf(NaN)` is not a valid probability | the same for the power-law distributions and every accepted parameter; for the generalised Pareto law unless `-1/ζ` is a zero | the distributions computed with `norm`, `erf`, `erfc`, `gammainc` and `betainc` | the Laplace density panics at NaN Proved part: the Weibull, triangular and degenerate laws, which compare before they compute, return a valid probability at NaN"
  },
  {
   "property": "C223",
   "status": "partial",
   "theorems": [
    "Rstat.C223_arithmetic_violated",
    "Rstat.C223_special_violated",
    "Rstat.C223_comparing_violated",
    "Rstat.C223_refused_partial"
   ],
   "note": "The code does not have the full property; proved negation: a NaN location (and, for Student's law, a NaN number of degrees of freedom; for Pareto's law, a NaN scale) is accepted, and no value of the `cdf` of the distribution so constructed is a valid probability | the same for the generalised laws, and, when the special functions propagate NaN, for the normal family. (The normal `cdf` answers 0 and 1 at the infinities before it looks at the parameters.) | the triangular and degenerate laws accept a NaN location too, and then report that all mass lies at or below every argument, negative infinity included Proved part: scales, shapes, rates and probabilities are never NaN in an accepted distribution"
  },
  {
   "property": "C224",
   "status": "partial",
   "theorems": [
    "Rstat.C224_everywhere_violated",
    "Rstat.C224_ends_violated",
    "Rstat.C224_normal_partial"
   ],
   "note": "The code does not have the full property; proved negation: a Rayleigh distribution with infinite scale and a Pareto distribution with infinite scale (and any accepted shape) are constructed, and no value of their `cdf` is a valid probability | an infinite rate, scale or location is accepted, and the `cdf` is not a valid probability at an end of the support: 0 for the exponential law, positive infinity for the others Proved part: the normal law with infinite variance and finite mean answers with a valid probability at the infinities and wherever the difference between the argument and the mean does not overflow"
  },
  {
   "property": "C225",
   "status": "proved",
   "theorems": [
    "Rstat.C225_round_trip",
    "Rstat.C225_field_order",
    "Rstat.C225_exactly_once",
    "Rstat.C225_numbers",
    "Rstat.C225_positional",
    "Rstat.C225_in_range",
    "Rstat.C225_arcsine",
    "Rstat.C225_cauchy",
    "Rstat.C225_cosine",
    "Rstat.C225_exponential",
    "Rstat.C225_frechet",
    "Rstat.C225_gev",
    "Rstat.C225_gpd",
    "Rstat.C225_gumbel",
    "Rstat.C225_kumaraswamy",
    "Rstat.C225_laplace",
    "Rstat.C225_logistic",
    "Rstat.C225_pareto",
    "Rstat.C225_rayleigh",
    "Rstat.C225_triangular",
    "Rstat.C225_weibull",
    "Rstat.C225_poisson",
    "Rstat.C225_gamma",
    "Rstat.C225_inverse_gamma",
    "Rstat.C225_beta",
    "Rstat.C225_beta_prime",
    "Rstat.C225_student_t",
    "Rstat.C225_levy",
    "Rstat.C225_folded_normal",
    "Rstat.C225_chi_sq",
    "Rstat.C225_chi",
    "Rstat.C225_erlang",
    "Rstat.C225_f_dist",
    "Rstat.C225_uniform",
    "Rstat.C225_normal",
    "Rstat.C225_lognormal",
    "Rstat.C225_inverse_normal",
    "Rstat.C225_beta_binomial",
    "Rstat.C225_bernoulli",
    "Rstat.C225_binomial",
    "Rstat.C225_geometric",
    "Rstat.C225_probability",
    "Rstat.C225_corr",
    "Rstat.C225_simplex",
    "Rstat.C225_simplex_short",
    "Rstat.C225_dirichlet",
    "Rstat.C225_degenerate",
    "Rstat.C225_uniform_discrete",
    "Rstat.C225_categorical",
    "Rstat.C225_multinomial",
    "Rstat.C225_bivariate_normal",
    "Rstat.C225_paired_normal",
    "Rstat.C225_multivariate_normal",
    "Rstat.C225_diagonal_normal",
    "Rstat.C225_isotropic_normal",
    "Rstat.C225_normal_gradient",
    "Rstat.C225_mixture"
   ],
   "note": ""
  },
  {
   "property": "C226",
   "status": "partial",
   "theorems": [
    "Rstat.C226_arcsine_violated",
    "Rstat.C226_arcsine_partial",
    "Rstat.C226_cauchy_violated",
    "Rstat.C226_cauchy_partial",
    "Rstat.C226_cosine_violated",
    "Rstat.C226_cosine_partial",
    "Rstat.C226_exponential_violated",
    "Rstat.C226_exponential_partial",
    "Rstat.C226_frechet_violated",
    "Rstat.C226_frechet_partial",
    "Rstat.C226_gev_violated",
    "Rstat.C226_gev_partial",
    "Rstat.C226_gpd_violated",
    "Rstat.C226_gpd_partial",
    "Rstat.C226_gumbel_violated",
    "Rstat.C226_gumbel_partial",
    "Rstat.C226_kumaraswamy_violated",
    "Rstat.C226_kumaraswamy_partial",
    "Rstat.C226_laplace_violated",
    "Rstat.C226_laplace_partial",
    "Rstat.C226_logistic_violated",
    "Rstat.C226_logistic_partial",
    "Rstat.C226_pareto_violated",
    "Rstat.C226_pareto_partial",
    "Rstat.C226_rayleigh_violated",
    "Rstat.C226_rayleigh_partial",
    "Rstat.C226_triangular_violated",
    "Rstat.C226_triangular_partial",
    "Rstat.C226_weibull_violated",
    "Rstat.C226_weibull_partial",
    "Rstat.C226_poisson_violated",
    "Rstat.C226_poisson_partial",
    "Rstat.C226_gamma_violated",
    "Rstat.C226_gamma_partial",
    "Rstat.C226_inverse_gamma_violated",
    "Rstat.C226_inverse_gamma_partial",
    "Rstat.C226_beta_violated",
    "Rstat.C226_beta_partial",
    "Rstat.C226_beta_prime_violated",
    "Rstat.C226_beta_prime_partial",
    "Rstat.C226_student_t_unconstrained",
    "Rstat.C226_levy_violated",
    "Rstat.C226_levy_partial",
    "Rstat.C226_folded_normal_violated",
    "Rstat.C226_folded_normal_partial",
    "Rstat.C226_chi_sq_violated",
    "Rstat.C226_chi_sq_partial",
    "Rstat.C226_chi_violated",
    "Rstat.C226_chi_partial",
    "Rstat.C226_erlang_violated",
    "Rstat.C226_erlang_partial",
    "Rstat.C226_f_dist_violated",
    "Rstat.C226_f_dist_partial",
    "Rstat.C226_uniform_violated",
    "Rstat.C226_uniform_partial",
    "Rstat.C226_normal_violated",
    "Rstat.C226_normal_partial",
    "Rstat.C226_lognormal_violated",
    "Rstat.C226_lognormal_partial",
    "Rstat.C226_inverse_normal_violated",
    "Rstat.C226_inverse_normal_partial",
    "Rstat.C226_beta_binomial_violated",
    "Rstat.C226_beta_binomial_partial",
    "Rstat.C226_bernoulli_violated",
    "Rstat.C226_bernoulli_partial",
    "Rstat.C226_binomial_violated",
    "Rstat.C226_binomial_partial",
    "Rstat.C226_geometric_violated",
    "Rstat.C226_geometric_partial",
    "Rstat.C226_probability_violated",
    "Rstat.C226_corr_violated",
    "Rstat.C226_simplex_violated",
    "Rstat.C226_simplex_partial",
    "Rstat.C226_categorical_violated",
    "Rstat.C226_dirichlet_violated",
    "Rstat.C226_multinomial_violated",
    "Rstat.C226_bivariate_normal_violated",
    "Rstat.C226_paired_normal_violated",
    "Rstat.C226_multivariate_normal_violated",
    "Rstat.C226_diagonal_normal_violated",
    "Rstat.C226_isotropic_normal_violated",
    "Rstat.C226_uniform_discrete_violated",
    "Rstat.C226_mixture_violated"
   ],
   "note": "The code does not have the full property; proved negation: arcsine: every refused argument is read | cauchy: every refused argument is read | cosine: every refused argument is read | exponential: every refused argument is read | frechet: every refused argument is read | gev: every refused argument is read | gpd: every refused argument is read | gumbel: every refused argument is read | kumaraswamy: every refused argument is read | laplace: every refused argument is read | logistic: every refused argument is read | pareto: every refused argument is read | rayleigh: every refused argument is read | triangular: every refused argument is read | weibull: every refused argument is read | poisson: every refused argument is read | gamma: every refused argument is read | inverse_gamma: every refused argument is read | beta: every refused argument is read | beta_prime: every refused argument is read | levy: every refused argument is read | folded_normal: every refused argument is read | chi_sq: every refused argument is read | chi: every refused argument is read | erlang: every refused argument is read | f_dist: every refused argument is read | uniform: every refused argument is read | normal: every refused argument is read | lognormal: every refused argument is read | inverse_normal: every refused argument is read | beta_binomial: every refused argument is read | bernoulli: every refused argument is read | binomial: every refused argument is read | geometric: every refused argument is read | every number, in particular every invalid one, is read as a probability | a correlation is read unchecked | any vector at all is read as a simplex vector | categorical over any vector, including those `Categorical::new` refuses | Dirichlet distributions, none of which (for N > 0) its constructor returns, are read from data | multinomial | bivariate normal | paired normal | multivariate normal | normal with a diagonal covariance | isotropic normal | discrete uniform: reading never fails on a pair of i64 values, but turning the largest width into a distribution panics in a build with overflow checks | a mixture whose data holds fewer component parameters than weights is read, and turning it into a mixture is undefined behaviour; with more component parameters than weights it panics Proved part: arcsine: accepted arguments give the constructor's result | cauchy: accepted arguments give the constructor's result | cosine: accepted arguments give the constructor's result | exponential: accepted arguments give the constructor's result | frechet: accepted arguments give the constructor's result | gev: accepted arguments give the constructor's result | gpd: accepted arguments give the constructor's result | gumbel: accepted arguments give the constructor's result | kumaraswamy: accepted arguments give the constructor's result | laplace: accepted arguments give the constructor's result | logistic: accepted arguments give the constructor's result | pareto: accepted arguments give the constructor's result | rayleigh: accepted arguments give the constructor's result | triangular: accepted arguments give the constructor's result | weibull: accepted arguments give the constructor's result | poisson: accepted arguments give the constructor's result | gamma: accepted arguments give the constructor's result | inverse_gamma: accepted arguments give the constructor's result | beta: accepted arguments give the constructor's result | beta_prime: accepted arguments give the constructor's result | levy: accepted arguments give the constructor's result | folded_normal: accepted arguments give the constructor's result | chi_sq: accepted arguments give the constructor's result | chi: accepted arguments give the constructor's result | erlang: accepted arguments give the constructor's result | f_dist: accepted arguments give the constructor's result | uniform: accepted arguments give the constructor's result | normal: accepted arguments give the constructor's result | lognormal: accepted arguments give the constructor's result | inverse_normal: accepted arguments give the constructor's result | beta_binomial: accepted arguments give the constructor's result | bernoulli: accepted arguments give the constructor's result | binomial: accepted arguments give the constructor's result | geometric: accepted arguments give the constructor's result | vectors accepted by `SimplexVector::new` are read as what it returns"
  },
  {
   "property": "C227",
   "status": "partial",
   "theorems": [
    "Rstat.C227_quantiles_violated",
    "Rstat.C227_quantiles_partial",
    "Rstat.C227_derived_partial"
   ],
   "note": "The code does not have the full property; proved negation: for twenty-five of the thirty distributions that implement `Quantiles`, the quantile function, its complement, the quartiles, the interquartile range and the fences panic for every distribution and every probability. Proved part: the other five return. Missing: the twenty-five of `C227_quantiles_violated`. | where `quantile` answers, so do the methods derived from it, with the values the documentation gives: `cquantile(p)` is the quantile at `1 - p`, the quartiles are those at 1/4 and 3/4, the range is their difference and the fences lie 3/2 ranges beyond them; where `quantile` panics at `1 - p`, `cquantile(p)` panics in the same way."
  },
  {
   "property": "C228",
   "status": "partial",
   "theorems": [
    "Rstat.C228_cdf_violated",
    "Rstat.C228_cdf_derived_partial"
   ],
   "note": "The code does not have the full property; proved negation: the distribution function of the Poisson law and of every multivariate law panics, for every distribution and argument, and with it `ccdf`, `log_cdf` and `log_ccdf`. Proved part: where `cdf` returns, so do the three derived methods, with the complement and the logarithms. Missing: the laws of `C228_cdf_violated`, and the Beta-binomial below n (C150)."
  },
  {
   "property": "C229",
   "status": "partial",
   "theorems": [
    "Rstat.C229_higher_moments_violated",
    "Rstat.C229_point_mass_partial"
   ],
   "note": "The code does not have the full property; proved negation: skewness and kurtosis of mixtures, skewness, kurtosis and excess kurtosis of folded normal laws and kurtosis and excess kurtosis of Kumaraswamy laws panic, whatever the parameters. (Lévy and point masses have no such moments; there the panic is documented.) Proved part: a point mass has mean k, variance 0 and skewness 0, and its undefined kurtosis is refused, for f64 and i64"
  },
  {
   "property": "C230",
   "status": "partial",
   "theorems": [
    "Rstat.C230_declared_params",
    "Rstat.C230_probability",
    "Rstat.C230_diagonal_covariance",
    "Rstat.C230_isotropic_covariance",
    "Rstat.C230_concentrations",
    "Rstat.C230_values_given_back_partial",
    "Rstat.C230_constraints_violated"
   ],
   "note": "The code does not have the full property; proved negation: a dense covariance advertises constraints that refuse exactly the accepted matrices with a zero entry (in every dimension n ≥ 1 there is one); the constraints of simplex vectors and bivariate covariances cannot be listed at all, whatever the constructor. Proved part: for the types whose `constraints()` is wrong or missing, `value()` and `into_value()` still give back what was passed. Missing: `constraints()` of dense and bivariate covariances and of simplex vectors (next theorem)."
  },
  {
   "property": "C231",
   "status": "proved",
   "theorems": [
    "Rstat.C231_lognormal_constructors",
    "Rstat.C231_lognormal_standard",
    "Rstat.C231_lognormal_params"
   ],
   "note": ""
  },
  {
   "property": "C232",
   "status": "proved",
   "theorems": [
    "Rstat.C232_text_identifies_distribution",
    "Rstat.C232_text_lists_parameters",
    "Rstat.C232_text_identifies_vector_distribution"
   ],
   "note": ""
  },
  {
   "property": "C233",
   "status": "partial",
   "theorems": [
    "Rstat.C233_text_identifies_derived_partial",
    "Rstat.C233_text_loses_parameters_violated"
   ],
   "note": "The code does not have the full property; proved negation: parameters lost in the text, in binary64. All uniform laws, and all arcsine laws, starting at `2^53` with a width below 1 print the same text, an interval of length zero; so do all triangular laws there. All log-normal laws with the same nonnegative location and a scale of at least `2^600` print the same text, and among any three folded normal laws with location 0 and such a scale two do. The text of a discrete uniform law whose upper end leaves i64 cannot be produced at all in a debug build. Proved part: where a text shows quantities computed from the parameters, it identifies those quantities: the end points of the support of an arcsine or uniform law, the end points and the peak of a triangular law, location and variance of the log-normal and folded normal laws, and, when the interval fits in i64, both parameters of the discrete uniform law, and mean vector and covariance matrix of the bivariate normal law. Missing: the parameters themselves, see `C233_text_loses_parameters_violated`."
  },
  {
   "property": "C234",
   "status": "proved",
   "theorems": [
    "Rstat.C234_constraint_text",
    "Rstat.C234_error_message",
    "Rstat.C234_probability_error_messages"
   ],
   "note": ""
  },
  {
   "property": "C235",
   "status": "partial",
   "theorems": [
    "Rstat.C235_float_variance_locscale_partial",
    "Rstat.C235_float_variance_shape_partial",
    "Rstat.C235_float_variance_discrete_partial",
    "Rstat.C235_float_variance_threshold_partial",
    "Rstat.C235_float_variance_violated"
   ],
   "note": "The code does not have the full property; proved negation: accepted finite parameters for which `variance()` is NaN or negative, family by family. Proved part: `variance()` is a non-negative number, never NaN (`0 ≤ v` excludes NaN). Missing: the families of `C235_float_variance_violated`. | as above. | as above. | as above, whenever a value is returned."
  },
  {
   "property": "C236",
   "status": "partial",
   "theorems": [
    "Rstat.C236_float_mean_positive_partial",
    "Rstat.C236_float_mean_bounded_partial",
    "Rstat.C236_float_mean_threshold_partial",
    "Rstat.C236_float_median_mode_partial",
    "Rstat.C236_float_location_violated"
   ],
   "note": "The code does not have the full property; proved negation: an arcsine distribution starting at 2^1023 or above has mean `+inf` although its upper end may be finite; the mean of a chi law with 400 or more degrees of freedom is NaN; a geometric distribution accepted with `p = -0.0` has mean `-inf`, with `p = 1` it has median `-1`; a Beta mode above 1; a Pareto mean below the left end of the support. Proved part: `mean()` is a non-negative number or `+inf`, never NaN. | the mean of a uniform distribution lies between its ends, that of a Beta in `[0, 1]`, that of a binomial in `[0, n]`; the median of the uniform is its mean. | a returned mean is a non-negative number or `+inf`. | non-negative on the positive half-line, in `[0, 1]` for Kumaraswamy, between the ends for Triangular."
  },
  {
   "property": "C237",
   "status": "proved",
   "theorems": [
    "Rstat.C237_exponential_gamma",
    "Rstat.C237_exponential_erlang",
    "Rstat.C237_exponential_weibull",
    "Rstat.C237_exponential_chisq"
   ],
   "note": ""
  },
  {
   "property": "C238",
   "status": "partial",
   "theorems": [
    "Rstat.C238_rayleigh_weibull_partial",
    "Rstat.C238_rayleigh_weibull_cdf_violated",
    "Rstat.C238_rayleigh_chi_partial"
   ],
   "note": "The code does not have the full property; proved negation: the cdfs of `Rayleigh(σ)` and `Weibull(σ√2, 2)` agree exactly when σ = 1. Proved part: `Rayleigh(σ)` and `Weibull(σ√2, 2)`: pdf on (0, ∞), mean, variance, skewness, median, entropy; the cdfs agree exactly when σ = 1 (C75: Rayleigh's cdf ignores σ). | `Chi(2)` and `Rayleigh(1)`: cdf and pdf on (0, ∞), mean, variance, skewness."
  },
  {
   "property": "C239",
   "status": "partial",
   "theorems": [
    "Rstat.C239_beta_kumaraswamy_partial",
    "Rstat.C239_beta_uniform",
    "Rstat.C239_beta_arcsine",
    "Rstat.C239_beta_kumaraswamy_modes_violated"
   ],
   "note": "The code does not have the full property; proved negation: for every α > 1 the modes of `Beta(α, 1)` and `Kumaraswamy(α, 1)`, which are the same law, differ: none against one. Proved part: `Beta(α, β)` and `Kumaraswamy(α, β)` coincide when a shape is 1: cdf on [0, 1], pdf on (0, 1), mean, variance, skewness, entropy, and (the shapes being equal or at least 1e-7 apart) median."
  },
  {
   "property": "C240",
   "status": "partial",
   "theorems": [
    "Rstat.C240_pareto_gpd_partial",
    "Rstat.C240_pareto_gpd_mean_violated",
    "Rstat.C240_frechet_gev",
    "Rstat.C240_student_cauchy_partial",
    "Rstat.C240_student_cauchy_cdf_violated"
   ],
   "note": "The code does not have the full property; proved negation: wherever the Pareto mean is finite (α > 1) the mean of the generalised Pareto law with the same distribution is refused: `mean()` panics. | the cdfs of `StudentT(1)` and `Cauchy(0, 1)` agree at 0 and nowhere else. Proved part: `Pareto(x_m, α)` and `GPD(x_m, x_m/α, 1/α)`: cdf and pdf on [x_m, ∞), median, entropy. (Mean and variance: GPD's are refused or wrong, C80.) | `StudentT(1)` and `Cauchy(0, 1)`: pdf everywhere, median, mode."
  },
  {
   "property": "C241",
   "status": "partial",
   "theorems": [
    "Rstat.C241_lognormal_normal",
    "Rstat.C241_betaprime_beta",
    "Rstat.C241_f_beta",
    "Rstat.C241_frechet_weibull",
    "Rstat.C241_frechet_gumbel",
    "Rstat.C241_weibull_gumbel",
    "Rstat.C241_pareto_exponential",
    "Rstat.C241_folded_normal",
    "Rstat.C241_levy_inverse_gamma_partial",
    "Rstat.C241_inverse_gamma_gamma_violated"
   ],
   "note": "The code does not have the full property; proved negation: if `X` is Gamma then `1/X` is inverse-Gamma, so `InvGamma(α, β).cdf(x) + Gamma(α, β).cdf(1/x)` should be 1; the two methods return the same number instead, at every point. Proved part: `Levy(0, c)` is `InvGamma(1/2, c/2)`: their densities agree on (0, ∞) and so do their entropies."
  },
  {
   "property": "C242",
   "status": "partial",
   "theorems": [
    "Rstat.C242_binomial_bernoulli_partial",
    "Rstat.C242_binomial_bernoulli_cdf_violated",
    "Rstat.C242_beta_binomial_uniform",
    "Rstat.C242_categorical_bernoulli",
    "Rstat.C242_multinomial_binomial"
   ],
   "note": "The code does not have the full property; proved negation: C242, violated: at 0 (`false`) the two distribution functions differ for every p < 1: Binomial's is the mass at 0, Bernoulli's is 0. Proved part: `Binomial(1, p)` and `Bernoulli(p)` have the same mass function, mean and variance, and (0 < p < 1) the same skewness, kurtosis, excess kurtosis and Fisher information."
  },
  {
   "property": "C243",
   "status": "partial",
   "theorems": [
    "Rstat.C243_isotropic_diagonal",
    "Rstat.C243_diagonal_dense_partial",
    "Rstat.C243_diagonal_dense_pdf_violated",
    "Rstat.C243_diagonal_dense_sample_violated",
    "Rstat.C243_bivariate_paired",
    "Rstat.C243_bivariate_dense_partial",
    "Rstat.C243_bivariate_dense_violated",
    "Rstat.C243_dense_univariate"
   ],
   "note": "The code does not have the full property; proved negation: C243, violated: in every dimension, for every mean and every variances, there is a point where the densities of `DiagonalNormal(μ, v)` and of the dense `MvNormal(μ, diag v)` differ, the diagonal one being the greater. | C243, violated: for the same draws, coordinate `i` of the samples of `DiagonalNormal(μ, v)` and of the dense `MvNormal(μ, diag v)` agree only if the variance is 1 or the draw is 0. | C243, violated: for a negative correlation the dense constructor refuses the covariance matrix of the bivariate normal; for the others the two entropies differ, the bivariate one being the greater. Proved part: `DiagonalNormal(μ, v)` and the dense `MvNormal(μ, diag v)`: mean, modes, variance, covariance and entropy agree. | `BvNormal(μ, S, ρ)`, |ρ| < 1, and the dense `MvNormal` with the covariance matrix it reports: mean, modes, variance and covariance agree, and the same draws give the same sample."
  },
  {
   "property": "C244",
   "status": "partial",
   "theorems": [
    "Rstat.C244_permute_partial",
    "Rstat.C244_identical_partial",
    "Rstat.C244_zero_weight_partial",
    "Rstat.C244_zero_weight_violated"
   ],
   "note": "The code does not have the full property; proved negation: C244, violated: a component of weight 0 whose mean is infinite (Lévy, Pareto with α ≤ 1, Fréchet with α ≤ 1) makes the mean and the variance of the mixture NaN, wherever it stands and whatever the other components, in every floating-point arithmetic. Proved part: reordering the weighted components changes nothing: cdf, pdf, mean and variance are the same. | a mixture all of whose components are the same distribution `c`, with weights summing to 1, returns the numbers `c` returns. | a component of weight 0 changes nothing, wherever it stands, if its methods return real numbers."
  },
  {
   "property": "C245",
   "status": "partial",
   "theorems": [
    "Rstat.C245_fields_partial",
    "Rstat.C245_stale_support_violated"
   ],
   "note": "The code does not have the full property; proved negation: C245, violated: `support` is computed once. Whatever is assigned later, the reported support stays the hull of the supports of the *original* components; so as soon as a present component has a support that is not inside it, the reported support is not the hull of the present ones, and it differs from the support of the mixture built from the present fields. In every arithmetic. Proved part: C245, the part that holds: for every mixture built by `new`, every history of assignments to `weights` and `components`, and every arithmetic, building a mixture from the present fields succeeds and gives one with the same `weights`, `components`, `params`, `cdf`, `pdf`, `mean`, `variance` and the same draws; the last assignment to each field is the one that counts. Missing: `support` (see C245_stale_support_violated)."
  },
  {
   "property": "C246",
   "status": "partial",
   "theorems": [
    "Rstat.C246_fields_partial",
    "Rstat.C246_stale_violated",
    "Rstat.C246_impossible_moments_violated"
   ],
   "note": "The code does not have the full property; proved negation: C246, violated: the normaliser, the total and the normalised concentrations are computed once. After assigning concentrations `b` to a law built from `a`: `mean` is still that of the *old* law; `variance` is `b_i (Σa - b_i) / ((Σa)² (Σa + 1))`; `pdf` is the new density times the constant `B(b) / B(a)`. | C246, violated in particular: for every law and coordinate there are positive finite concentrations whose assignment makes the reported variance of that coordinate *negative*; and any assignment that changes the proportion of a coordinate makes its reported mean differ from the mean of the law that the present concentrations describe. Proved part: C246, the part that holds: after any assignment to the public `alphas`, `params`, the printed text and the draws are those of a Dirichlet law built from the present concentrations, in every arithmetic; and an assignment of the value already there changes nothing. Missing: `mean`, `variance`, `covariance`, `modes`, `pdf`, `log_pdf` (see C246_stale_violated)."
  },
  {
   "property": "C247",
   "status": "proved",
   "theorems": [
    "Rstat.C247_order",
    "Rstat.C247_nan",
    "Rstat.C247_ops_order"
   ],
   "note": ""
  },
  {
   "property": "C248",
   "status": "partial",
   "theorems": [
    "Rstat.C248_float_mixture_cdf_partial",
    "Rstat.C248_float_mixture_pdf_partial",
    "Rstat.C248_float_mixture_mean_partial",
    "Rstat.C248_float_mixture_single_partial",
    "Rstat.C248_zero_weight_violated",
    "Rstat.C248_negative_variance_violated",
    "Rstat.C248_tolerance_violated",
    "Rstat.C248_cancellation_violated"
   ],
   "note": "The code does not have the full property; proved negation: a component of weight zero whose density at `x` is infinite makes the mixture density NaN at `x`. | `Mixture::new([1, 2^-18], [Normal(1024, 1), Normal(1024, 1)])` is accepted, its mean exceeds both component means and its variance is negative (the standard deviation is NaN), in every correctly rounded arithmetic, binary64 included. | with exact arithmetic, the variance of an accepted mixture of identical normals `Normal(μ, v)` is `s v + s (1 - s) μ²` where `s` is the sum of the weights; whenever the accepted weights exceed one (they may, by up to 1e-5), it is negative for every mean large enough. | in double precision a mixture whose only component is `Normal(2^27, 1)` has variance zero, and one whose only component is a normal of mean at least 2^512 in absolute value has variance NaN. Proved part: whatever the rounding, the cdf of an accepted mixture is non-decreasing and non-negative wherever the component cdfs are valid probabilities that do not decrease. | whatever the rounding, the density of an accepted mixture is non-negative and never NaN where the component densities are non-negative, provided no component of weight zero has an infinite density. | whatever the rounding, the mean of an accepted mixture of components with finite means is not NaN, and it is non-negative when every component mean is. | whatever the rounding, the variance of a one-component mixture of weight one is non-negative, provided the square of the component's mean does not overflow."
  },
  {
   "property": "C249",
   "status": "partial",
   "theorems": [
    "Rstat.C249_bernoulli",
    "Rstat.C249_categorical",
    "Rstat.C249_geometric_partial",
    "Rstat.C249_binomial_partial",
    "Rstat.C249_uniform_int_partial",
    "Rstat.C249_geometric_violated",
    "Rstat.C249_binomial_violated",
    "Rstat.C249_uniform_int_violated",
    "Rstat.C249_poisson_violated",
    "Rstat.C249_poisson_partial"
   ],
   "note": "The code does not have the full property; proved negation: C249 is violated by the geometric law: for every success probability of at least 1/2 and every `k` with 2^31 ≤ k ≤ 2^32 - 1075 the mass is infinite. | C249 is violated by the binomial law: with 2^31 ≤ n ≤ 2^32 - 1075 trials and a success probability of at least 1/2, the mass of 0 is infinite. | C249 is violated by the discrete uniform law in release builds: the interval of the 2^63 integers from `lb ≤ 0` is accepted, and the mass of each of its points is the negative number -2^-63. | C249 is violated by the Poisson law: with the rate 2^60 + 3840 each of the 200 outcomes 2^60 + 4252 ≤ k < 2^60 + 4452 has the mass +∞. Proved part: C249 geometric: below 2^31 every mass is a probability. Missing: `C249_geometric_violated`. | C249 binomial: whenever the intermediate products of `choose` fit in u64 and the exponents in i32, the mass of every `k ≤ n` is a probability. Missing: the other cases (`C249_binomial_violated`). | C249 discrete uniform: every mass is a probability, as long as the interval and its size fit in i64. Missing: intervals that do not fit (`C249_uniform_int_violated`). | C249 Poisson: for rates between 2^-20 and 2^20 and outcomes up to 2^20 the mass is a probability. Missing: larger rates and outcomes, where the logarithm of the mass loses all its digits (`C249_poisson_violated`), and rates below 2^-20."
  },
  {
   "property": "C250",
   "status": "partial",
   "theorems": [
    "Rstat.C250_geometric_pmf",
    "Rstat.C250_geometric_cdf",
    "Rstat.C250_binomial_pmf",
    "Rstat.C250_binomial_62",
    "Rstat.C250_uniform_int_pmf",
    "Rstat.C250_uniform_int_cdf",
    "Rstat.C250_poisson_violated",
    "Rstat.C250_poisson_partial"
   ],
   "note": "The code does not have the full property; proved negation: C250 is violated by the Poisson law: with the rate 2^60 each of the outcomes 2^60 ≤ k ≤ 2^60 + 100 has the mass 1 (the Poisson law gives them at most 1/2, and at most 1 together). Proved part: C250 Poisson: for rates between 2^-20 and 2^20 and outcomes up to 2^20 the mass is the Poisson mass up to a relative error of 5·10^-7 (the accuracy of Stirling's formula at the end of the table) and half the smallest positive number. Missing: larger rates and outcomes (`C250_poisson_violated`), and rates below 2^-20."
  },
  {
   "property": "C251",
   "status": "partial",
   "theorems": [
    "Rstat.C251_exponential",
    "Rstat.C251_logistic_partial",
    "Rstat.C251_gumbel_partial",
    "Rstat.C251_cauchy_partial",
    "Rstat.C251_normal",
    "Rstat.C251_frechet",
    "Rstat.C251_pareto_partial",
    "Rstat.C251_weibull_partial",
    "Rstat.C251_lognormal_partial",
    "Rstat.C251_logistic_violated",
    "Rstat.C251_gumbel_violated",
    "Rstat.C251_cauchy_violated",
    "Rstat.C251_pareto_violated",
    "Rstat.C251_weibull_violated",
    "Rstat.C251_lognormal_violated"
   ],
   "note": "The code does not have the full property; proved negation: where `x - mu` overflows the logistic distribution function is 1 although the real one is at most 0.9 | the same for the Gumbel distribution function | the same for the Cauchy distribution function | a Pareto law with scale 2^-500 and shape 2^-20 has its distribution function at 2^600 equal to 1, because `xm / x` underflows to zero; the real one is below 1/2 | a Weibull law with scale 2^500 and shape 2^-20 has its distribution function at 2^-600 equal to 0, because `x / lambda` underflows to zero; the real one is above 1/2 | a log-normal law with location `rnd (ln 2)` and log-scale variance 2^-120: the distribution function at 2 is 1/2 because `ln 2` is rounded, the real one is above 3/4 Proved part: the logistic distribution function is within 2^-47 of the real one wherever the subtraction `x - mu` does not overflow (see `C251_logistic_violated`) | the same for the Gumbel distribution function | the same for the Cauchy distribution function | the Pareto distribution function is within `(α + 8) 2^-51` of the real one from the scale up to 2^900 times the scale (beyond, `xm / x` may underflow: see `C251_pareto_violated`) | the Weibull distribution function is within `k 2^-51 + 2^-47` of the real one at 0 and between 2^-900 and 2^1000 times the scale (outside, `x / lambda` may underflow or overflow: see `C251_weibull_violated`) | the log-normal distribution function at `x` is within `2^-47 + K 2^-51` of the real one, where `K` bounds the ratio of `1 + |ln x|` to the log-scale standard deviation"
  },
  {
   "property": "C252",
   "status": "partial",
   "theorems": [
    "Rstat.C252_kumaraswamy",
    "Rstat.C252_uniform",
    "Rstat.C252_frechet_partial",
    "Rstat.C252_frechet_violated",
    "Rstat.C252_laplace_partial",
    "Rstat.C252_laplace_violated",
    "Rstat.C252_normal",
    "Rstat.C252_folded_normal",
    "Rstat.C252_lognormal_partial",
    "Rstat.C252_inverse_normal_violated",
    "Rstat.C252_lognormal_violated"
   ],
   "note": "The code does not have the full property; proved negation: whatever the shape (up to `2^1000`), the sample for the draw 0 is `+inf` and the sample for the draw 1 is zero; neither is a positive number, and both draws are allowed. | whatever the finite parameters, the sample for the draw `-1/2`, the lower end of the requested interval, is `-inf`. | with `mu = 2^60`, `lambda = 1` and the normal variate 1, the sample is zero or `+inf`, whatever the uniform variate: cancellation destroys the value, which should be close to 1. | the log-normal distribution with parameters 0 and 16 is sampled with its own mean and standard deviation as parameters; the normal variates 1 and -1 give `+inf` and zero. Proved part: for every accepted shape every sample is at least zero, never NaN. Missing: being a positive number. | for finite parameters no sample is NaN. Missing: being finite. | when the mean and the standard deviation are finite, every sample of a log-normal distribution is at least zero, never NaN. Missing: being a positive number."
  },
  {
   "property": "C253",
   "status": "partial",
   "theorems": [
    "Rstat.C253_exponential",
    "Rstat.C253_cauchy",
    "Rstat.C253_gumbel_partial",
    "Rstat.C253_logistic_partial",
    "Rstat.C253_normal",
    "Rstat.C253_folded_normal",
    "Rstat.C253_uniform_partial",
    "Rstat.C253_logistic_violated",
    "Rstat.C253_gumbel_violated",
    "Rstat.C253_uniform_violated"
   ],
   "note": "The code does not have the full property; proved negation: the density of the standard logistic distribution is NaN a thousand scales below the location, where the real one is below 2^-1000, so it has no error bound at all | where the standardised argument overflows downwards the Gumbel density is `exp(inf - inf)`, NaN | the rounded upper end can lie above the real one; the uniform density there is `1/width`, the real one is 0 Proved part: the Gumbel density is within 2^-45/β of the real one as long as the standardised argument does not overflow downwards (see `C253_gumbel_violated`) | the logistic density is within 2^-45/s of the real one down to 300 scales below the location (see `C253_logistic_violated`) | the uniform density is within 2^-50/width of the real one at every f64 other than the rounded upper end `fl(lb + width)` (see `C253_uniform_violated`)"
  },
  {
   "property": "C254",
   "status": "partial",
   "theorems": [
    "Rstat.C254_exponential",
    "Rstat.C254_gamma",
    "Rstat.C254_erlang",
    "Rstat.C254_inverse_gamma",
    "Rstat.C254_pareto",
    "Rstat.C254_location_scale",
    "Rstat.C254_rayleigh",
    "Rstat.C254_inverse_normal",
    "Rstat.C254_beta",
    "Rstat.C254_beta_prime",
    "Rstat.C254_f_dist",
    "Rstat.C254_student",
    "Rstat.C254_chi_squared",
    "Rstat.C254_discrete",
    "Rstat.C254_beta_binomial_partial",
    "Rstat.C254_float_moments_violated"
   ],
   "note": "The code does not have the full property; proved negation: laws whose variance is an ordinary number but is returned as 0 or infinity: the beta law with equal large shapes, the Pareto law with large parameters, the triangular law that is narrow against its location, the beta-binomial law with a small second shape. Proved part: the mean."
  },
  {
   "property": "C255",
   "status": "partial",
   "theorems": [
    "Rstat.C255_exponential",
    "Rstat.C255_rayleigh",
    "Rstat.C255_pareto",
    "Rstat.C255_weibull",
    "Rstat.C255_frechet",
    "Rstat.C255_gumbel",
    "Rstat.C255_uniform",
    "Rstat.C255_lognormal",
    "Rstat.C255_gpd",
    "Rstat.C255_gev",
    "Rstat.C255_location",
    "Rstat.C255_gamma",
    "Rstat.C255_inverse_gamma",
    "Rstat.C255_beta_prime",
    "Rstat.C255_beta_partial",
    "Rstat.C255_counts",
    "Rstat.C255_f_dist",
    "Rstat.C255_inverse_normal_partial",
    "Rstat.C255_kumaraswamy_partial",
    "Rstat.C255_standard_deviation",
    "Rstat.C255_float_medians_violated"
   ],
   "note": "The code does not have the full property; proved negation: C255 does not hold over all accepted parameters, in IEEE binary64 with correctly rounded elementary functions: (1) for every generalised Pareto law with shape at most `2^-54` the median returned is the location, below which and at which there is no probability at all; (2) for every Kumaraswamy law with second shape a power of two from `2^55` up the median returned is 0, again a point of zero probability below; (3) for every inverse normal law with shape 1 and mean a power of two from `2^30` up the mode returned is 0, which is not even within a factor of two of the mode; (4) for a beta law with shapes within two units of 1 the mode returned is 1/4 instead of 1/3. Proved part: the mode, for shapes at least 17/16 (nearer to 1 the denominator is lost, see below). | the mode, when the mean does not exceed the shape (beyond that it is lost, see below). | the median, to `2^-34` (for large second shapes it is lost, see below)."
  },
  {
   "property": "C256",
   "status": "partial",
   "theorems": [
    "Rstat.C256_exponential",
    "Rstat.C256_logistic",
    "Rstat.C256_laplace",
    "Rstat.C256_cauchy",
    "Rstat.C256_uniform",
    "Rstat.C256_gpd",
    "Rstat.C256_pareto_partial",
    "Rstat.C256_normal",
    "Rstat.C256_gumbel",
    "Rstat.C256_rayleigh",
    "Rstat.C256_levy",
    "Rstat.C256_gev",
    "Rstat.C256_weibull",
    "Rstat.C256_frechet",
    "Rstat.C256_pareto_violated"
   ],
   "note": "The code does not have the full property; proved negation: C256 does not hold over all accepted parameters, in IEEE binary64 with correctly rounded elementary functions: the Pareto entropy is taken as the logarithm of `xm/alpha * exp(1 + 1/alpha)`, which overflows for every shape up to 1/1024: `+inf` is returned although the entropy is a finite number. Proved part: the entropy."
  },
  {
   "property": "C257",
   "status": "partial",
   "theorems": [
    "Rstat.C257_uniform",
    "Rstat.C257_uniform_median",
    "Rstat.C257_exponential_partial",
    "Rstat.C257_exponential_violated",
    "Rstat.C257_uniform_int_partial",
    "Rstat.C257_cauchy",
    "Rstat.C257_cauchy_median",
    "Rstat.C257_normal",
    "Rstat.C257_normal_median",
    "Rstat.C257_summary",
    "Rstat.C257_uniform_summary",
    "Rstat.C257_cauchy_binary64",
    "Rstat.C257_uniform_int_violated"
   ],
   "note": "The code does not have the full property; proved negation: for every rate and every probability the quantile of an exponential law is not positive, so below the median of the law, whereas the support is `[0, ∞)`; for a probability below one half it is strictly negative, outside the support (rates up to `2^1000`, so that the quotient does not underflow). | for every discrete uniform law whose bounds are below `2^52` in magnitude, `quantile(1)` is one more than the largest value of the support. Proved part: `quantile` is monotone over the valid probabilities. | on every law the constructor accepts `quantile` returns without panicking, is monotone over every valid probability, and is at least the lower bound (as an f64)."
  },
  {
   "property": "C258",
   "status": "partial",
   "theorems": [
    "Rstat.C258_bernoulli",
    "Rstat.C258_bernoulli_empty",
    "Rstat.C258_poisson",
    "Rstat.C258_normal_partial",
    "Rstat.C258_normal_constant_violated",
    "Rstat.C258_normal_tiny_violated",
    "Rstat.C258_normal_overflow_violated"
   ],
   "note": "The code does not have the full property; proved negation: C258 (violated), in binary64: (1) the fit of three equal samples, which has no variance, is accepted for every value `k/2^j` with `k ≡ 2 mod 4` and `2^54/3 ≤ k < 2^53` (an eighth of all significands above 2^54/3), with variance `4^-j` and a mean next to the samples; | C258 (violated), in binary64: (2) every sample of values below 2^-600 is refused, however different they are: the squared residuals underflow to zero; | C258 (violated), in binary64: (3) two or more finite samples of 2^1023 and above overflow: the fit is accepted with infinite mean and infinite variance. Proved part: for every sample of up to 2^50 values of magnitude up to `A` (between 2^-400 and 2^400) whose empirical variance is not within the rounding error of zero, the normal fit succeeds; the fitted mean and variance are within `(n+2)A/2^52` and `12(n+3)A²/2^52` of the empirical ones."
  },
  {
   "property": "C259",
   "status": "partial",
   "theorems": [
    "Rstat.C259_whole_line",
    "Rstat.C259_cosine",
    "Rstat.C259_rayleigh",
    "Rstat.C259_chi_chi_sq",
    "Rstat.C259_levy",
    "Rstat.C259_f_dist",
    "Rstat.C259_inv_normal",
    "Rstat.C259_frechet_partial",
    "Rstat.C259_gamma_weibull_partial",
    "Rstat.C259_beta_kumaraswamy_partial",
    "Rstat.C259_beta_prime_partial",
    "Rstat.C259_inv_gamma_partial",
    "Rstat.C259_pareto_partial",
    "Rstat.C259_student_partial",
    "Rstat.C259_erlang",
    "Rstat.C259_gev_partial",
    "Rstat.C259_triangular",
    "Rstat.C259_arcsine_partial",
    "Rstat.C259_arcsine_violated",
    "Rstat.C259_inv_gamma_violated",
    "Rstat.C259_weibull_violated",
    "Rstat.C259_kumaraswamy_violated",
    "Rstat.C259_pareto_violated"
   ],
   "note": "The code does not have the full property; proved negation: the computed density of every arcsine law that starts at 0 is minus infinity at `-0`. | for every inverse Gamma law with an even shape 2n the computed density at `-0` is minus infinity (while no factor overflows). | for every Weibull law whose shape `k` is so small that `k - 1` rounds to -1, the computed density at `-0` is minus infinity. | for every Kumaraswamy law whose first shape is so small that `a - 1` rounds to -1, the computed density at `-0` is minus infinity. | a Pareto law with scale -1 and an even shape is accepted; its computed density at -1 is negative. Proved part: C259 (Fréchet, except at `-0`). | at every non-negative argument, except at `-0` when the exponent `shape - 1` rounds to -1. | at every argument of [0,1], except at `-0` when the exponent `shape - 1` rounds to -1. | at every non-negative argument, except at `-0` when the exponent `shape - 1` rounds to -1. | at every non-negative argument except `-0`. | at every argument. | at every argument. | wherever `1 + zeta z` is positive. | at every argument of the support except `-0` (the upper end not `-0` either)."
  },
  {
   "property": "C260",
   "status": "partial",
   "theorems": [
    "Rstat.C260_dirichlet_partial",
    "Rstat.C260_multinomial",
    "Rstat.C260_bivariate_normal",
    "Rstat.C260_dirichlet_variance_violated"
   ],
   "note": "The code does not have the full property; proved negation: C260 violated: in binary64 the variance of a Dirichlet component with concentration `2^k` (`60 ≤ k ≤ 300`) beside a component with concentration 1 is computed as zero, by `variance` and by `covariance`, although the component is not constant. Proved part: each `mean` is within relative error `(m+3)·2^-52` and each off-diagonal `covariance` within `(3m+9)·2^-52` of the moment of the law; `variance` and the diagonal of `covariance` are within `(5m+12)·2^-52` on the scale `mean / (1 + Σα)` (a relative bound fails: see the violation below)."
  },
  {
   "property": "C261",
   "status": "partial",
   "theorems": [
    "Rstat.C261_normal",
    "Rstat.C261_bernoulli",
    "Rstat.C261_binomial",
    "Rstat.C261_pareto_partial",
    "Rstat.C261_pareto_violated",
    "Rstat.C261_exponential_poisson_violated"
   ],
   "note": "The code does not have the full property; proved negation: C261 violated (Pareto law): in every floating-point implementation the off-diagonal entries are computed as a negative number instead of zero, and the scale entry is off by the factor `α`. | C261 violated (exponential and Poisson laws): the returned `λ²` and `λ` are not the information `1/λ²` and `1/λ`, whatever the rounding. Proved part: the entry of the shape parameter; the rest of the matrix is wrong (C110 and below)."
  },
  {
   "property": "C262",
   "status": "partial",
   "theorems": [
    "Rstat.C262_categorical_partial",
    "Rstat.C262_geometric",
    "Rstat.C262_binomial",
    "Rstat.C262_categorical_violated"
   ],
   "note": "The code does not have the full property; proved negation: C262 categorical (violated): the tolerance of the check lets the distribution function exceed 1: whatever the rounding, for the accepted weights `1, m 2^-52` with `1 ≤ m ≤ 2^35` every value from index 2 on is `1 + m 2^-52`, which is not a probability. Proved part: C262 categorical (in part): for every accepted weight vector the distribution function is nowhere NaN, starts at 0, is non-decreasing, ends within 1.0002e-5 of 1, never exceeds that, and is within `i 2^-51` of the sum of the first `i` weights."
  },
  {
   "property": "C263",
   "status": "partial",
   "theorems": [
    "Rstat.C263_normal",
    "Rstat.C263_cauchy",
    "Rstat.C263_poisson",
    "Rstat.C263_poisson_overflow_violated",
    "Rstat.C263_normal_overflow_violated",
    "Rstat.C263_poisson_grouping_violated",
    "Rstat.C263_gamma_absorbs_violated"
   ],
   "note": "The code does not have the full property; proved negation: C263 (violated) overflow: two accepted Poisson laws whose rates add up to 2^1024 or more are convolved into a law of infinite rate, without an error. | C263 (violated) overflow: the same for the means of normal laws. | C263 (violated) grouping: convolving a Poisson law of rate 2^n with two of rate 2^(n-53) gives different laws according to the grouping: one at a time, both are lost. | C263 (violated) absorption: adding an exponential variable to a Gamma law of the same rate and shape 2^n, n ≥ 60, gives back the same law."
  },
  {
   "property": "C264",
   "status": "proved",
   "theorems": [
    "Rstat.C264_values",
    "Rstat.C264_sum",
    "Rstat.C264_powi",
    "Rstat.C264_sum_float",
    "Rstat.C264_sum_mono",
    "Rstat.C264_powf",
    "Rstat.C264_ln"
   ],
   "note": ""
  },
  {
   "property": "C265",
   "status": "partial",
   "theorems": [
    "Rstat.C265_bernoulli_range",
    "Rstat.C265_bernoulli",
    "Rstat.C265_poisson_partial",
    "Rstat.C265_poisson_violated"
   ],
   "note": "The code does not have the full property; proved negation: C265 is violated by the Poisson law: with the rate 2^60 + 3840 the log-likelihood of the single observation `k`, for each of the 200 outcomes 2^60 + 4252 ≤ k < 2^60 + 4452, is 4352: the likelihood is plus infinity. Proved part: C265 Poisson: for rates in [2^-20, 2^20], and up to 2^20 observations below 2^20, the log-likelihood is within `n (3e-7 + n 2^-25)` of the true one. Missing: larger rates and observations, see `C265_poisson_violated`."
  },
  {
   "property": "C266",
   "status": "partial",
   "theorems": [
    "Rstat.C266_kumaraswamy_partial",
    "Rstat.C266_kumaraswamy_small_partial",
    "Rstat.C266_kumaraswamy_violated",
    "Rstat.C266_uniform_partial",
    "Rstat.C266_gpd_partial",
    "Rstat.C266_gev_partial",
    "Rstat.C266_gev_small_partial",
    "Rstat.C266_uniform_violated",
    "Rstat.C266_gpd_violated",
    "Rstat.C266_gev_violated"
   ],
   "note": "The code does not have the full property; proved negation: a Kumaraswamy law with shapes 2^-60 and 2^-10 has its distribution function at 1/2 equal to 1, because `1 - x^a` cancels to zero; the real one is below 1/10 | the uniform law on an interval of width 2^-60 starting at 1 has its distribution function at 1 equal to 1 (the upper bound rounds to the lower one); the real one is 0 | a generalised Pareto law with shape 2^-60 has its distribution function at 1 equal to 0, because `1 + zeta` rounds to 1; the real one is above 3/5 | a generalised extreme value law with shape 2^-24 has its distribution function at 1 off by more than 2^-31, because shapes below 10^-7 are treated as zero Proved part: the Kumaraswamy distribution function with second shape `b >= 1` is within `(b + 1) 2^-49` of the real one at every f64 in `[0, 1]`. For `b < 1` it is not: see `C266_kumaraswamy_violated` and `C266_kumaraswamy_small_partial` | for `b <= 1` the error of the Kumaraswamy distribution function is at most `2^(-49 b) + 2^-49` | the uniform distribution function is within `2^-49 + |l| / w 2^-52` of the real one at every finite f64, where `l` is the lower bound and `w` the width: the error of the upper bound `l + w`, which the code rounds, is relative to the bound and not to the width | the generalised Pareto distribution function is within `(1 + 1 / zeta) 2^-47` of the real one from the location up to 2^100 scales above it, for shapes between 2^-40 and 2^60. Tiny shapes lose all accuracy: see `C266_gpd_violated` | for shapes from 2^-23 to 2^60 the generalised extreme value distribution function is within `(1 + 1 / (zeta δ)) 2^-46` of the real one wherever `1 + zeta (x - mu) / sigma` is at least `δ` (and `x` within 2^100 scales of the location): near the lower end of the support the cancellation in that sum is amplified. Below the threshold 10^-7 on the shape the code computes another distribution function: see `C266_gev_violated` | for shapes below the threshold 10^-7 (up to 2^-24), where the code uses the Gumbel distribution function instead, the result is within `5 zeta + 2^-47` of the real one wherever `|zeta (x - mu) / sigma| <= 1/2`: the approximation costs as much as the size of the shape"
  },
  {
   "property": "C267",
   "status": "partial",
   "theorems": [
    "Rstat.C267_triangular_partial",
    "Rstat.C267_triangular_violated"
   ],
   "note": "The code does not have the full property; proved negation: the triangular law on `[2^53, 2^53 + 3]` with peak at `2^53 + 1/2` reaches 1 at `2^53 + 2`, because the code's upper corner rounds there; the real distribution function is `13/15` Proved part: the triangular distribution function, with lower corner `m` and legs `u`, `v`, is within `2^-48 + |m| / (u + v) 2^-50` of the real one at every finite f64: the code places the upper corners at rounded sums, whose error is relative to the corner and not to the width"
  },
  {
   "property": "C268",
   "status": "partial",
   "theorems": [
    "Rstat.C268_erlang_defaults",
    "Rstat.C268_erlang_log_pdf_violated",
    "Rstat.C268_erlang_log_pdf_partial",
    "Rstat.C268_erlang_log_cdf_violated",
    "Rstat.C268_erlang_log_cdf_partial"
   ],
   "note": "The code does not have the full property; proved negation: at every `x > 0`, `log_pdf` is above the logarithm of the Erlang density by `(k - 1) (x - ln x)` up to `1e-6` (the code multiplies `k - 1` by `x` instead of `ln x`), which is at least `k - 1` | at every `x > 0`, `log_cdf` is below the logarithm of the distribution function by `ln k!` up to `1e-6` (the regularised incomplete gamma function is divided by `k!` once more) Proved part: with one stage `log_pdf` is the logarithm of the exponential density | with one stage `log_cdf` is the logarithm of the exponential distribution function"
  },
  {
   "property": "C269",
   "status": "proved",
   "theorems": [
    "Rstat.C269_pareto",
    "Rstat.C269_rayleigh",
    "Rstat.C269_weibull",
    "Rstat.C269_frechet",
    "Rstat.C269_kumaraswamy",
    "Rstat.C269_levy",
    "Rstat.C269_inverse_normal",
    "Rstat.C269_gpd"
   ],
   "note": ""
  },
  {
   "property": "C270",
   "status": "partial",
   "theorems": [
    "Rstat.C270_cosine_partial",
    "Rstat.C270_arcsine_partial",
    "Rstat.C270_cosine_violated",
    "Rstat.C270_arcsine_violated"
   ],
   "note": "The code does not have the full property; proved negation: between two and four scales above the centre — beyond the support, where the distribution function is 1 — the computed raised cosine distribution function is more than 1/4 away from it, for every parameter and every such f64: it is not clamped | half of the digits really are lost: the standard arcsine distribution function in correctly rounded binary64 is more than 2^-30 off at the largest f64 below 1 Proved part: the raised cosine distribution function is within 2^-48 of the real one at every f64 of the support | the arcsine distribution function is within 2^-25 of the real one at every f64 of the support (half the digits: near the upper end the arcsine of a square root multiplies the rounding error of `x - a` by its slope, which is unbounded)"
  },
  {
   "property": "C271",
   "status": "partial",
   "theorems": [
    "Rstat.C271_mixture",
    "Rstat.C271_variance_partial",
    "Rstat.C271_normals",
    "Rstat.C271_variance_violated"
   ],
   "note": "The code does not have the full property; proved negation: relatively, all the digits of a variance can be lost: the mixture whose only component is `Normal(2^j, 1)` has computed variance 0 in binary64 for every `j` from 27 to 500, the true one being 1 Proved part: the variance of a mixture of at most 2^30 components with means within `L` and variances within `L²` is computed up to `(n + 2) L² 2^-47`, absolutely: it is the difference of two numbers as large as `L²`"
  },
  {
   "property": "C272",
   "status": "proved",
   "theorems": [
    "Rstat.C272_standard_deviation",
    "Rstat.C272_variance",
    "Rstat.C272_kurtosis",
    "Rstat.C272_excess_kurtosis",
    "Rstat.C272_ccdf",
    "Rstat.C272_logarithms",
    "Rstat.C272_exponentials",
    "Rstat.C272_mahalanobis",
    "Rstat.C272_fences",
    "Rstat.C272_ccdf_accurate"
   ],
   "note": ""
  },
  {
   "property": "C273",
   "status": "partial",
   "theorems": [
    "Rstat.C273_tail_partial",
    "Rstat.C273_exponential_violated",
    "Rstat.C273_logistic_violated",
    "Rstat.C273_violated"
   ],
   "note": "The code does not have the full property; proved negation: C273 in binary64: for an exponential distribution the tail is lost far too early: at every `x` with `λ·x ≥ 40` (and no overflow is needed: up to `λ·x = 700` the true tail `exp(-λ·x)` is an ordinary number) `cdf` is exactly 1, the default `ccdf` exactly 0, and the default `log_ccdf` is `-inf` instead of `-λ·x` | C273 in binary64: the same for the logistic distribution, wherever the computed `x - mu` is at least forty scale units | the full claim fails in binary64, already for the standard exponential distribution at 50 Proved part: where the tail probability is at least `2^-k`, the default `ccdf` has relative error `(n+2)·2^k` units, and the default `log_ccdf` is correspondingly accurate (see `C273_exponential_violated` for smaller tails)"
  },
  {
   "property": "C274",
   "status": "partial",
   "theorems": [
    "Rstat.C274_partial",
    "Rstat.C274_logistic",
    "Rstat.C274_gumbel",
    "Rstat.C274_frechet",
    "Rstat.C274_uniform",
    "Rstat.C274_exponential_violated",
    "Rstat.C274_weibull_violated",
    "Rstat.C274_gpd_violated",
    "Rstat.C274_kumaraswamy_violated",
    "Rstat.C274_violated"
   ],
   "note": "The code does not have the full property; proved negation: C274 in binary64: the exponential distribution function returns exactly zero for every positive `x` with `λ·x ≤ 2^-55`, although the probability `1 - exp(-λ·x)` is positive (about `λ·x`): `1 - exp(…)` cancels, where `-exp_m1(…)` would not | C274 in binary64: the same for the Weibull distribution function of any shape `k ≥ 1` wherever `x/λ` is between `2^-900` and `2^-57` | C274 in binary64: the same for the generalised Pareto distribution function wherever `ζ·(x - μ)/σ` is at most `2^-56` | C274 in binary64: the same for the Kumaraswamy distribution function wherever `x^a` is at most `2^-56` | the full claim fails in binary64 Proved part: an accurate distribution function keeps some relative accuracy down to probabilities of `2^-k`"
  },
  {
   "property": "C275",
   "status": "partial",
   "theorems": [
    "Rstat.C275_partial",
    "Rstat.C275_normal_partial",
    "Rstat.C275_exponential_violated",
    "Rstat.C275_normal_violated",
    "Rstat.C275_violated"
   ],
   "note": "The code does not have the full property; proved negation: C275 in binary64: from `λ·x = 750` on the exponential density underflows, and the default `log_pdf` is `-inf` where the log-density is `ln λ - λ·x`, a number of ordinary size | C275 in binary64: from 39 standard deviations on (`(x - μ)²/(2σ²) ≥ 751`) the normal density underflows, and the default `log_pdf` is `-inf` | the full claim fails in binary64 Proved part: where a density accurate to `n` units is between `2^-k` and `2^k`, the default `log_pdf` is within `(2n + 2k + 3)/2^52` of the log-density (see `C275_exponential_violated` and `C275_normal_violated` for smaller densities) | the normal density comes out to a relative `2^-42` up to about eleven standard deviations, so the default `log_pdf` is accurate there"
  },
  {
   "property": "C276",
   "status": "partial",
   "theorems": [
    "Rstat.C276_diagonal_partial",
    "Rstat.C276_variance_violated"
   ],
   "note": "The code does not have the full property; proved negation: C276 in binary64: when the variance of the logarithm is at most `2^-56`, `variance()` is exactly zero in that coordinate, although the law is not constant: `exp(v) - 1` cancels, where `exp_m1(v)` would not Proved part: the mean of the multivariate log-normal law to a relative `2^-44`, and its variance to a relative `2^-43` when the variance of the logarithm is not small (see `C276_variance_violated`)"
  },
  {
   "property": "C277",
   "status": "partial",
   "theorems": [
    "Rstat.C277_paired_partial",
    "Rstat.C277_bivariate_partial",
    "Rstat.C277_bivariate_violated"
   ],
   "note": "The code does not have the full property; proved negation: C277 in binary64: with correlation `1 - 2^-53`, zero means and unit variances, at the point `(3, 3)` the quadratic form comes out as exactly 16, where its real value is less than 10, and the density has lost all accuracy: the numerator and the denominator of `z` both cancel Proved part: the density comes out to a relative `2^-42` | for `|ρ| ≤ 1 - 2^-j` with `j ≤ 8` (`ρ` zero or of ordinary size), the density comes out to a relative `2^(j-39)`"
  }
 ]
}