# Results by property

Generated by `tools/results.py` from `properties.jsonl`, `MANIFEST.json` and the theorem docstrings. `_violated` theorems prove that the code breaks the property; `_partial` theorems prove the part that holds.

## C01 Probability::new accepts exactly [0,1] (proved)

Probability::new(p) and TryFrom<f64> succeed exactly when p is an f64 with 0 <= p <= 1 (so NaN, both infinities and every out-of-range value are refused, -0.0 is accepted), the accepted Probability holds the very same f64, the refusal carries the offending value, and is_valid agrees with the acceptance test. *For all 2^64 f64 values including NaN, infinities, signed zeros.*

* `C01_new_accepts_iff` (Props/Probability.lean): C01: `Probability::new` succeeds exactly on numbers in [0,1], for every f64 (incl. NaN, ±inf, -0.0).
* `C01_new_value` (Props/Probability.lean): C01: the accepted probability holds the very same f64.
* `C01_new_error` (Props/Probability.lean): C01: a refusal carries the offending value.
* `C01_is_valid_iff` (Props/Probability.lean): C01: `is_valid` agrees with the acceptance test.

## C02 Checked Probability arithmetic is closed (proved)

Adding, subtracting, dividing or taking the remainder of any two Probability values either fails or yields a Probability that is_valid; it succeeds exactly when the rounded IEEE result lies in [0,1]. *For all pairs of Probability values (even ones built with new_unchecked).*

* `C02_checked_ops` (Props/Probability.lean): C02: checked operators succeed exactly when the IEEE result is in [0,1] and then return that result.
* `C02_checked_ops_closed` (Props/Probability.lean): C02: hence whatever the operands, a successful result is valid; and when the IEEE result is out of range the operator reports an error rather than a value.

## C03 Unchecked product and complement stay in [0,1] (proved)

For valid probabilities p, q the product p*q and the complement !p are valid probabilities, although neither operator checks, under every correctly-rounded arithmetic (binary64 in particular). *For all valid pairs p,q; every lawful rounding.*

* `C03_mul_valid` (Props/Probability.lean): C03: the product of two valid probabilities is valid, under every correctly rounded arithmetic.
* `C03_not_valid` (Props/Probability.lean): C03: the complement of a valid probability is valid.
* `C03_values` (Props/Probability.lean): C03: the product/complement hold the correctly rounded real product/complement.

## C04 Complement is an order-reversing near-involution (partial)

!p reverses order; !!p is p exactly in exact arithmetic, and in any correctly rounded arithmetic differs from p by at most 2^-50 (it is not the identity in binary64: a positive p below 2^-54 is mapped to 0). *For all valid p,q.*

* `C04_not_antitone` (Props/Probability.lean): C04: complement reverses the order.
* `C04_not_not_exact` (Props/Probability.lean): C04: in exact arithmetic `!!p = p`.
* `C04_not_not_error` (Props/Probability.lean): C04: under any correctly rounded arithmetic `!!p` is within 2^-50 of `p`.
* `C04_not_not_violated_binary64` (Props/Probability.lean): C04 (violation of exact involution in real binary64): `!!p = 0` for `p = 2^-60`.

Note: Order reversal, exactness in exact arithmetic and the error bound are proved; exact involution is false in binary64 (witness 2^-60).

## C05 SimplexVector::new acceptance (proved)

SimplexVector::new(ps) succeeds exactly when every entry lies in [0,1] and the left-to-right floating sum z satisfies |z-1| < 1e-5, and then stores the same array; otherwise it reports the first out-of-range entry, or the array itself when only the sum is wrong. *For arrays of every length K and content.*

* `C05_simplex_new_iff` (Props/Probability.lean): C05: acceptance test of `SimplexVector::new`; the accepted vector is the argument. `F64.sum` is the left-to-right floating-point sum.
* `C05_simplex_new_bad_entry` (Props/Probability.lean): C05: otherwise the first out-of-range entry is reported.
* `C05_simplex_new_bad_sum` (Props/Probability.lean): C05: with all entries in range but a bad sum, the whole array is reported.

## C06 Accepted simplex weights really sum to nearly one (proved)

If SimplexVector::new accepts an array of K <= 2^30 entries then the exact (real-number) sum of the entries is within 1.1e-5 of 1, despite rounding in the check. *For all accepted arrays, every K <= 2^30, every lawful rounding.*

* `C06_simplex_exact_sum` (Props/Probability.lean): C06: an accepted array of at most 2^30 entries has exact sum within 1.1e-5 of one, whatever the rounding.

## C07 sample_index is total, in range, one draw (proved)

For every K >= 1, every weight array and every RNG, sample_index returns an index < K and consumes exactly one draw; for K = 0 it panics in a debug build. *For all arrays, all RNG states.*

* `C07_sample_index_in_range` (Props/Probability.lean): C07: for K ≥ 1 `sample_index` returns an index below K and consumes exactly one draw (both profiles).
* `C07_sample_index_empty_panics` (Props/Probability.lean): C07: for K = 0 the eager `len() - 1` underflows: a debug build panics.
* `C07_sample_index_empty_release` (Props/Release.lean): C07: for K = 0 a release build does not panic: the wrapped `len() - 1` makes it return the index `usize::MAX`, whatever the draw.

## C08 sample_index inverts the prefix sums (proved)

sample_index returns i exactly when the draw u is below prefix sum i and not below any earlier prefix sum (last index if no prefix exceeds u); in exact arithmetic, for weights summing to 1, the set of draws in [0,1) returning i has Lebesgue measure exactly p_i. *For all weight arrays, all draws, all indices.*

* `C08_sample_index_spec` (Props/Probability.lean): C08: `sample_index` inverts the prefix sums `F64.sum (ps.take (j+1))`: index `i` is returned exactly when the draw is below prefix sum `i` and below no earlier one, or when `i` is last and the draw is below no prefix sum.
* `C08_sample_index_measure` (Props/Probability.lean): C08: in exact arithmetic, for non-negative weights summing to one, the set of draws in [0,1) for which index `i` is returned has Lebesgue measure exactly the `i`-th weight.

## C09 sample_index never returns a zero-weight index (partial)

An index whose weight is zero is never sampled. *For all accepted simplex vectors and all draws.*

* `C09_zero_weight_partial` (Props/Probability.lean): C09 (partial): a returned index with zero weight can only be the last one, and only for a draw not below the total of the weights. Missing from the full claim: exactly that last case, see `C09_zero_weight_violated`.
* `C09_zero_weight_violated` (Props/Probability.lean): C09 (violation): in every lawful arithmetic `[1 - 2^-20, 0]` is accepted by `SimplexVector::new`, yet the draw `1 - 2^-21` returns index 1, whose weight is 0.

Note: Full claim is false of the code: zero-weight last index can be drawn when the accepted weights sum to less than 1 (witness proved). The partial theorem shows this is the only case.

## C10 SimplexVector::sample returns a point of the simplex (partial)

SimplexVector::sample returns a vector whose entries are non-negative and sum to one. *For all K >= 1 and all RNG streams.*

* `C10_simplex_sample_iff` (Props/ProbFns.lean): C10 (how often it fails): a sampled vector lies on the simplex exactly when the product of the draws is at least exp(-(their sum)); otherwise its first entry is negative.
* `C10_simplex_sample_empty` (Props/ProbFns.lean): C10: with no classes at all there is nothing to sample: the call panics before drawing.
* `C10_simplex_sample_partial` (Props/Probability.lean): C10 (partial): whatever the uniform draws in (0,1], `SimplexVector::sample` returns K entries that sum to exactly one in exact arithmetic, and entries 1.. are non-negative. Missing from the full claim: non-negativity of entry 0 (false, see `C10_simplex_sample_violated`).
* `C10_simplex_sample_draws` (Props/Probability.lean): C10: `sample::<K>` makes exactly K-1 draws, in order, and applies `fromDraws` to them.
* `C10_simplex_sample_violated` (Props/Probability.lean): C10 (violation): for K = 2 the draw 1/2 yields a negative first entry, so the result is not on the simplex.

Note: Sum to one proved; non-negativity is false (witness K=2, draw 1/2): the code divides by the sum of the draws instead of the sum of their -ln.

## C11 SimplexVector::centre (proved)

centre() is the vector with all K entries equal to 1/K, it passes the SimplexVector::new check, and sums to 1 exactly in exact arithmetic (rounded: entries for K up to 2^53, the check for K up to 2^30). *For all K >= 1.*

* `C11_centre_entries` (Props/Probability.lean): C11: `centre()` has K entries, all equal to the rounded quotient 1/K.
* `C11_centre_valid` (Props/Probability.lean): C11: `centre()` passes `SimplexVector::new`, for every K up to 2^30 and every lawful rounding.
* `C11_centre_exact` (Props/Probability.lean): C11: in exact arithmetic the entries are 1/K and sum to 1.

## C12 Atomic constraints decide their relation and check returns the value untouched (proved)

Equal, LessThan(OrEqual), GreaterThan(OrEqual), Negative, NonPositive, Positive, NonNegative, Natural, Interval accept exactly the values in the named relation (never NaN); check returns Ok with the same value iff is_satisfied_by, otherwise Err carrying the same value. *For all f64/i64/usize values and bounds.*

* `C12_check_returns_value` (Props/Params.lean): C12: `check` is total, returns the value untouched, and agrees with `is_satisfied_by`; for every constraint
* `C12_error_names_a_failing_constraint` (Props/Params.lean): C12: an error produced by `check` names a constraint that the value indeed violates, and has no target
* `C12_f64_atoms` (Props/Params.lean): C12, f64: each atomic constraint accepts exactly the values standing in its relation, never NaN
* `C12_f64_never_nan` (Props/Params.lean): C12: no comparison constraint accepts NaN, whatever its bounds
* `C12_i64_atoms` (Props/Params.lean): C12, i64
* `C12_usize_atoms` (Props/Params.lean): C12, usize

## C13 Constraint combinators are a faithful Boolean algebra (proved)

And/Or/Not/All accept exactly the conjunction / disjunction / negation / all-elements closure of their operands, for check as well as is_satisfied_by, at any nesting depth, and check and is_satisfied_by always agree. *For all constraint expression trees, all values, all array lengths.*

* `C13_check_combinators` (Props/Params.lean): C13: the combinators are ∧, ∨, ¬ and ∀ on the accepted sets, by `check`
* `C13_sat_combinators` (Props/Params.lean): C13: the same for `is_satisfied_by`
* `C13_all` (Props/Params.lean): C13: `All` is the closure over every element, at every length, for scalars, `Vec` and arrays
* `C13_all_scalar` (Props/Params.lean): C13: `All` over a scalar constraint accepts what that constraint accepts
* `C13_any_depth` (Props/Params.lean): C13: at any nesting depth both `check` and `is_satisfied_by` compute the Boolean meaning of the tree

## C14 Empty means empty (partial)

Empty accepts a container exactly when it has no elements, for Vec and for fixed-size arrays. *For all containers.*

* `C14_empty_vec_partial` (Props/Params.lean): what holds: `Vec` (the array half of C14 is missing)
* `C14_empty_array_inverted_violated` (Props/Params.lean): arrays: `Empty` accepts exactly the NON-empty arrays
* `C14_empty_violated` (Props/Params.lean): C14 (violation): the emptiness constraint in full is false: for arrays it is inverted and accepts exactly the non-empty ones

Note: The code does not have the full property; proved negation: arrays: `Empty` accepts exactly the NON-empty arrays | the emptiness constraint in full is false: for arrays it is inverted and accepts exactly the non-empty ones Proved part: what holds: `Vec` (the array half of C14 is missing)

## C15 Scalar parameter constructors (proved)

Scale/Rate/Shape/DOF::new succeed exactly for strictly positive values (so never NaN, -0.0 or 0), Count::new exactly for values >= 0, Corr::new exactly on [-1,1], Loc::new always; the stored value is the argument. *For all f64 (and integer) arguments.*

* `C15_positive_params` (Props/Params.lean): C15: Scale/Rate/Shape/DOF::new succeed exactly on strictly positive values and store the argument
* `C15_positive_params_refuse` (Props/Params.lean): C15: never NaN, -0.0, 0 or a negative value
* `C15_integer_params` (Props/Params.lean): C15: integer-valued parameters
* `C15_count` (Props/Params.lean): C15: at every scalar type, `Count::new` accepts exactly the values ≥ 0
* `C15_corr` (Props/Params.lean): C15: Corr::new succeeds exactly on [-1,1] and stores the argument
* `C15_loc` (Props/Params.lean): C15: Loc::new always succeeds, NaN included

## C16 Concentrations::new accepts exactly non-empty positive vectors (partial)

Concentrations::new(v) succeeds exactly when v is non-empty and all entries are strictly positive; hence Dirichlet::new succeeds on such vectors. *For all arrays of every length.*

* `C16_nonempty_always_rejected_violated` (Props/Params.lean): no non-empty vector at all is accepted
* `C16_concentrations_violated` (Props/Params.lean): C16 (violation): `Concentrations::new` does not accept the vectors of positive numbers; it refuses every non-empty vector
* `C16_concentrations_sound_partial` (Props/Params.lean): the part that holds: nothing with a non-positive or NaN entry is accepted, what is accepted is stored unchanged. Missing: acceptance of valid vectors (impossible, see above).

Note: The code does not have the full property; proved negation: no non-empty vector at all is accepted | `Concentrations::new` does not accept the vectors of positive numbers; it refuses every non-empty vector Proved part: the part that holds: nothing with a non-positive or NaN entry is accepted, what is accepted is stored unchanged. Missing: acceptance of valid vectors (impossible, see above).

## C17 Composite Params::new validate every field, in order (proved)

A generated Params::new succeeds exactly when every field's own constructor accepts its argument, stores the arguments unchanged and otherwise returns the error of the first rejected field. *For all parameter records of any number of fields.*

* `C17_params_new_ok` (Props/Params.lean): C17: success means every field's own constructor accepted its argument; the stored values are the arguments, in order; and conversely
* `C17_params_new_first_error` (Props/Params.lean): C17: on failure the error is that of the first rejected field
* `C17_params_new_total` (Props/Params.lean): C17: every run is one of the two cases

## C18 Constructor/params round trip (proved)

For every univariate distribution: if Dist::new(args) is Ok(d) then d.params() holds exactly args, every constrained field satisfies its constraint, and From<Params> of d.params() is d. *For all constructor arguments of all parametric univariate distributions.*

* `C18_arcsine_round_trip` (Props/RoundTrip.lean): C18: arcsine
* `C18_cauchy_round_trip` (Props/RoundTrip.lean): C18: cauchy
* `C18_cosine_round_trip` (Props/RoundTrip.lean): C18: cosine
* `C18_exponential_round_trip` (Props/RoundTrip.lean): C18: exponential
* `C18_frechet_round_trip` (Props/RoundTrip.lean): C18: frechet
* `C18_gev_round_trip` (Props/RoundTrip.lean): C18: gev
* `C18_gpd_round_trip` (Props/RoundTrip.lean): C18: gpd
* `C18_gumbel_round_trip` (Props/RoundTrip.lean): C18: gumbel
* `C18_kumaraswamy_round_trip` (Props/RoundTrip.lean): C18: kumaraswamy
* `C18_laplace_round_trip` (Props/RoundTrip.lean): C18: laplace
* `C18_logistic_round_trip` (Props/RoundTrip.lean): C18: logistic
* `C18_pareto_round_trip` (Props/RoundTrip.lean): C18: pareto
* `C18_rayleigh_round_trip` (Props/RoundTrip.lean): C18: rayleigh
* `C18_triangular_round_trip` (Props/RoundTrip.lean): C18: triangular
* `C18_weibull_round_trip` (Props/RoundTrip.lean): C18: weibull
* `C18_poisson_round_trip` (Props/RoundTrip.lean): C18: poisson
* `C18_gamma_round_trip` (Props/RoundTrip.lean): C18: gamma
* `C18_inverse_gamma_round_trip` (Props/RoundTrip.lean): C18: inverse_gamma
* `C18_beta_round_trip` (Props/RoundTrip.lean): C18: beta
* `C18_beta_prime_round_trip` (Props/RoundTrip.lean): C18: beta_prime
* `C18_student_t_round_trip` (Props/RoundTrip.lean): C18: student_t
* `C18_levy_round_trip` (Props/RoundTrip.lean): C18: levy
* `C18_folded_normal_round_trip` (Props/RoundTrip.lean): C18: folded_normal
* `C18_chi_sq_round_trip` (Props/RoundTrip.lean): C18: chi_sq
* `C18_chi_round_trip` (Props/RoundTrip.lean): C18: chi
* `C18_erlang_round_trip` (Props/RoundTrip.lean): C18: erlang
* `C18_f_dist_round_trip` (Props/RoundTrip.lean): C18: f_dist
* `C18_uniform_round_trip` (Props/RoundTrip.lean): C18: continuous uniform
* `C18_normal_round_trip` (Props/RoundTrip.lean): C18: normal (univariate)
* `C18_lognormal_round_trip` (Props/RoundTrip.lean): C18: log-normal
* `C18_inverse_normal_round_trip` (Props/RoundTrip.lean): C18: inverse Gaussian
* `C18_beta_binomial_round_trip` (Props/RoundTrip.lean): C18: beta-binomial
* `C18_bernoulli_round_trip` (Props/RoundTrip.lean): C18: Bernoulli
* `C18_binomial_round_trip` (Props/RoundTrip.lean): C18: binomial
* `C18_geometric_round_trip` (Props/RoundTrip.lean): C18: geometric
* `C18_categorical_round_trip` (Props/RoundTrip.lean): C18: categorical
* `C18_degenerate_round_trip` (Props/RoundTrip.lean): C18: degenerate
* `C18_uniform_discrete_round_trip` (Props/RoundTrip.lean): C18: discrete uniform, when the interval and the cardinality fit an i64

## C19 Covariance constructors accept exactly valid covariances (partial)

Covariance::matrix accepts exactly symmetric positive semi-definite matrices; diagonal/paired/isotropic accept exactly positive variances; bivariate accepts exactly positive scales with |rho| < 1. *For all matrices / vectors / scalars.*

* `C19_matrix_accepts_nonnegative_partial` (Props/Params.lean): what `matrix` really tests: every entry is ≥ 0
* `C19_matrix_refuses_valid_violated` (Props/Params.lean): a valid covariance with a negative off-diagonal entry is refused: [[1,-1/2],[-1/2,1]]
* `C19_matrix_accepts_invalid_violated` (Props/Params.lean): an asymmetric, indefinite matrix is accepted: [[1,2],[1/2,1]]
* `C19_covariance_violated` (Props/Params.lean): C19 (violation): `Covariance::matrix` does not accept exactly the positive semidefinite matrices: an indefinite one is accepted
* `C19_diagonal` (Props/Params.lean): diagonal/paired: accepts exactly strictly positive variances and stores them
* `C19_isotropic` (Props/Params.lean): C19: the isotropic constructor accepts exactly the strictly positive variances and stores the value
* `C19_bivariate_accepts_partial` (Props/Params.lean): bivariate: what is accepted. `rho = ±1` is accepted too, see the next theorem.
* `C19_bivariate_accepts_singular_violated` (Props/Params.lean): the degenerate correlations ±1 (singular covariance) are accepted
* `C19_advertised_constraints_differ_violated` (Props/Params.lean): the constraints a matrix covariance advertises differ from the ones it enforces

Note: The code does not have the full property; proved negation: a valid covariance with a negative off-diagonal entry is refused: [[1,-1/2],[-1/2,1]] | an asymmetric, indefinite matrix is accepted: [[1,2],[1/2,1]] | `Covariance::matrix` does not accept exactly the positive semidefinite matrices: an indefinite one is accepted | the degenerate correlations ±1 (singular covariance) are accepted | the constraints a matrix covariance advertises differ from the ones it enforces Proved part: what `matrix` really tests: every entry is ≥ 0 | bivariate: what is accepted. `rho = ±1` is accepted too, see the next theorem.

## C20 cdf/log_cdf/ccdf/log_ccdf defaults agree (proved)

For a distribution defining only one of cdf, log_cdf, the other is its exp/ln, ccdf(x) = 1 - cdf(x) and log_ccdf = ln ccdf; cdf(x)+ccdf(x)=1 in exact arithmetic; an implementation overriding neither never returns. *For all distributions (records of overrides), all points.*

* `C20_only_cdf` (Props/Traits.lean): C20: an implementation giving only `cdf = F`: the four functions are F, ln F, 1 - F, ln (1 - F)
* `C20_only_log_cdf` (Props/Traits.lean): C20: an implementation giving only `log_cdf = G`: cdf = exp G, ccdf = 1 - exp G, log_ccdf its logarithm
* `C20_cdf_plus_ccdf` (Props/Traits.lean): C20: whichever of `cdf`/`log_cdf` (or both, consistently) is given, in exact arithmetic cdf + ccdf = 1 and log_ccdf = ln ccdf
* `C20_ccdf_valid` (Props/Traits.lean): C20: the default ccdf of a valid cdf is a valid probability, in any lawful arithmetic
* `C20_neither_diverges` (Props/Traits.lean): C20: overriding neither `cdf` nor `log_cdf` never returns, whatever the argument

## C21 pmf/log_pmf and pdf/log_pdf defaults agree (proved)

For any implementation overriding one of pmf/log_pmf (pdf/log_pdf), in exact arithmetic pmf = exp(log_pmf) wherever pmf is positive and both are defined (each default being the rounded exp/ln of the other in every arithmetic); overriding neither diverges. *For all implementations, all points.*

* `C21_pmf_defaults` (Props/Traits.lean): C21: pmf/log_pmf given one of them
* `C21_pdf_defaults` (Props/Traits.lean): C21: when only one of `pdf`, `log_pdf` is overridden, the other returns, and returns its logarithm or exponential
* `C21_pdf_is_exp_log_pdf` (Props/Traits.lean): C21: whichever is overridden (one of the two), where the pdf is a positive number, pdf = exp(log_pdf) exactly
* `C21_pmf_is_exp_log_pmf` (Props/Traits.lean): C21: whichever is overridden (one of the two), where the pmf is a positive number, pmf = exp(log_pmf) exactly
* `C21_neither_diverges` (Props/Traits.lean): C21: overriding neither diverges
* `C21_zero_mass_log` (Props/Traits.lean): a zero probability has log -inf

## C22 Moment defaults agree (proved)

In exact arithmetic, with default methods, standard_deviation^2 = variance (for non-negative variance) and kurtosis = excess_kurtosis + 3, whichever of each pair the implementation overrides. *For all implementations.*

* `C22_std_squared` (Props/Traits.lean): C22: standard_deviation² = variance in exact arithmetic, whichever is overridden
* `C22_kurtosis` (Props/Traits.lean): C22: kurtosis = excess + 3, whichever is overridden
* `C22_returns` (Props/Traits.lean): C22: as soon as one of a pair is given both calls return; with neither, neither returns

## C23 Quantile-derived statistics (proved)

cquantile(p) = quantile(1-p), median = Q(1/2), iqr = Q(3/4)-Q(1/4), fences at 1.5 iqr; for any monotone quantile function lower_fence <= lower_quartile <= median <= upper_quartile <= upper_fence, under every lawful rounding. *For all implementations with a monotone quantile.*

* `C23_quantile_cquantile` (Props/Traits.lean): C23: quantile and cquantile mirror each other
* `C23_values` (Props/Traits.lean): C23: exact values of the derived statistics
* `C23_ordered` (Props/Traits.lean): C23: with a quantile function that is monotone on the probabilities inside `(0,1)` the five numbers are ordered, in every lawful arithmetic (the outer quartiles are representable finite numbers; the fences may even overflow)

## C24 sample_n / sample_iter are sequential sampling (proved)

sample_n(n) returns n values, equals the first n values of sample_iter, equals n successive sample calls threading the same RNG, and sample_n(n+m) = sample_n(n) ++ sample_n(m) from the resulting RNG state; sample_iter never ends. *For all samplers, all RNG states, all n,m.*

* `C24_sample_n` (Props/Traits.lean): C24: sample_n(n) is exactly the first n successive `sample` calls, and leaves the RNG where they leave it
* `C24_sample_n_length` (Props/Traits.lean): C24: `sample_n` yields exactly `n` samples
* `C24_sample_n_append` (Props/Traits.lean): C24: splitting
* `C24_sample_iter` (Props/Traits.lean): C24: the first n items of the iterator are sample_n(n), with the same final RNG state
* `C24_iter_never_ends` (Props/Traits.lean): C24: the iterator never ends

## C25 convolve_many is the iterated convolution (partial)

convolve_many(rvs) convolves self with every element of rvs exactly once and returns the first error if any; it must work for every non-empty list. *For all lists of distributions.*

* `C25_convolve_many_partial` (Props/Traits.lean): C25 for two or more distributions; the order is: last, then first to last-but-one
* `C25_singleton_refused_violated` (Props/Traits.lean): a singleton list is refused although one convolution would do
* `C25_violated` (Props/Traits.lean): C25 (violation): `convolve_many` in full is false: a one-element collection is refused
* `C25_additive_partial` (Props/Traits.lean): for an additive, never failing convolution (normal, Poisson, Cauchy, ...) convolve_many adds everything up

Note: The code does not have the full property; proved negation: a singleton list is refused although one convolution would do | `convolve_many` in full is false: a one-element collection is refused Proved part: C25 for two or more distributions; the order is: last, then first to last-but-one | for an additive, never failing convolution (normal, Poisson, Cauchy, ...) convolve_many adds everything up

## C26 Default multivariate variance and correlation (partial)

Default variance is the diagonal of covariance; default correlation(i,j) = cov(i,j)/sqrt(cov(i,i) cov(j,j)), hence unit diagonal. *For all implementations, all dimensions.*

* `C26_variance_is_diagonal` (Props/Traits.lean): C26: the default variance is the diagonal of the covariance
* `C26_correlation_is_product_violated` (Props/Traits.lean): what the code computes: the covariance is multiplied by the standard deviations instead of divided
* `C26_correlation_unit_variance_partial` (Props/Traits.lean): unit variances are the case where it is right
* `C26_correlation_violated` (Props/Traits.lean): C26 (violation): the default correlation is not the correlation: it multiplies by the standard deviations

Note: The code does not have the full property; proved negation: what the code computes: the covariance is multiplied by the standard deviations instead of divided | the default correlation is not the correlation: it multiplies by the standard deviations Proved part: unit variances are the case where it is right

## C27 likelihood/log_likelihood and Mahalanobis defaults agree (proved)

In exact arithmetic likelihood = exp(log_likelihood) (where positive) and d_mahalanobis^2 = d_mahalanobis_squared by default, whichever is overridden. *For all implementations, all samples.*

* `C27_likelihood_defaults` (Props/Traits.lean): C27: when only one of `likelihood`, `log_likelihood` is overridden the other is its logarithm or exponential; when neither is, no call returns
* `C27_likelihood` (Props/Traits.lean): C27: likelihood = exp(log_likelihood) whichever is overridden
* `C27_mahalanobis` (Props/Traits.lean): C27: d_mahalanobis² = d_mahalanobis_squared whichever is overridden

## C28 choose is the binomial coefficient (proved)

choose(n,k) returns C(n,k) for all k <= n whenever every intermediate product fits in u64 (in particular for all n <= 62), is symmetric in k and n-k, and panics in debug for k > n. *For all n,k in u64.*

* `C28_choose_debug` (Props/Release.lean): C28: in a debug build `choose` is never silently wrong: it returns the binomial coefficient when every product of the loop fits in `u64`, and panics otherwise.
* `C28_choose_debug_sound` (Props/Release.lean): C28: a debug build therefore never returns a wrong value
* `C28_choose_release_above` (Props/Release.lean): C28: a release build returns 0 for every `k > n`, which is the binomial coefficient, although intermediate values wrap
* `C28_choose` (Props/Utils.lean): C28: whenever every intermediate product C(n,i)(n-i) of the loop fits in u64, `choose n k` is the binomial coefficient, in debug and in release builds
* `C28_choose_62` (Props/Utils.lean): C28: for all n ≤ 62 and k ≤ n no condition is needed
* `C28_choose_symm` (Props/Utils.lean): C28: symmetric in `k` and `n-k`, whatever overflows happen
* `C28_choose_panics` (Props/Utils.lean): C28: debug builds panic on every `k > n`

## C29 factorial (proved)

factorial(n) = n! for every n <= 20 (table and product branch) and overflow (debug panic) for n >= 21. *For all n in u64.*

* `C29_factorial` (Props/Utils.lean): C29: `factorial n = n!` for all n ≤ 20, in both branches and both profiles
* `C29_factorial_overflow` (Props/Utils.lean): C29: for n ≥ 21 a debug build panics with overflow
* `C29_factorial_wraps` (Props/Utils.lean): C29: and a release build returns n! modulo 2^64, so it is never n!

## C30 log_factorial_stirling approximates ln n! (proved)

In exact arithmetic the n > 254 branch lies within 1e-6 of ln(n!), and the table branch lies within 1e-12 of ln(n!). *For all n < u64::MAX (at u64::MAX n+1 overflows).*

* `C30_stirling` (Props/Utils.lean): C30: the Stirling branch, evaluated in exact arithmetic, exceeds `ln n!` by at most `1/(144 (n+1)²)` (hence < 1e-6), for every n above the table that is not `u64::MAX`
* `C30_table` (Props/Utils.lean): C30: the table branch is within 1e-12 of `ln n!` (exact arithmetic: the literal itself)
* `C30_max_overflow` (Props/Utils.lean): C30: at `u64::MAX` the `n + 1` overflows: a debug build panics

## C31 Array (de)serialisation round trip (proved)

Serialising an array of N elements then deserialising yields the same array; deserialising a sequence shorter than N is an error, never a partially initialised array. *For all arrays of every length, all element types.*

* `C31_roundtrip` (Props/Utils.lean): C31: deserialising what was serialised gives back the array (any further data in the stream is left alone)
* `C31_length` (Props/Utils.lean): C31: the announced tuple length is N and exactly N elements are written
* `C31_short` (Props/Utils.lean): C31: a sequence of fewer than N good elements is an `invalid_length` error
* `C31_element_error` (Props/Utils.lean): C31: an element that fails to parse within the first N makes the whole call fail with that error
* `C31_never_incomplete` (Props/Utils.lean): C31: the `try_into().unwrap()` never panics, and any returned array consists of the first N elements read

## C32 Mixture::new (proved)

Mixture::new(weights, components) succeeds exactly when weights form an accepted simplex vector (N >= 1), keeps weights and components, and its support contains the support of every component and nothing outside their interval hull. *For all weights, all component arrays.*

* `C32_new_iff` (Props/Mixture.lean): C32: for equally many (≥ 1) weights and components, `Mixture::new` returns `m` exactly when the weights are an accepted simplex vector, and then `m` holds the weights and the components as given (any support space)
* `C32_new_keeps` (Props/Mixture.lean): C32: what is stored
* `C32_new_support` (Props/Mixture.lean): C32: for interval supports the stored support is the interval hull of the component supports
* `C32_new_error` (Props/Mixture.lean): C32: rejected weights give the simplex error, never a panic
* `C32_empty_panics` (Props/Mixture.lean): C32: with N = 0 `new` and `new_unchecked` panic (index out of bounds) instead of returning an error

## C33 Mixture cdf/pdf are the weighted sums (proved)

cdf = sum_i w_i F_i, pdf = sum_i w_i f_i; hence in exact arithmetic for weights summing to 1 the mixture cdf is a valid monotone CDF and pdf is its derivative when the components' are. *For all mixtures of every size.*

* `C33_cdf` (Props/Mixture.lean): C33: the mixture cdf is the weighted sum of the component cdfs
* `C33_pdf` (Props/Mixture.lean): C33: the mixture pdf is the weighted sum of the component pdfs
* `C33_valid` (Props/Mixture.lean): C33: if the weights sum to one and every component has a valid distribution function with its pdf as density, then so has the mixture: the computed cdf is a valid distribution function and the computed pdf its density

## C34 Mixture cdf always returns a valid probability (partial)

Every accepted mixture of valid components has cdf(x) in [0,1]. *For all accepted mixtures, all points.*

* `C34_cdf_in_unit_partial` (Props/Mixture.lean): C34 (partial): with weights summing exactly to one, exact arithmetic gives a cdf in [0,1]. The full claim is false (`C34_cdf_in_unit_violated`).
* `C34_cdf_bound_partial` (Props/Mixture.lean): C34 (partial): for any rounding, an accepted mixture of at most 2^30 components with valid cdfs has cdf in [0, 1 + 1.2e-5]
* `C34_cdf_in_unit_violated` (Props/Mixture.lean): C34 fails: weights `[1, 2^-18]` are accepted, and where both components have cdf 1 the mixture cdf is 1 + 2^-18 > 1, for every lawful arithmetic (in particular binary64)

Note: The code does not have the full property; proved negation: C34 fails: weights `[1, 2^-18]` are accepted, and where both components have cdf 1 the mixture cdf is 1 + 2^-18 > 1, for every lawful arithmetic (in particular binary64) Proved part: with weights summing exactly to one, exact arithmetic gives a cdf in [0,1]. The full claim is false (`C34_cdf_in_unit_violated`). | for any rounding, an accepted mixture of at most 2^30 components with valid cdfs has cdf in [0, 1 + 1.2e-5]

## C35 Mixture mean and variance (proved)

mean = sum w_i m_i and variance = sum w_i (v_i + (m_i - mean)^2) >= 0 (law of total variance) for weights summing to one and v_i >= 0. *For all mixtures of every size.*

* `C35_mean` (Props/Mixture.lean): C35: the mixture mean is the weighted sum of the component means
* `C35_variance` (Props/Mixture.lean): C35: the mixture variance is Σ w_i (v_i + (m_i - mean)²) (law of total variance), and non-negative

## C36 Mixture sampling (proved)

sample draws component i (by weight) then samples that component with the remaining RNG; only listed components are sampled. *For all mixtures, all RNG states.*

* `C36_sample` (Props/Mixture.lean): C36: for N ≥ 1, `sample` uses one uniform draw `u` to pick an index `i < N` exactly as `sample_index` specifies (C08), then returns what component `i` samples from the remaining generator state. It never panics.
* `C36_sample_measure` (Props/Mixture.lean): C36: in exact arithmetic the draws selecting component `i` have Lebesgue measure `w i`

## C37 Mixture params round trip (proved)

From<Params>(m.params()) = m for every mixture; a params value with too many component_params panics. *For all mixtures.*

* `C37_params_roundtrip` (Props/Mixture.lean): C37: converting `params()` back gives the same mixture, for every mixture built by `new` or `new_unchecked` (lengths equal, support computed from the components), provided the components' own round trip holds
* `C37_new_roundtrip` (Props/Mixture.lean): C37: in particular for every mixture returned by `new`
* `C37_too_many_panics` (Props/Mixture.lean): C37: too many component parameters panic (index out of bounds)
* `C37_too_few_ub` (Props/Mixture.lean): C37: too few component parameters read uninitialised memory (undefined behaviour reachable from safe code: `Params` has public fields)

## C38 Univariate normal is the Gaussian measure (proved)

For sigma^2 > 0: pdf is the Gaussian density, cdf the Gaussian distribution function (0/1 at the infinities), mean/variance its moments, quantile its inverse; z/precision are (x-mu)/sigma and 1/sigma^2. *For all mu, sigma^2 > 0, x.*

* `C38_normal_is_gaussian` (Props/Normal.lean): C38: a constructed normal is the Gaussian measure with its parameters. Density, distribution function (also at the infinities), mean, variance, skewness, quantile, `z` and `precision` are those of Mathlib's `gaussianReal`.
* `C38_normal_sample_law` (Props/Normal.lean): C38: sampling is an affine image of a standard normal draw whose law is exactly the Gaussian of the parameters; exactly one draw is consumed.

## C39 Normal kurtosis (partial)

kurtosis is the fourth standardised moment (3) and excess_kurtosis = kurtosis - 3 (0). *For all normals.*

* `C39_kurtosis_violated` (Props/Normal.lean): C39 (violated): for every normal, `kurtosis()` is not the fourth standardised moment, and `excess_kurtosis()` is not that minus 3.
* `C39_kurtosis_partial` (Props/Normal.lean): C39 (partial): what holds is that both values are exactly 3 too small, so that `excess = kurtosis − 3`. Missing: agreement with the moments themselves, which is false.

Note: The code does not have the full property; proved negation: for every normal, `kurtosis()` is not the fourth standardised moment, and `excess_kurtosis()` is not that minus 3. Proved part: what holds is that both values are exactly 3 too small, so that `excess = kurtosis − 3`. Missing: agreement with the moments themselves, which is false.

## C40 Normal convolution is the law of the sum (proved)

convolve returns the distribution of the sum of independent normals: means and variances add; it is commutative and associative in exact arithmetic, commutative in floating point. *For all pairs/triples of normals.*

* `C40_convolve_law` (Props/Normal.lean): C40: the convolution of two normals has the law of the sum of independent draws
* `C40_convolve_comm` (Props/Normal.lean): C40: convolution is commutative, bit for bit, in every arithmetic
* `C40_convolve_assoc` (Props/Normal.lean): C40: convolution is associative in exact arithmetic: both orders succeed with the same mean and variance

## C41 Normal log-likelihood (partial)

log_likelihood(xs) = sum_i ln pdf(x_i), so it is additive over concatenation of samples. *For all samples of every length.*

* `C41_loglik_violated` (Props/Normal.lean): C41 (violated): for every non-empty sample and every normal with 2πσ² ≠ 1 the reported log-likelihood is not `Σ ln pdf(x_i)`.
* `C41_loglik_partial` (Props/Normal.lean): C41 (partial): the reported value differs from `Σ ln pdf(x_i)` by exactly `n/4 · ln(2πσ²)`; it is additive over concatenation. Missing: equality, which is false.

Note: The code does not have the full property; proved negation: for every non-empty sample and every normal with 2πσ² ≠ 1 the reported log-likelihood is not `Σ ln pdf(x_i)`. Proved part: the reported value differs from `Σ ln pdf(x_i)` by exactly `n/4 · ln(2πσ²)`; it is additive over concatenation. Missing: equality, which is false.

## C42 Normal score is the gradient of the log-likelihood (proved)

score.mu is the derivative in mu and score.Sigma the derivative in the scale of sum ln pdf. *For all samples of every length.*

* `C42_score_gradient` (Props/Normal.lean): C42: `score` is the gradient of `Σ ln pdf` with respect to the mean and the standard deviation

## C43 Normal MLE (proved)

fit_mle returns mean and biased variance, which maximise sum ln pdf over all (mu, sigma^2); it refuses empty data and constant data. *For all samples of every length.*

* `C43_mle_maximises` (Props/Normal.lean): C43: on data that are not all equal, `fit_mle` succeeds with the empirical mean and biased variance, and these maximise the Gaussian log-likelihood among all means and all positive variances.
* `C43_mle_refuses_constant` (Props/Normal.lean): C43: constant data (in particular a single point) are refused, in exact arithmetic
* `C43_mle_refuses_empty` (Props/Normal.lean): C43: empty data are refused in every lawful arithmetic (binary64 in particular)

## C44 Normal Shannon entropy, Fisher information, mode, median (proved)

entropy is 1/2 ln(2 pi e sigma^2); the mode maximises pdf; cdf(median)=1/2; Fisher information is diag(1/s2, 1/(2 s2^2)), minus the expected Hessian of ln pdf. *For all normals.*

* `C44_entropy_fisher_mode_median` (Props/Normal.lean): C44: Shannon entropy is the differential entropy of the Gaussian density, the Fisher information matrix is that of the family in (mean, variance), the reported mode maximises the density, and cdf(median) = 1/2.

## C45 Gradient scaling (partial)

Multiplying a Grad by s scales every component by s (univariate, bivariate, paired, multivariate). *For all gradients, all scalars.*

* `C45_mv_grad_mul` (Props/MvNormal.lean): C45: gradients of the general, diagonal and isotropic normals scale componentwise
* `C45_diag_grad_mul` (Props/MvNormal.lean): C45: scaling a diagonal gradient scales every component
* `C45_iso_grad_mul` (Props/MvNormal.lean): C45: scaling an isotropic gradient scales every component
* `C45_uv_grad_mul` (Props/Normal2.lean): C45: univariate gradients scale componentwise (in every arithmetic)
* `C45_bv_grad_mul_violated` (Props/Normal2.lean): C45 (violated): scaling a bivariate gradient leaves the second variance component unscaled; whenever that component is a nonzero finite number and the factor is finite and not 1, the result is wrong.
* `C45_bv_grad_mul_partial` (Props/Normal2.lean): C45 (partial): all the other components of a bivariate gradient are scaled. Missing: the second variance component.

Note: The code does not have the full property; proved negation: scaling a bivariate gradient leaves the second variance component unscaled; whenever that component is a nonzero finite number and the factor is finite and not 1, the result is wrong. Proved part: all the other components of a bivariate gradient are scaled. Missing: the second variance component.

## C46 Bivariate normal density (proved)

z, pdf, covariance, correlation are those of the bivariate Gaussian with scales and rho: pdf(x) = exp(-Q/2)/(2 pi s0 s1 sqrt(1-rho^2)) with Q the Mahalanobis form of the covariance matrix. *For all parameters with |rho|<1.*

* `C46_bivariate_density` (Props/Normal2.lean): C46: with positive variances and |ρ| < 1, `covariance()` is a matrix Σ with `det Σ > 0`, `z(x)` is the Mahalanobis form `(x-μ)ᵀ Σ⁻¹ (x-μ)`, `pdf` is the bivariate Gaussian density `exp(-½ (x-μ)ᵀΣ⁻¹(x-μ)) / (2π √det Σ)`, `variance()` the diagonal of Σ, and `correlation()` is `Σ_ij / √(Σ_ii Σ_jj)`.

## C47 Bivariate/paired normal entropy (partial)

shannon_entropy = 1 + ln(2 pi) + 1/2 ln det Sigma. *For all parameters.*

* `C47_bivariate_entropy_violated` (Props/Normal2.lean): C47 (violated): for every bivariate normal with |ρ| < 1 the reported entropy strictly exceeds `1 + ln 2π + ½ ln det Σ`, where Σ is the matrix returned by `covariance()`.
* `C47_bivariate_entropy_partial` (Props/Normal2.lean): C47 (partial, bivariate): the reported value is `1 + ln 2π + ½ σ₀²σ₁²(1-ρ)`. Missing: the logarithm and the square.
* `C47_paired_entropy_violated` (Props/Normal2.lean): C47 (violated, paired): for every paired normal the reported entropy strictly exceeds `1 + ln 2π + ½ ln(σ₀²σ₁²)`

Note: The code does not have the full property; proved negation: for every bivariate normal with |ρ| < 1 the reported entropy strictly exceeds `1 + ln 2π + ½ ln det Σ`, where Σ is the matrix returned by `covariance()`. | for every paired normal the reported entropy strictly exceeds `1 + ln 2π + ½ ln(σ₀²σ₁²)` Proved part: the reported value is `1 + ln 2π + ½ σ₀²σ₁²(1-ρ)`. Missing: the logarithm and the square.

## C48 Bivariate sampling (proved)

The sample is mu + A z with A A^T = covariance(), for two independent standard normal draws. *For all parameters, all draws.*

* `C48_bivariate_sample` (Props/Normal2.lean): C48: a bivariate sample is `μ + A z`, `z` the two consecutive standard normal draws, where `A Aᵀ` is the matrix returned by `covariance()`; also at |ρ| = 1.

## C49 Paired normal is a product of independent normals (partial)

pdf factors into the two univariate pdfs; moments are the marginal moments; log_likelihood is additive over samples. *For all parameters, all samples.*

* `C49_paired_product` (Props/Normal2.lean): C49: a paired normal's density is the product of the two univariate densities with its marginal parameters; mean and variance are the marginal ones, the covariance is diagonal and the correlation the identity.
* `C49_paired_loglik_violated` (Props/Normal2.lean): C49 (violated): the log-likelihood of a paired normal is not additive over samples: for every accepted paired normal and every point other than its mean, the log-likelihood of that point taken twice is not twice that of the point.
* `C49_paired_loglik_partial` (Props/Normal2.lean): C49 (partial): for a single observation the log-likelihood is the log of the density. Missing: additivity for more than one observation, which is false.
* `C49_paired_score` (Props/Normal2.lean): C49: the paired score consists, coordinate by coordinate, of the univariate scores (C42)
* `C49_paired_sample` (Props/Normal2.lean): C49: a paired sample is the pair of the two univariate samples driven by consecutive draws

Note: The code does not have the full property; proved negation: the log-likelihood of a paired normal is not additive over samples: for every accepted paired normal and every point other than its mean, the log-likelihood of that point taken twice is not twice that of the point. Proved part: for a single observation the log-likelihood is the log of the density. Missing: additivity for more than one observation, which is false.

## C50 Mahalanobis distance of multivariate normals (partial)

d_mahalanobis_squared(x) = (x-mu)^T Sigma^{-1} (x-mu) for general, diagonal and isotropic covariances. *For all dimensions, all parameters, all x.*

* `C50_diag_mahalanobis_points_partial` (Props/Mahalanobis.lean): C50 (partial, diagonal covariance): at every point the value returned is `Σ (x_i-μ_i)/v_i²`; it is the squared Mahalanobis distance exactly where `Σ ((x_i-μ_i)² v_i - (x_i-μ_i))/v_i² = 0`, in particular where every coordinate is `μ_i` or `μ_i + 1/v_i`. Missing: every other point, where it is wrong.
* `C50_iso_mahalanobis_points_partial` (Props/Mahalanobis.lean): C50 (partial, isotropic covariance): as in the diagonal case.
* `C50_mv_mahalanobis_violated` (Props/MvNormal.lean): C50 (violated, general covariance): whenever some off-diagonal entry of the inverse covariance is nonzero there is an `x` at which the returned value is not `(x-μ)ᵀ Σ⁻¹ (x-μ)`.
* `C50_mv_mahalanobis_partial` (Props/MvNormal.lean): C50 (partial, general covariance): the distance is right when the inverse covariance is diagonal (equivalently, the coordinates are uncorrelated). Missing: correlated coordinates, where it is wrong.
* `C50_diag_mahalanobis_violated` (Props/MvNormal.lean): C50 (violated, diagonal covariance): in every positive dimension the "squared distance" is even negative at some points, hence not `Σ (x_i-μ_i)²/v_i`.
* `C50_diag_mahalanobis_partial` (Props/MvNormal.lean): C50 (partial, diagonal covariance): the distance is 0 at the mean. Missing: everything else, which is wrong.
* `C50_iso_mahalanobis_violated` (Props/MvNormal.lean): C50 (violated, isotropic covariance): as in the diagonal case
* `C50_iso_mahalanobis_partial` (Props/MvNormal.lean): C50 (partial, isotropic covariance): the distance is 0 at the mean

Note: The code does not have the full property; proved negation: whenever some off-diagonal entry of the inverse covariance is nonzero there is an `x` at which the returned value is not `(x-μ)ᵀ Σ⁻¹ (x-μ)`. | in every positive dimension the "squared distance" is even negative at some points, hence not `Σ (x_i-μ_i)²/v_i`. | as in the diagonal case Proved part: at every point the value returned is `Σ (x_i-μ_i)/v_i²`; it is the squared Mahalanobis distance exactly where `Σ ((x_i-μ_i)² v_i - (x_i-μ_i))/v_i² = 0`, in particular where every coordinate is `μ_i` or `μ_i + 1/v_i`. Missing: every other point, where it is wrong. | as in the diagonal case. | the distance is right when the inverse covariance is diagonal (equivalently, the coordinates are uncorrelated). Missing: correlated coordinates, where it is wrong. | the distance is 0 at the mean. Missing: everything else, which is wrong. | the distance is 0 at the mean

## C51 Multivariate sampling has the requested covariance (partial)

Samples are mu + A z with A A^T = Sigma for general, diagonal and isotropic covariances. *For all dimensions, all parameters, all draws.*

* `C51_mv_sample` (Props/MvNormal.lean): C51 (general covariance): samples are `μ + A z` with `A Aᵀ = Σ`; they consume `n` draws, and for independent standard normal draws their law is the Gaussian with mean `μ` and covariance `Σ`.
* `C51_diag_sample_violated` (Props/MvNormal.lean): C51 (violated, diagonal covariance): unless every variance is 1 the samples do not have the requested covariance
* `C51_diag_sample_partial` (Props/MvNormal.lean): C51 (partial, diagonal covariance): right when every variance is 1. Missing: all other variances (there the samples have covariance `diag(v²)`).
* `C51_iso_sample_violated` (Props/MvNormal.lean): C51 (violated, isotropic covariance): unless the variance is 1 (or the dimension 0) the samples do not have the requested covariance
* `C51_iso_sample_partial` (Props/MvNormal.lean): C51 (partial, isotropic covariance): right when the variance is 1

Note: The code does not have the full property; proved negation: unless every variance is 1 the samples do not have the requested covariance | unless the variance is 1 (or the dimension 0) the samples do not have the requested covariance Proved part: right when every variance is 1. Missing: all other variances (there the samples have covariance `diag(v²)`). | right when the variance is 1

## C52 Multivariate normal entropy and moments (proved)

entropy = 1/2 (k(1+ln 2 pi) + ln det Sigma); mean/covariance/variance are the parameters. *For all dimensions, all parameters.*

* `C52_mv_entropy_moments` (Props/MvNormal.lean): C52 (general covariance): the entropy returned is the differential entropy of the Gaussian density with mean `μ` and covariance `Σ`; mean, covariance, variance and mode are those of the parameters.
* `C52_diag_entropy_moments` (Props/MvNormal.lean): C52 (diagonal covariance)
* `C52_iso_entropy_moments` (Props/MvNormal.lean): C52 (isotropic covariance)
* `C52_homogeneous` (Props/MvNormal.lean): C52: `homogeneous(μ, σ²)` is the isotropic normal with all means `μ`, refused in dimension 0; `standard` is its case (0, 1)

## C53 Continuous uniform (proved)

For width > 0: cdf is the distribution function of the uniform law on [lb, lb+width], pdf its density, quantile its inverse on [0,1], mean/variance/skewness/kurtosis its moments, entropy ln width. *For all lb, width > 0, x, p.*

* `C53_uniform` (Props/Dist/Uniform.lean): C53: the continuous uniform law.
* `C53_uniform_domain` (Props/Dist/Uniform.lean): C53: exactly the positive widths are accepted; zero, negative and NaN widths are refused.

## C54 Discrete uniform (partial)

For width > 0: pmf is 1/(width+1) on {lb..lb+width} and 0 elsewhere, sums to 1, cdf(k) is the sum of pmf up to k, mean/variance are its moments. *For all lb, width within i64, k.*

* `C54_uniform_int_partial` (Props/Dist/Uniform.lean): C54: the discrete uniform law, whenever the interval `lb ..= lb + width` and its cardinality fit in i64 (for the rest see `C54_uniform_int_overflow_violated`).
* `C54_uniform_int_overflow_violated` (Props/Dist/Uniform.lean): C54 (violated at the edge): with `width = i64::MAX` construction panics in debug builds and in release builds produces a distribution of negative probability whose entropy is NaN (its variance is still the right one); with `lb + width > i64::MAX` every query of the support, the mass or the distribution function panics in debug builds, and in release builds every mass is zero and the distribution function is the unit step at `lb`.

Note: The code does not have the full property; proved negation: with `width = i64::MAX` construction panics in debug builds and in release builds produces a distribution of negative probability whose entropy is NaN (its variance is still the right one); with `lb + width > i64::MAX` every query of the support, the mass or the distribution function panics in debug builds, and in release builds every mass is zero and the distribution function is the unit step at `lb`. Proved part: the discrete uniform law, whenever the interval `lb ..= lb + width` and its cardinality fit in i64 (for the rest see `C54_uniform_int_overflow_violated`).

## C55 Discrete uniform quantile (partial)

quantile(p) = inf{k : p <= cdf(k)}. *For all parameters, p in [0,1].*

* `C55_uniform_int_quantile_violated` (Props/Dist/Uniform.lean): C55 (violated): for every discrete uniform law, `quantile(1)` lies outside the support, one above the largest value.
* `C55_uniform_int_quantile_partial` (Props/Dist/Uniform.lean): C55 (what holds): `quantile(p)` is the least `k` of the support with `p <= cdf(k)` for every `p` in `[0,1]` that is not a positive multiple of `1/(width+1)`.

Note: The code does not have the full property; proved negation: for every discrete uniform law, `quantile(1)` lies outside the support, one above the largest value. Proved part: `quantile(p)` is the least `k` of the support with `p <= cdf(k)` for every `p` in `[0,1]` that is not a positive multiple of `1/(width+1)`.

## C56 Degenerate laws (proved)

cdf is the unit step at k, pmf(k)=1 and 0 elsewhere, mean=median=k, variance 0, entropy 0, sample always k. *For all k, x, RNG states.*

* `C56_degenerate_real` (Props/Dist/Degenerate.lean): C56 (f64): construction never fails; `cdf` is the distribution function of the point mass at `k`, for every `x` (including infinities); `sample` always returns `k` and leaves the generator alone; mean, median and mode are `k`, variance and entropy 0.
* `C56_degenerate_step` (Props/Dist/Degenerate.lean): C56 (f64), cumulative function at every pair of points: 0 strictly below `k`, 1 at and above.
* `C56_degenerate_int` (Props/Dist/Degenerate.lean): C56 (i64): the mass function is the point mass at `k`, the distribution function its running sum.

## C57 Arcsine (proved)

pdf is the derivative of cdf inside the support, cdf runs from 0 to 1 and is monotone, cdf(median)=1/2, mean symmetric, variance = width^2/8. *For all a, w > 0, x.*

* `C57_arcsine` (Props/Dist/Arcsine.lean): C57: on its support `[l, l + w]` the arcsine law, with its mean, variance, skewness, kurtosis and median.
* `C57_arcsine_modes` (Props/Dist/Arcsine.lean): C57: the two reported modes are the two ends of the support: exactly the points near which the density exceeds every bound.

## C58 Arcsine entropy (partial)

shannon_entropy is the differential entropy ln(pi w/4). *For all a, w > 0.*

* `C58_arcsine_entropy_violated` (Props/Dist/Arcsine.lean): C58 (violated): the entropy returned ignores the width: it is the differential entropy exactly when the width is 1.
* `C58_arcsine_entropy_partial` (Props/Dist/Arcsine.lean): C58 (what holds): the value returned differs from the differential entropy by exactly `ln w`.

Note: The code does not have the full property; proved negation: the entropy returned ignores the width: it is the differential entropy exactly when the width is 1. Proved part: the value returned differs from the differential entropy by exactly `ln w`.

## C59 Cauchy (proved)

cdf is the distribution function of the Cauchy law, pdf its derivative and density, quantile its inverse, median/mode x0, fwhm 2 gamma: pdf(x0 +- gamma) = pdf(x0)/2. *For all x0, gamma > 0, x, p in (0,1).*

* `C59_cauchy` (Props/Dist/Cauchy.lean): C59: the Cauchy law.

## C60 Cauchy convolution (proved)

convolve adds locations and scales (commutative, associative in exact arithmetic). *For all pairs.*

* `C60_cauchy_convolve` (Props/Dist/Cauchy.lean): C60: `convolve` of two constructed Cauchy laws always succeeds, and the result is the Cauchy law of the sum of two independent variables (measure convolution); it is again accepted by the constructor.
* `C60_cauchy_convolve_comm_assoc` (Props/Dist/Cauchy.lean): C60: commutative and associative (exact reading): the parameters of the results are equal reals.

## C61 Exponential law on its support (proved)

For x >= 0 cdf/pdf are those of the exponential law with rate lambda; mean 1/lambda, variance 1/lambda^2; cdf(median)=1/2; entropy 1 - ln lambda; memoryless: ccdf(s+t)=ccdf(s)ccdf(t). *For all lambda > 0, x >= 0.*

* `C61_exponential` (Props/Dist/Exponential.lean): C61: on `x >= 0` the exponential law; all moments but the kurtosis (see C64), median, entropy, memorylessness.

## C62 Exponential off its support (partial)

cdf(x) and pdf(x) are 0 for x < 0 and cdf always is a valid Probability. *For all x.*

* `C62_exponential_off_support_violated` (Props/Dist/Exponential.lean): C62 (violated): below the support, for every rate, `cdf` is negative (not a valid probability) and `pdf` positive.
* `C62_exponential_on_support_partial` (Props/Dist/Exponential.lean): C62 (what holds): on the support `cdf` is a valid probability.

Note: The code does not have the full property; proved negation: below the support, for every rate, `cdf` is negative (not a valid probability) and `pdf` positive. Proved part: on the support `cdf` is a valid probability.

## C63 Exponential quantile (partial)

cdf(quantile(p)) = p. *For all p in [0,1).*

* `C63_exponential_quantile_violated` (Props/Dist/Exponential.lean): C63 (violated): for every rate and every `p < 1`, `quantile(p)` is negative and `cdf(quantile(p)) < 0`, so it is never `p`.
* `C63_exponential_median_partial` (Props/Dist/Exponential.lean): C63 (what holds): `cdf(median) = 1/2`.

Note: The code does not have the full property; proved negation: for every rate and every `p < 1`, `quantile(p)` is negative and `cdf(quantile(p)) < 0`, so it is never `p`. Proved part: `cdf(median) = 1/2`.

## C64 Exponential kurtosis and Fisher information (partial)

kurtosis = excess_kurtosis + 3 = 9; Fisher information is 1/lambda^2. *For all lambda > 0.*

* `C64_exponential_kurtosis_fisher_violated` (Props/Dist/Exponential.lean): C64 (violated): `kurtosis()` is never the fourth standardised moment, and the Fisher information is right only at rate 1.
* `C64_exponential_excess_partial` (Props/Dist/Exponential.lean): C64 (what holds): the excess kurtosis, 6, is right.

Note: The code does not have the full property; proved negation: `kurtosis()` is never the fourth standardised moment, and the Fisher information is right only at rate 1. Proved part: the excess kurtosis, 6, is right.

## C65 Laplace (partial)

cdf is the Laplace distribution function and pdf its density; moments, entropy, median and mode are those of the law, kurtosis=excess+3, and sampling inverts the distribution function. *For all mu, b > 0, x.*

* `C65_laplace_cdf_pdf_swapped_violated` (Props/Dist/Laplace.lean): C65 (violated): `cdf` and `pdf` are swapped. For every Laplace law, `cdf` computes the density and `pdf` the distribution function; so `cdf` is not the distribution function, `pdf` is no density at all (of any law), and for `b < 1/2` `cdf(mu)` is not even a valid probability.
* `C65_laplace_rest_partial` (Props/Dist/Laplace.lean): C65 (what holds): apart from that swap, the moments, entropy, median and mode are those of the Laplace law (whose density and distribution function are the swapped methods), and the sampler is its inverse distribution function.

Note: The code does not have the full property; proved negation: `cdf` and `pdf` are swapped. For every Laplace law, `cdf` computes the density and `pdf` the distribution function; so `cdf` is not the distribution function, `pdf` is no density at all (of any law), and for `b < 1/2` `cdf(mu)` is not even a valid probability. Proved part: apart from that swap, the moments, entropy, median and mode are those of the Laplace law (whose density and distribution function are the swapped methods), and the sampler is its inverse distribution function.

## C66 Logistic (proved)

pdf is the derivative of cdf; cdf monotone from 0 to 1; median inverts cdf; mean, variance, skewness, kurtosis, entropy and mode are those of the logistic law. *For all mu, s > 0, x.*

* `C66_logistic` (Props/Dist/Logistic.lean): C66: the logistic law, with all its moments.

## C67 Gumbel (proved)

pdf is the derivative of cdf; cdf monotone from 0 to 1; cdf(median) = 1/2; the mode maximises pdf; mean, variance, skewness, kurtosis (= excess + 3) and entropy are those of the law. *For all mu, beta > 0, x.*

* `C67_gumbel` (Props/Dist/Gumbel.lean): C67: the Gumbel law, skewness `12√6 ζ(3)/π³` included.

## C68 Frechet (proved)

pdf is the derivative of cdf on the support; cdf(median)=1/2; the mode maximises pdf; mean, variance, skewness, excess kurtosis are the moments where they exist and infinite exactly where they do not (alpha <= 1,2,3,4); entropy. *For all parameters, x.*

* `C68_frechet` (Props/Dist/Frechet.lean): C68: on `x > 0` `cdf` and `pdf` are the distribution function and density of the Fréchet law; each of mean, variance, skewness and excess kurtosis is the corresponding moment when it exists, and `+∞` exactly when it does not; median, mode and entropy are right.

## C69 Frechet sampling (partial)

sample applies the inverse cdf to a uniform draw: cdf(sample)=u. *For all draws.*

* `C69_frechet_sampling_violated` (Props/Dist/Frechet.lean): C69 (violated): fed a uniform draw `u`, the sampler returns `(-ln u)^(1/α)`, whose law is the *Weibull* law with scale 1 and shape `α`, not the Fréchet law: for every `u` in `(0,1)` the Weibull distribution function at the sample is `1 - u`, while the Fréchet distribution function at the sample equals `u` only for the single value `u = 1/e`.

Note: The code does not have the full property; proved negation: fed a uniform draw `u`, the sampler returns `(-ln u)^(1/α)`, whose law is the *Weibull* law with scale 1 and shape `α`, not the Fréchet law: for every `u` in `(0,1)` the Weibull distribution function at the sample is `1 - u`, while the Fréchet distribution function at the sample equals `u` only for the single value `u = 1/e`.

## C70 Weibull (proved)

pdf is the density of cdf; cdf(median)=1/2; cdf is 0 at and below 0; mean, variance, skewness, excess kurtosis and entropy are those of the law. *For all lambda, k > 0, x.*

* `C70_weibull` (Props/Dist/Weibull.lean): C70: the Weibull law: distribution function (everywhere), density (off the single point 0), moments of all four orders, median, entropy.

## C71 Weibull mode (partial)

modes are the maximisers of pdf. *For all lambda, k > 1.*

* `C71_weibull_mode_violated` (Props/Dist/Weibull.lean): C71 (violated): for every shape `k > 1`, `modes()` returns 0, where the density vanishes.
* `C71_weibull_mode_partial` (Props/Dist/Weibull.lean): C71 (what holds): for `k ≤ 1` the density decreases on the whole support, so it peaks at its left end, 0.

Note: The code does not have the full property; proved negation: for every shape `k > 1`, `modes()` returns 0, where the density vanishes. Proved part: for `k ≤ 1` the density decreases on the whole support, so it peaks at its left end, 0.

## C72 Kumaraswamy (proved)

pdf is the derivative of cdf on (0,1); cdf(median)=1/2; inverse-cdf sampling: cdf(sample from u) is uniform; interior mode maximises pdf. *For all a,b > 0, x.*

* `C72_kumaraswamy` (Props/Dist/Kumaraswamy.lean): C72: `cdf` on `[0,1]` and `pdf` on `(0,1)` are the distribution function and density of the Kumaraswamy law; mean, variance, skewness are its moments; `cdf(median) = 1/2`; a value sampled from the draw `u` has `cdf = u`, so lies at the `u`-quantile; the reported mode maximises the density for `a, b > 1`, is the end of the interval towards which the density increases when one of them is 1, and none is reported where the density is unbounded (hence has no maximiser) or constant.

## C73 Pareto (proved)

On x >= x_m cdf/pdf are those of the Pareto law; cdf(median)=1/2; mean, variance, skewness, kurtosis are the moments where they exist (alpha > 1,2,3,4) and infinite/refused exactly where they do not; mode x_m; entropy. *For all alpha > 0, x_m > 0, x >= x_m.*

* `C73_pareto` (Props/Dist/Pareto.lean): C73: for a positive minimum `x_m`, `cdf` (on `x ≥ x_m`) and `pdf` (everywhere) are those of the Pareto law; mean and variance are its moments where these exist and `+∞` exactly where they do not; skewness and excess kurtosis are its moments where these exist and panic exactly where they do not; median, mode, entropy are right.

## C74 Pareto off its support and parameter check (partial)

cdf(x)=0 for x < x_m; x_m <= 0 is refused. *For all x.*

* `C74_pareto_below_support_violated` (Props/Dist/Pareto.lean): C74 (violated): `new` accepts every `x_m` whatsoever (zero, negative, even NaN or infinite); and with a positive `x_m`, `cdf` at every point of `(0, x_m)` is a negative number, not a valid probability.

Note: The code does not have the full property; proved negation: `new` accepts every `x_m` whatsoever (zero, negative, even NaN or infinite); and with a positive `x_m`, `cdf` at every point of `(0, x_m)` is a negative number, not a valid probability.

## C75 Rayleigh (partial)

pdf is the derivative of cdf, cdf(median)=1/2; mean, variance, skewness, kurtosis, entropy and mode are those of the Rayleigh law. *For all sigma > 0, x >= 0.*

* `C75_rayleigh_cdf_kurtosis_violated` (Props/Dist/Rayleigh.lean): C75 (violated): `cdf` ignores `sigma` (it divides and multiplies by it), so it is the Rayleigh distribution function for no scale but 1; and `kurtosis`/`excess_kurtosis` return constants above 80 while the true kurtosis is below 4.
* `C75_rayleigh_partial` (Props/Dist/Rayleigh.lean): C75 (what holds): `pdf` is the Rayleigh density on `x ≥ 0`; mean, variance, skewness, entropy and mode are its; `median` is the median of the Rayleigh law (not of the method `cdf`, unless `sigma = 1`).

Note: The code does not have the full property; proved negation: `cdf` ignores `sigma` (it divides and multiplies by it), so it is the Rayleigh distribution function for no scale but 1; and `kurtosis`/`excess_kurtosis` return constants above 80 while the true kurtosis is below 4. Proved part: `pdf` is the Rayleigh density on `x ≥ 0`; mean, variance, skewness, entropy and mode are its; `median` is the median of the Rayleigh law (not of the method `cdf`, unless `sigma = 1`).

## C76 Triangular (partial)

cdf is continuous monotone from 0 to 1, pdf its derivative, cdf(median)=1/2, mode c maximises pdf, variance as for the triangular law. *For all a, b, c.*

* `C76_triangular_partial` (Props/Dist/Triangular.lean): C76 (what holds): with `c = a + a2c` and `b = c + c2b`: `support` is `[a, b]`; `cdf` is the distribution function of the triangular law at every point; `pdf` is its density at the peak and everywhere further than `1e-7` from it; variance, skewness, kurtosis and excess kurtosis are its moments, `cdf(median) = 1/2`, the mode maximises the density.
* `C76_triangular_symmetric` (Props/Dist/Triangular.lean): C76: `Params::symmetric(a, b)` is accepted exactly for `a < b` and gives the law on `[a, b]` with peak at the midpoint.
* `C76_triangular_pdf_near_peak_violated` (Props/Dist/Triangular.lean): C76 (violated): at every point of the support within `1e-7` of the peak, other than the peak itself, `pdf` returns the peak value `2/(b-a)`, which is not the density there.

Note: The code does not have the full property; proved negation: at every point of the support within `1e-7` of the peak, other than the peak itself, `pdf` returns the peak value `2/(b-a)`, which is not the density there. Proved part: with `c = a + a2c` and `b = c + c2b`: `support` is `[a, b]`; `cdf` is the distribution function of the triangular law at every point; `pdf` is its density at the peak and everywhere further than `1e-7` from it; variance, skewness, kurtosis and excess kurtosis are its moments, `cdf(median) = 1/2`, the mode maximises the density.

## C77 Triangular mean (partial)

mean = (a+b+c)/3. *For all a,b,c.*

* `C77_triangular_mean_violated` (Props/Dist/Triangular.lean): C77 (violated): the mean of the law is `(a+b+c)/3`; the code divides by 2, so it is right only where `a+b+c = 0`.

Note: The code does not have the full property; proved negation: the mean of the law is `(a+b+c)/3`; the code divides by 2, so it is right only where `a+b+c = 0`.

## C78 Cosine (partial)

cdf monotone from 0 to 1 on the support; pdf is its derivative. *For all mu, s > 0, x.*

* `C78_cosine_partial` (Props/Dist/Cosine.lean): C78 (what holds): on the support `cdf` is the distribution function of the raised-cosine law; `support` is `[μ - s, μ + s]`; mean, variance, skewness are its moments, `cdf(median) = 1/2`, and the mode maximises its density. Missing: `pdf`, below.
* `C78_cosine_pdf_violated` (Props/Dist/Cosine.lean): C78 (violated): `pdf` is `s/2` times the density of the law at every point, so it is wrong at every interior point of the support unless `s = 2`, and its total mass over the support is `s/2`.

Note: The code does not have the full property; proved negation: `pdf` is `s/2` times the density of the law at every point, so it is wrong at every interior point of the support unless `s = 2`, and its total mass over the support is `s/2`. Proved part: on the support `cdf` is the distribution function of the raised-cosine law; `support` is `[μ - s, μ + s]`; mean, variance, skewness are its moments, `cdf(median) = 1/2`, and the mode maximises its density. Missing: `pdf`, below.

## C79 Generalised Pareto (proved)

On its support pdf is the density of cdf, cdf(median)=1/2, cdf monotone from 0 to 1, entropy. *For all mu, sigma > 0, zeta > 0, x.*

* `C79_gpd` (Props/Dist/GEV.lean): C79: on its support `x ≥ mu`, `cdf` and `pdf` are the distribution function and density of the generalised Pareto law; median and entropy are right.

## C80 Generalised Pareto mean/variance domain (partial)

mean is returned exactly when it exists (zeta < 1), variance exactly when zeta < 1/2 (skewness 1/3, kurtosis 1/4). *For all zeta > 0.*

* `C80_gpd_moment_domain_violated` (Props/Dist/GEV.lean): C80 (violated): the guards are the wrong way round. `mean` panics for every shape `ζ ≤ 1`, in particular whenever the mean exists (`ζ < 1`), and returns a number for every `ζ > 1`, where there is no finite mean; `variance` panics for every `ζ ≤ 1/2`, in particular whenever the variance exists, and returns for every larger `ζ`, where there is none; the same for skewness and excess kurtosis.
* `C80_gpd_returned_values_violated` (Props/Dist/GEV.lean): C80 (violated), the values returned: where `mean` does return, its answer lies below the whole support; `variance` returns a negative number; `skewness` is NaN for `ζ > 1/2`, and for `1/3 < ζ ≤ 1/2`, as `excess_kurtosis` for every `ζ > 1/3`, the textbook expression at a shape where the law has no such moment.

Note: The code does not have the full property; proved negation: the guards are the wrong way round. `mean` panics for every shape `ζ ≤ 1`, in particular whenever the mean exists (`ζ < 1`), and returns a number for every `ζ > 1`, where there is no finite mean; `variance` panics for every `ζ ≤ 1/2`, in particular whenever the variance exists, and returns for every larger `ζ`, where there is none; the same for skewness and excess kurtosis. | C80 (violated), the values returned: where `mean` does return, its answer lies below the whole support; `variance` returns a negative number; `skewness` is NaN for `ζ > 1/2`, and for `1/3 < ζ ≤ 1/2`, as `excess_kurtosis` for every `ζ > 1/3`, the textbook expression at a shape where the law has no such moment.

## C81 Generalised extreme value (proved)

On its support pdf is the density of cdf (shape above the 1e-7 switch), cdf(median)=1/2; moments where they exist and infinite exactly where they do not; mode; entropy. *For all parameters, x.*

* `C81_gev` (Props/Dist/GEV.lean): C81: for every shape `ζ ≥ 1e-7` (where the code uses the general formula): on the support `x > mu - sigma/ζ`, `cdf` and `pdf` are the distribution function and density of the generalised extreme value law; mean, variance, skewness and excess kurtosis are its moments where these exist and `+∞` exactly where they do not; median, mode and entropy are right.

## C82 Poisson (proved)

pmf is the Poisson mass lambda^k e^-lambda/k! (up to the ln k! table/Stirling accuracy), mean = variance = lambda. *For all lambda > 0, k.*

* `C82_poisson` (Props/Dist/Poisson.lean): C82: the accepted rates are the positive ones; `pmf(k)` never panics for k < u64::MAX, is a valid probability and is the Poisson mass up to a relative error of 2e-6 (the accuracy of the ln k! table and Stirling series); mean = variance = rate and the skewness are those of the law.

## C83 Poisson convolution (proved)

convolve returns the law of the sum of independent Poissons. *For all pairs.*

* `C83_poisson_convolve` (Props/Dist/Poisson.lean): C83: convolution never fails and returns the Poisson law of the sum.

## C84 Poisson likelihood, score, MLE (partial)

log_likelihood is additive; score is its derivative in lambda; fit_mle returns the sample mean, the maximiser, and refuses empty/all-zero data. *For all samples of every length.*

* `C84_poisson_log_likelihood` (Props/Dist/Poisson.lean): C84: `log_likelihood` is the sum of the log masses, within 1e-6 per observation, and does not panic on counts below u64::MAX.
* `C84_poisson_additive` (Props/Dist/Poisson.lean): C84: the log-likelihood of a concatenation is the sum (of the ideal values the code approximates).
* `C84_poisson_score_violated` (Props/Dist/Poisson.lean): C84 (violated): `score` is the derivative of the log-likelihood only for the empty sample: the sign of the sample size is wrong.
* `C84_poisson_score_partial` (Props/Dist/Poisson.lean): C84 (what holds): the score of the empty sample is 0.
* `C84_poisson_mle` (Props/Dist/Poisson.lean): C84: `fit_mle` of data with a positive total returns the sample mean, which maximises the likelihood over all positive rates; empty and all-zero data are refused.

Note: The code does not have the full property; proved negation: `score` is the derivative of the log-likelihood only for the empty sample: the sign of the sample size is wrong. Proved part: the score of the empty sample is 0.

## C85 Bernoulli pmf and moments (proved)

pmf(true)=p, pmf(false)=1-p (sums to 1), mean p, variance p(1-p), kurtosis = excess+3, MLE = fraction of true, refuses empty data. *For all p, all samples.*

* `C85_bernoulli` (Props/Dist/Bernoulli.lean): C85: every accepted parameter lies in [0,1]; pmf, mean, variance, skewness are those of the Bernoulli law; `kurtosis() = excess_kurtosis() + 3`.
* `C85_bernoulli_mle` (Props/Dist/Bernoulli.lean): C85: `fit_mle` of non-empty data succeeds with the fraction of `true`, which maximises the likelihood over [0,1]; empty data is refused.

## C86 Bernoulli cdf (partial)

cdf(false)=1-p and cdf(true)=1. *For all p.*

* `C86_bernoulli_cdf_violated` (Props/Dist/Bernoulli.lean): C86 (violated): `cdf(false)` is 0 for every parameter, while P(X ≤ false) = 1 - p; wrong unless p = 1.
* `C86_bernoulli_cdf_partial` (Props/Dist/Bernoulli.lean): C86 (what holds): `cdf(true) = 1`, and `cdf` is monotone with valid values.

Note: The code does not have the full property; proved negation: `cdf(false)` is 0 for every parameter, while P(X ≤ false) = 1 - p; wrong unless p = 1. Proved part: `cdf(true) = 1`, and `cdf` is monotone with valid values.

## C87 Bernoulli/Binomial convolution (proved)

Bernoulli+Bernoulli and Binomial+Bernoulli/Binomial with equal p give Binomial with added counts, whose pmf is the convolution of the pmfs; different p is refused. *For all n,m,p,k.*

* `C87_bernoulli_convolve` (Props/Dist/Binomial.lean): C87: Bernoulli + Bernoulli with equal p is Binomial(2,p), the law of the sum; different p is refused.
* `C87_binomial_convolve_bernoulli` (Props/Dist/Binomial.lean): C87: Binomial + Bernoulli
* `C87_binomial_convolve` (Props/Dist/Binomial.lean): C87: Binomial + Binomial

## C88 Binomial (partial)

pmf is C(n,k)p^k q^(n-k), sums to 1, mean np, variance npq. *For all n <= 61, p, k <= n.*

* `C88_binomial` (Props/Dist/Binomial.lean): C88: `pmf(k) = C(n,k) p^k (1-p)^(n-k)` for every `k ≤ n` such that the intermediate products of `choose` fit in u64 and the exponents fit in i32 (both builds); it is a mass function with mean np, variance np(1-p) and the binomial skewness.
* `C88_binomial_62` (Props/Dist/Binomial.lean): C88: for `n ≤ 62` there are no side conditions.
* `C88_binomial_pmf_violated` (Props/Dist/Binomial.lean): C88 (violated outside those conditions): above `n` a debug build panics (the mass is 0); for 2^31 ≤ n < 2^32 the cast of the exponent wraps, and `pmf(0)` is greater than 1 for every p in (0,1).
* `C88_binomial_overflow_violated` (Props/Dist/Binomial.lean): C88 (violated): the u64 products inside `choose` overflow for moderate `n`: a debug build panics at n = 100, k = 50, for every p.
* `C88_binomial_release_above` (Props/Release.lean): C88: above `n` a release build returns the mass 0, for every `p < 1`
* `C88_binomial_release_nan_violated` (Props/Release.lean): C88 (violated in release builds): with `p = 1` and `n < k < 2^31` the mass is 0 but `pmf(k)` is NaN, in every lawful floating-point implementation: the exponent of `q = 0` wraps to a negative number, and `0 · ∞` is NaN.

Note: The code does not have the full property; proved negation: above `n` a debug build panics (the mass is 0); for 2^31 ≤ n < 2^32 the cast of the exponent wraps, and `pmf(0)` is greater than 1 for every p in (0,1). | the u64 products inside `choose` overflow for moderate `n`: a debug build panics at n = 100, k = 50, for every p. | with `p = 1` and `n < k < 2^31` the mass is 0 but `pmf(k)` is NaN, in every lawful floating-point implementation: the exponent of `q = 0` wraps to a negative number, and `0 · ∞` is NaN.

## C89 Binomial support and kurtosis (partial)

support is {0..n}; kurtosis is the fourth standardised moment. *For all n,p.*

* `C89_binomial_violated` (Props/Dist/Binomial.lean): C89 (violated): the reported support is `[0, n+1]` for every `n` that fits, although `n+1` has mass 0; `kurtosis()` is the *excess* kurtosis, and `excess_kurtosis()` is 3 below that.
* `C89_binomial_support_partial` (Props/Dist/Binomial.lean): C89 (what holds): every `k` with positive mass is in the reported support.

Note: The code does not have the full property; proved negation: the reported support is `[0, n+1]` for every `n` that fits, although `n+1` has mass 0; `kurtosis()` is the *excess* kurtosis, and `excess_kurtosis()` is 3 below that. Proved part: every `k` with positive mass is in the reported support.

## C90 Geometric (partial)

pmf(k) = p q^k sums to 1, cdf(k) = sum of pmf up to k for every k, mean q/p and variance q/p^2. *For all p in (0,1), k.*

* `C90_geometric_partial` (Props/Dist/Geometric.lean): C90 (what holds): for every accepted p > 0 the law is geometric, with the right mean and variance; `pmf(k)` is right for k < 2^31 and `cdf(k)` for k < 2^31 - 1, without panic in either build, and they are valid probabilities. Missing: larger k (see `C90_geometric_cdf_violated`) and p = 0 (see C126).
* `C90_geometric_cdf_violated` (Props/Dist/Geometric.lean): C90 (violated): for every p in (0,1) and every k with 2^31 - 1 ≤ k < 2^32 - 1, `cdf(k)` is not the distribution function: it panics at k = 2^31 - 1 in a debug build and otherwise returns a negative number.
* `C90_geometric_pmf_violated` (Props/Dist/Geometric.lean): C90 (violated): for every p in (0,1) and 2^31 ≤ k < 2^32, `pmf(k)` is not the mass at k (it exceeds p, the largest mass of the law).

Note: The code does not have the full property; proved negation: for every p in (0,1) and every k with 2^31 - 1 ≤ k < 2^32 - 1, `cdf(k)` is not the distribution function: it panics at k = 2^31 - 1 in a debug build and otherwise returns a negative number. | for every p in (0,1) and 2^31 ≤ k < 2^32, `pmf(k)` is not the mass at k (it exceeds p, the largest mass of the law). Proved part: for every accepted p > 0 the law is geometric, with the right mean and variance; `pmf(k)` is right for k < 2^31 and `cdf(k)` for k < 2^31 - 1, without panic in either build, and they are valid probabilities. Missing: larger k (see `C90_geometric_cdf_violated`) and p = 0 (see C126).

## C91 Categorical pmf, sampling, modes (proved)

pmf(i)=p_i for i<N and panics otherwise, sampling picks i by weight, modes are exactly the indices of maximal probability in increasing order. *For all simplex vectors.*

* `C91_categorical_pmf` (Props/Dist/Categorical.lean): C91: for accepted weights, `pmf(i)` is exactly the i-th weight (a valid probability) for i < N and panics for i ≥ N; this holds for every floating-point rounding.
* `C91_categorical_sample` (Props/Dist/Categorical.lean): C91: sampling. If the weights are the reals `ws` (summing to 1), the set of uniform draws for which category `i` is returned has measure `ws[i]`.
* `C91_categorical_modes` (Props/Dist/Categorical.lean): C91: for accepted weights `modes()` returns, in increasing order and without repetition, exactly the indices of maximal weight.

## C92 Categorical cdf (partial)

cdf(i) = sum_{j<=i} p_j, so cdf(N-1)=1. *For all simplex vectors.*

* `C92_categorical_cdf_violated` (Props/Dist/Categorical.lean): C92 (violated): `cdf(i)` is P(X ≤ i) exactly when category i has weight 0: the code sums the weights *before* i.
* `C92_categorical_cdf_partial` (Props/Dist/Categorical.lean): C92 (what holds): `cdf(i)` is P(X < i); it is 0 at 0 and the total weight from N on, and is monotone.

Note: The code does not have the full property; proved negation: `cdf(i)` is P(X ≤ i) exactly when category i has weight 0: the code sums the weights *before* i. Proved part: `cdf(i)` is P(X < i); it is 0 at 0 and the total weight from N on, and is monotone.

## C93 Chi-squared (partial)

mean k, variance 2k, skewness sqrt(8/k), excess 12/k, mode max(k-2,0) maximises pdf; convolution adds degrees of freedom. *For all k.*

* `C93_chisq_partial` (Props/Dist/Chi.lean): C93 (all of it except for the variance of more than 2^63 degrees of freedom): `pdf` is the density of the Gamma(k/2, 1/2) law, and mean, variance, skewness, kurtosis, entropy and mode are those of that law. For k = 1 the density is unbounded at 0, the reported mode, and decreases on the support.
* `C93_chisq_variance_violated` (Props/Dist/Chi.lean): C93 (violated for k ≥ 2^63): the usize product `2 * k` overflows: the debug build panics and the release build returns 2k − 2^64 instead of the variance 2k.

Note: The code does not have the full property; proved negation: the usize product `2 * k` overflows: the debug build panics and the release build returns 2k − 2^64 instead of the variance 2k. Proved part: `pdf` is the density of the Gamma(k/2, 1/2) law, and mean, variance, skewness, kurtosis, entropy and mode are those of that law. For k = 1 the density is unbounded at 0, the reported mode, and decreases on the support.

## C94 Chi-squared convolution accepts all pairs (partial)

convolve(k1,k2) succeeds for all degrees of freedom. *For all k1,k2.*

* `C94_chisq_convolve_violated` (Props/Dist/Chi.lean): C94 (violated): convolution is refused for every pair of different degrees of freedom.
* `C94_chisq_convolve_partial` (Props/Dist/Chi.lean): C94 (what holds): for equal degrees of freedom the result is the law of the sum.

Note: The code does not have the full property; proved negation: convolution is refused for every pair of different degrees of freedom. Proved part: for equal degrees of freedom the result is the law of the sum.

## C95 Gamma family cdfs are consistent (partial)

Chi.cdf(x) = ChiSq.cdf(x^2) and ChiSq(k) = Gamma(k/2, 1/2) have equal cdfs. *For all k, x > 0.*

* `C95_chi_vs_chisq_violated` (Props/Dist/Chi.lean): C95 (violated): at every x > 0, `Chi(k).cdf(x)` and `ChiSq(k).cdf(x²)` agree only for k = 2 and k = 4.
* `C95_chisq_is_gamma_partial` (Props/Dist/Chi.lean): C95 (what holds): `ChiSq(k)` and `Gamma(k/2, 1/2)` compute the same cdf and pdf values.

Note: The code does not have the full property; proved negation: at every x > 0, `Chi(k).cdf(x)` and `ChiSq(k).cdf(x²)` agree only for k = 2 and k = 4. Proved part: `ChiSq(k)` and `Gamma(k/2, 1/2)` compute the same cdf and pdf values.

## C96 Gamma (proved)

pdf is the Gamma(alpha, rate beta) density; mean alpha/beta, variance alpha/beta^2; mode maximises pdf for alpha >= 1. *For all alpha, beta > 0.*

* `C96_gamma` (Props/Dist/Gamma.lean): C96: the accepted parameters are the positive ones; `pdf` is the Gamma(shape α, rate β) density on the support (0, ∞), which is a probability density; the moments of the first four orders, the entropy and (for α ≥ 1) the mode are those of that density; for α < 1 there is no mode and `modes()` panics.

## C97 Gamma convolution (partial)

convolve succeeds exactly for equal rates and returns Gamma(a1+a2, rate). *For all pairs.*

* `C97_gamma_convolve_violated` (Props/Dist/Gamma.lean): C97 (violated): the equality test is on the *shapes*: unequal shapes are always refused, even with equal rates; equal shapes are always accepted, even with unequal rates, and then the mean of the result is not the sum of the means.
* `C97_gamma_convolve_partial` (Props/Dist/Gamma.lean): C97 (what holds): for equal shapes and equal rates the result is the law of the sum of two independent variables.

Note: The code does not have the full property; proved negation: the equality test is on the *shapes*: unequal shapes are always refused, even with equal rates; equal shapes are always accepted, even with unequal rates, and then the mean of the result is not the sum of the means. Proved part: for equal shapes and equal rates the result is the law of the sum of two independent variables.

## C98 Beta (proved)

pdf is the Beta(alpha,beta) density, mean alpha/(alpha+beta), variance the Beta variance, interior mode maximises pdf. *For all alpha, beta > 0, x.*

* `C98_beta` (Props/Dist/Beta.lean): C98: the Beta law: density inside the unit interval, distribution function on it, mean, variance, skewness, entropy; interior mode when both shapes exceed 1.

## C99 Log-normal (partial)

cdf(x) = normal cdf of ln x; pdf is its derivative; mean/variance agree with it. *For all mu, sigma, x > 0.*

* `C99_lognormal_partial` (Props/Dist/LogNormal.lean): C99, the part that holds: the constructor accepts exactly positive second arguments `v`; `cdf` is the distribution function of `exp N(mu, variance v)` on `[0, ∞)` (that law has the density `logNormalPDF mu v`), and `median` is its median.
* `C99_lognormal_violated` (Props/Dist/LogNormal.lean): C99, violated: `pdf` misses the factor `1/x`, so on the support it is the density of its own `cdf` only at `x = 1`; `mean` and `variance` are those of the law with distribution function `cdf` only if `v = 1` (they are those of `exp N(mu, variance v²)`).

Note: The code does not have the full property; proved negation: C99, violated: `pdf` misses the factor `1/x`, so on the support it is the density of its own `cdf` only at `x = 1`; `mean` and `variance` are those of the law with distribution function `cdf` only if `v = 1` (they are those of `exp N(mu, variance v²)`). Proved part: C99, the part that holds: the constructor accepts exactly positive second arguments `v`; `cdf` is the distribution function of `exp N(mu, variance v)` on `[0, ∞)` (that law has the density `logNormalPDF mu v`), and `median` is its median.

## C100 Dirichlet (proved)

mean alpha/alpha0, variance = diag covariance, covariance matrix symmetric with zero row sums. *For all alpha.*

* `C100_dirichlet_pdf` (Props/Dirichlet.lean): C100: at every point with positive coordinates `pdf` is the Dirichlet density; and that density is indeed the density of the law of independent Gamma(α_i) variates divided by their sum, which is a probability law on the open simplex.
* `C100_dirichlet_moments` (Props/Dirichlet.lean): C100: `mean`, `variance` and `covariance` are the moments of the Dirichlet law.
* `C100_dirichlet_rows` (Props/Dirichlet.lean): C100: the covariance matrix is symmetric, has `variance` on its diagonal, and its rows sum to zero.

## C101 Dirichlet sampling (partial)

samples lie on the simplex (sum to 1). *For all alpha, all draws.*

* `C101_dirichlet_sample_violated` (Props/Dirichlet.lean): C101 is violated: for every concentration vector and every stream of Gamma draws, the sampled vector adds up to (sum of draws)/α₀; so it lies on the simplex only if the draws happen to add up to α₀, …
* `C101_dirichlet_sample_null_violated` (Props/Dirichlet.lean): … which has probability zero: with ideal independent Gamma draws, the sampler leaves the simplex almost surely.
* `C101_dirichlet_sample_partial` (Props/Dirichlet.lean): C101 (what holds): the sample is a positive multiple of a point of the simplex: normalising it gives the normalised draws.

Note: The code does not have the full property; proved negation: C101 is violated: for every concentration vector and every stream of Gamma draws, the sampled vector adds up to (sum of draws)/α₀; so it lies on the simplex only if the draws happen to add up to α₀, … | … which has probability zero: with ideal independent Gamma draws, the sampler leaves the simplex almost surely. Proved part: the sample is a positive multiple of a point of the simplex: normalising it gives the normalised draws.

## C102 Multinomial moments (proved)

mean n p_i, covariance n(diag p - p p^T), variance its diagonal, correlation = cov normalised. *For all n, p.*

* `C102_multinomial_moments` (Props/Multinomial.lean): C102: for accepted weights with real values `p` summing to 1, `mean`, `variance` and `covariance` are the moments of the multinomial law, and `correlation` is the covariance divided by the standard deviations.
* `C102_multinomial_correlation` (Props/Multinomial.lean): C102: `correlation` is 1 on the diagonal, and off the diagonal it is the covariance divided by the two standard deviations (n ≥ 1 and categories that are neither impossible nor certain)
* `C102_multinomial_cov_symm` (Props/Multinomial.lean): C102: `variance` is the diagonal of `covariance` and `covariance` is symmetric, for every weight vector

## C103 Multinomial pmf is defined on its support (partial)

pmf(x) returns n!/prod x_i! prod p_i^x_i when sum x = n and 0 otherwise. *For all n, p, x.*

* `C103_multinomial_pmf_violated` (Props/Multinomial.lean): C103 is violated: at every point whose counts add up to `n ≥ 1` - that is, on the whole support of the law - both `pmf` and `log_pmf` panic.
* `C103_multinomial_zero_violated` (Props/Multinomial.lean): C103 is violated: at the zero vector `pmf` is 0, also for `n = 0` where the mass is 1.
* `C103_multinomial_off_support_violated` (Props/Multinomial.lean): C103 is violated: at every point whose total is neither 0 nor `n` the mass is zero, but (positive weights) `pmf` returns a positive number or panics.
* `C103_multinomial_pmf_partial` (Props/Multinomial.lean): C103 (what holds): for every accepted law and every point with a total below 2^64, `pmf` returns the mass exactly when the point has total 0 while `n ≠ 0`, or its total is neither 0 nor `n` and it counts a category of probability 0. (Missing: every other point, in particular all points of positive mass.)

Note: The code does not have the full property; proved negation: C103 is violated: at every point whose counts add up to `n ≥ 1` - that is, on the whole support of the law - both `pmf` and `log_pmf` panic. | C103 is violated: at the zero vector `pmf` is 0, also for `n = 0` where the mass is 1. | C103 is violated: at every point whose total is neither 0 nor `n` the mass is zero, but (positive weights) `pmf` returns a positive number or panics. Proved part: for every accepted law and every point with a total below 2^64, `pmf` returns the mass exactly when the point has total 0 while `n ≠ 0`, or its total is neither 0 nor `n` and it counts a category of probability 0. (Missing: every other point, in particular all points of positive mass.)

## C104 Multivariate log-normal covariance (partial)

covariance(i,j) = exp(mu_i+mu_j+(S_ii+S_jj)/2)(exp(S_ij)-1) for all i,j; symmetric. *For all dimensions, all parameters.*

* `C104_mvlognormal_cov_partial` (Props/MvLogNormal.lean): C104 (partial, general covariance): the entry `(i, j)` of `covariance()` is the covariance of the `i`-th and `j`-th coordinates of the exponential of the Gaussian exactly when `i ≤ j`, or `Σ_ij = 0`, or the variance of the `j`-th coordinate happens to equal `Σ_jj`. Missing: the other entries below the diagonal, which are wrong (`C104_mvlognormal_cov_violated`).
* `C104_mvlognormal_cov_upper_partial` (Props/MvLogNormal.lean): C104 (partial, general covariance), in the cases where it is right: on and above the diagonal
* `C104_mvlognormal_cov_violated` (Props/MvLogNormal.lean): C104 (violated, general covariance): whenever coordinates `j < i` are correlated and the mean of coordinate `j` is nonnegative, the entry `(i, j)` is not the covariance, and the matrix returned is not symmetric.
* `C104_diag_lognormal_cov` (Props/MvLogNormal.lean): C104 and C188 (diagonal covariance): mean, variance and every entry of the covariance matrix are right
* `C104_iso_lognormal_cov` (Props/MvLogNormal.lean): C104 (isotropic covariance): every entry of the covariance matrix is right

Note: The code does not have the full property; proved negation: whenever coordinates `j < i` are correlated and the mean of coordinate `j` is nonnegative, the entry `(i, j)` is not the covariance, and the matrix returned is not symmetric. Proved part: the entry `(i, j)` of `covariance()` is the covariance of the `i`-th and `j`-th coordinates of the exponential of the Gaussian exactly when `i ≤ j`, or `Σ_ij = 0`, or the variance of the `j`-th coordinate happens to equal `Σ_jj`. Missing: the other entries below the diagonal, which are wrong (`C104_mvlognormal_cov_violated`). | C104 (partial, general covariance), in the cases where it is right: on and above the diagonal

## C105 Multivariate normal density (partial)

pdf(x) = exp(-(x-mu)^T Sigma^{-1} (x-mu)/2) / sqrt((2 pi)^n det Sigma), a density of total mass 1, for general, diagonal and isotropic covariances. *For all dimensions, all parameters, all x.*

* `C105_diag_pdf_partial` (Props/Mahalanobis.lean): C105 (partial, diagonal covariance): the density is right exactly where the distance is, in particular at the mean.
* `C105_iso_pdf_partial` (Props/Mahalanobis.lean): C105 (partial, isotropic covariance): the density is right exactly where the distance is, in particular at the mean.
* `C105_mv_pdf_partial` (Props/MvNormal.lean): C105 (partial, general covariance): `pdf` is the Gaussian density when the coordinates are uncorrelated. Missing: the correlated case, where it is not (`C105_mv_pdf_violated`).
* `C105_mv_pdf_violated` (Props/MvNormal.lean): C105 (violated, general covariance): with correlated coordinates `pdf` is not the Gaussian density
* `C105_diag_pdf_violated` (Props/MvNormal.lean): C105 (violated, diagonal covariance): in every positive dimension there is a point where `pdf` exceeds its value at the mode, so it is not the Gaussian density
* `C105_iso_pdf_violated` (Props/MvNormal.lean): C105 (violated, isotropic covariance)

Note: The code does not have the full property; proved negation: with correlated coordinates `pdf` is not the Gaussian density | in every positive dimension there is a point where `pdf` exceeds its value at the mode, so it is not the Gaussian density | C105 (violated, isotropic covariance) Proved part: the density is right exactly where the distance is, in particular at the mean. | the density is right exactly where the distance is, in particular at the mean. | `pdf` is the Gaussian density when the coordinates are uncorrelated. Missing: the correlated case, where it is not (`C105_mv_pdf_violated`).

## C106 A pdf integrates to 1: degenerate law (partial)

Where a continuous distribution offers pdf, it is the density of its cdf (total mass 1): for the f64 degenerate law no density exists, so pdf should not return a finite positive function. *For all k.*

* `C106_degenerate_pdf_violated` (Props/Dist/Degenerate.lean): C106 (violated): the f64 "density" of the point mass is not a density: it is the indicator of an interval of width `2e-7` around `k`, with total mass `2e-7`, not 1 (a point mass has none).

Note: The code does not have the full property; proved negation: the f64 "density" of the point mass is not a density: it is the indicator of an interval of width `2e-7` around `k`, with total mass `2e-7`, not 1 (a point mass has none).

## C107 Arcsine off its support (partial)

cdf is 0 below the support and 1 above it and always a valid Probability; pdf is 0 off the support. *For all a, w > 0, x.*

* `C107_arcsine_off_support_violated` (Props/Dist/Arcsine.lean): C107 (violated): off the support, for all parameters, `cdf` returns NaN (never 0 or 1), so the returned `Probability` is not valid; `pdf` is NaN there too.
* `C107_arcsine_on_support_partial` (Props/Dist/Arcsine.lean): C107 (what holds): on the closed support `cdf` is a valid probability.

Note: The code does not have the full property; proved negation: off the support, for all parameters, `cdf` returns NaN (never 0 or 1), so the returned `Probability` is not valid; `pdf` is NaN there too. Proved part: on the closed support `cdf` is a valid probability.

## C108 Frechet off its support (partial)

cdf(x) is 0 for x < 0 and always a valid Probability. *For all alpha > 0, x < 0.*

* `C108_frechet_below_support_violated` (Props/Dist/Frechet.lean): C108 (violated): below the support no value of `cdf` is 0: at every `x < 0` it is NaN (non-integer shape), a number strictly between 0 and 1 (even integer shape), or a number above 1 (odd integer shape; then not a valid probability).

Note: The code does not have the full property; proved negation: below the support no value of `cdf` is 0: at every `x < 0` it is NaN (non-integer shape), a number strictly between 0 and 1 (even integer shape), or a number above 1 (odd integer shape; then not a valid probability).

## C109 Rayleigh off its support (partial)

cdf(x) and pdf(x) are 0 for x < 0. *For all sigma > 0, x < 0.*

* `C109_rayleigh_below_support_violated` (Props/Dist/Rayleigh.lean): C109 (violated): below the support `cdf` is strictly positive and `pdf` strictly negative, at every `x < 0`.

Note: The code does not have the full property; proved negation: below the support `cdf` is strictly positive and `pdf` strictly negative, at every `x < 0`.

## C110 Pareto Fisher information (partial)

fisher_information is the Fisher information matrix of the Pareto family in (x_m, alpha). *For all x_m, alpha > 0.*

* `C110_pareto_fisher_violated` (Props/Dist/Pareto.lean): C110 (violated): the Fisher information of the Pareto family in `(x_m, α)` is `diag(α²/x_m², 1/α²)`. The returned matrix has a wrong off-diagonal entry for every parameter, and a wrong first entry for every `α ≠ 1`.
* `C110_pareto_fisher_partial` (Props/Dist/Pareto.lean): C110 (what holds): the last diagonal entry is the Fisher information in `α`.

Note: The code does not have the full property; proved negation: the Fisher information of the Pareto family in `(x_m, α)` is `diag(α²/x_m², 1/α²)`. The returned matrix has a wrong off-diagonal entry for every parameter, and a wrong first entry for every `α ≠ 1`. Proved part: the last diagonal entry is the Fisher information in `α`.

## C111 Generalised Pareto / extreme value below the support (partial)

cdf is 0 and pdf 0 below the left end of the support, and cdf is always a valid Probability. *For all parameters, x below the support.*

* `C111_below_support_violated` (Props/Dist/GEV.lean): C111 (violated): below the support. Generalised Pareto: at every `x` in `(mu - sigma/ζ, mu)` `cdf` is a negative number (not a valid probability) and `pdf` is positive. Generalised extreme value with `ζ ≥ 1e-7` and `1/ζ` not an integer: at every `x < mu - sigma/ζ` `cdf` and `pdf` are NaN.

Note: The code does not have the full property; proved negation: below the support. Generalised Pareto: at every `x` in `(mu - sigma/ζ, mu)` `cdf` is a negative number (not a valid probability) and `pdf` is positive. Generalised extreme value with `ζ ≥ 1e-7` and `1/ζ` not an integer: at every `x < mu - sigma/ζ` `cdf` and `pdf` are NaN.

## C112 Generalised extreme value with tiny shape (partial)

pdf is the derivative of cdf also for 0 < zeta < 1e-7. *For all parameters with zeta < 1e-7, x.*

* `C112_gev_small_shape_violated` (Props/Dist/GEV.lean): C112 (violated): for every shape `0 < ζ < 1e-7` the code switches `cdf` to the Gumbel distribution function but keeps the exponent `ζ + 1` in `pdf`, so at every `x ≠ mu` the returned density is not the derivative of the returned distribution function.
* `C112_gev_small_shape_partial` (Props/Dist/GEV.lean): C112 (what holds below the switch): for every shape `0 < ζ < 1e-7` mean, variance, skewness, excess kurtosis, median and mode are those of the limiting Gumbel law `ζ = 0`, the law whose distribution function `cdf` returns; the entropy is that of the generalised extreme value law itself; `pdf` is the Gumbel density times the factor `exp(-ζ (x - mu)/sigma)`. Missing: that factor, see `C112_gev_small_shape_violated`.

Note: The code does not have the full property; proved negation: for every shape `0 < ζ < 1e-7` the code switches `cdf` to the Gumbel distribution function but keeps the exponent `ζ + 1` in `pdf`, so at every `x ≠ mu` the returned density is not the derivative of the returned distribution function. Proved part: for every shape `0 < ζ < 1e-7` mean, variance, skewness, excess kurtosis, median and mode are those of the limiting Gumbel law `ζ = 0`, the law whose distribution function `cdf` returns; the entropy is that of the generalised extreme value law itself; `pdf` is the Gumbel density times the factor `exp(-ζ (x - mu)/sigma)`. Missing: that factor, see `C112_gev_small_shape_violated`.

## C113 Kumaraswamy entropy (partial)

shannon_entropy is the differential entropy of the Kumaraswamy law (with the generalised harmonic number of b). *For all a, b > 0.*

* `C113_kumaraswamy_entropy_violated` (Props/Dist/Kumaraswamy.lean): C113 (violated): the differential entropy of the Kumaraswamy law is `(1 - 1/b) + (1 - 1/a) H_b - ln(ab)` with the generalised harmonic number `H_b = ψ(b+1) - ψ(1)`; the code uses `H_⌊b⌋`, with `⌊b⌋` cut off at 2^64 - 1, so the returned value differs from the entropy for every `a ≠ 1` and every `b` that is not an integer below 2^64.
* `C113_kumaraswamy_entropy_partial` (Props/Dist/Kumaraswamy.lean): C113 (what holds): for integer `b` below 2^64, or `a = 1`, `shannon_entropy` is the differential entropy.

Note: The code does not have the full property; proved negation: the differential entropy of the Kumaraswamy law is `(1 - 1/b) + (1 - 1/a) H_b - ln(ab)` with the generalised harmonic number `H_b = ψ(b+1) - ψ(1)`; the code uses `H_⌊b⌋`, with `⌊b⌋` cut off at 2^64 - 1, so the returned value differs from the entropy for every `a ≠ 1` and every `b` that is not an integer below 2^64. Proved part: for integer `b` below 2^64, or `a = 1`, `shannon_entropy` is the differential entropy.

## C114 Kumaraswamy off its support (partial)

cdf(x) is 0 for x < 0 and 1 for x > 1 and always a valid Probability. *For all a, b > 0, x outside [0,1].*

* `C114_kumaraswamy_off_support_violated` (Props/Dist/Kumaraswamy.lean): C114 (violated): at every point above the support, where the distribution function is 1, `cdf` returns something else (NaN for non-integer `b`); at every point of `(-1, 0)`, where it is 0, `cdf` returns something else as well.

Note: The code does not have the full property; proved negation: at every point above the support, where the distribution function is 1, `cdf` returns something else (NaN for non-integer `b`); at every point of `(-1, 0)`, where it is 0, `cdf` returns something else as well.

## C115 Cosine off its support (partial)

cdf(x) is 0 below mu - s, 1 above mu + s, always a valid Probability. *For all mu, s > 0, x outside the support.*

* `C115_cosine_off_support_violated` (Props/Dist/Cosine.lean): C115 (violated): at every point above the support `cdf` exceeds 1 and at every point below it it is negative; neither is a valid probability.

Note: The code does not have the full property; proved negation: at every point above the support `cdf` exceeds 1 and at every point below it it is negative; neither is a valid probability.

## C116 Cosine kurtosis (partial)

excess_kurtosis is the fourth standardised moment of the raised-cosine law minus 3. *For all mu, s > 0.*

* `C116_cosine_kurtosis_violated` (Props/Dist/Cosine.lean): C116 (violated): the excess kurtosis of the law is `6(90 - π⁴)/(5(π² - 6)²)`; the code has `60` for `90`.

Note: The code does not have the full property; proved negation: the excess kurtosis of the law is `6(90 - π⁴)/(5(π² - 6)²)`; the code has `60` for `90`.

## C117 Triangular entropy (partial)

shannon_entropy is the differential entropy 1/2 + ln((b-a)/2). *For all a < c < b.*

* `C117_triangular_entropy_violated` (Props/Dist/Triangular.lean): C117 (violated): the differential entropy of the law is `1/2 + ln((b-a)/2)`; `shannon_entropy` is larger by `1/2` for all parameters.

Note: The code does not have the full property; proved negation: the differential entropy of the law is `1/2 + ln((b-a)/2)`; `shannon_entropy` is larger by `1/2` for all parameters.

## C118 Bernoulli kurtosis (partial)

kurtosis is the fourth standardised moment and excess_kurtosis is that minus 3. *For all p in (0,1).*

* `C118_bernoulli_kurtosis_violated` (Props/Dist/Bernoulli.lean): C118 (violated): for every p in (0,1), `kurtosis()` and `excess_kurtosis()` are both off by exactly 3.

Note: The code does not have the full property; proved negation: for every p in (0,1), `kurtosis()` and `excess_kurtosis()` are both off by exactly 3.

## C119 Bernoulli median, modes, entropy (partial)

median is a median, modes are exactly the most likely values, shannon_entropy is the entropy in nats. *For all p in [0,1].*

* `C119_bernoulli_median_violated` (Props/Dist/Bernoulli.lean): C119 (violated in a band): the returned median is a median of the law exactly when p = 1/2 or p is at least 1e-7 away from 1/2.
* `C119_bernoulli_median_partial` (Props/Dist/Bernoulli.lean): C119 (what holds): away from the 1e-7 band around 1/2, and at 1/2, the median is a median.
* `C119_bernoulli_modes_violated` (Props/Dist/Bernoulli.lean): C119 (violated): the modes returned are the most likely values exactly when p ≤ 1/2; for every p > 1/2 the code answers `[false]`, the *least* likely value. It never panics.
* `C119_bernoulli_modes_partial` (Props/Dist/Bernoulli.lean): C119 (what holds): for p ≤ 1/2 `modes()` lists exactly the most likely values.
* `C119_bernoulli_entropy_violated` (Props/Dist/Bernoulli.lean): C119: the entropy returned is the Shannon entropy in nats exactly when p is 0, 1, or at least 1e-7 away from both (violated in the open bands, where 0 is returned for a positive entropy).

Note: The code does not have the full property; proved negation: the returned median is a median of the law exactly when p = 1/2 or p is at least 1e-7 away from 1/2. | the modes returned are the most likely values exactly when p ≤ 1/2; for every p > 1/2 the code answers `[false]`, the *least* likely value. It never panics. | the entropy returned is the Shannon entropy in nats exactly when p is 0, 1, or at least 1e-7 away from both (violated in the open bands, where 0 is returned for a positive entropy). Proved part: away from the 1e-7 band around 1/2, and at 1/2, the median is a median. | for p ≤ 1/2 `modes()` lists exactly the most likely values.

## C120 Bernoulli likelihood, Fisher information, score (partial)

log_likelihood is the (additive) sum of log-masses, fisher_information is 1/(p q), score is the derivative of the log-likelihood. *For all p in (0,1), all samples.*

* `C120_bernoulli_likelihood` (Props/Dist/Bernoulli.lean): C120: Fisher information and log-likelihood are right (for p in (0,1)); the log-likelihood is additive.
* `C120_bernoulli_score_violated` (Props/Dist/Bernoulli.lean): C120 (violated): the score is the derivative of the log-likelihood only for samples without a `false`.
* `C120_bernoulli_score_partial` (Props/Dist/Bernoulli.lean): C120 (what holds): the score of an all-`true` sample.

Note: The code does not have the full property; proved negation: the score is the derivative of the log-likelihood only for samples without a `false`. Proved part: the score of an all-`true` sample.

## C121 Binomial cdf (partial)

cdf(k) is the sum of the masses up to k. *For all n, p, k.*

* `C121_binomial_cdf_partial` (Props/Dist/Binomial.lean): C121 (for k < n; at k = n the incomplete beta is called outside its domain, above it the subtraction panics): `cdf(k)` is the sum of the masses up to `k`.
* `C121_binomial_cdf_violated` (Props/Dist/Binomial.lean): C121 (violated): P(X ≤ k) = 1 for k > n, but a debug build panics for every such k.
* `C121_binomial_cdf_release_violated` (Props/Release.lean): C121 (violated in release builds): above `n`, where the distribution function is 1, the wrapped subtraction makes `cdf(k)` the distribution function of a binomial law with `n + 2^64` trials, which is smaller than 1 for every `p` in (0,1].

Note: The code does not have the full property; proved negation: P(X ≤ k) = 1 for k > n, but a debug build panics for every such k. | above `n`, where the distribution function is 1, the wrapped subtraction makes `cdf(k)` the distribution function of a binomial law with `n + 2^64` trials, which is smaller than 1 for every `p` in (0,1]. Proved part: `cdf(k)` is the sum of the masses up to `k`.

## C122 Binomial modes, median, entropy (partial)

modes are the most likely counts, median is a median, shannon_entropy is the entropy of the law. *For all n, p.*

* `C122_binomial_modes_violated` (Props/Dist/Binomial.lean): C122 (violated): `modes()` is `[floor(np)]`, which is a most likely value exactly when `(n+1)p ≤ floor(np) + 1`.
* `C122_binomial_modes_partial` (Props/Dist/Binomial.lean): C122 (what holds): the answer or its successor is a most likely value.
* `C122_binomial_median_violated` (Props/Dist/Binomial.lean): C122 (violated): `median()` of Binomial(2, 0.29) is 1, but P(X ≥ 1) < 1/2.
* `C122_binomial_median_partial` (Props/Dist/Binomial.lean): C122 (what holds): the median returned is an integer within 1/2 of the mean.
* `C122_binomial_entropy_violated` (Props/Dist/Binomial.lean): C122 (violated): `shannon_entropy()` of Binomial(1, 1/2) exceeds 1, whereas the entropy is ln 2 nats (1 bit).
* `C122_binomial_median_wide_violated` (Props/Dist/Universal.lean): C122 (violated): whenever the mean `np` rounds to 1 although an outcome of 0 is more likely than not, the returned median 1 is not a median.
* `C122_binomial_median_every_n_violated` (Props/Dist/Universal.lean): C122 (violated): for every number of trials n ≥ 2 some success probability makes `median()` wrong: at `p = 1/(2n)` it returns 1, but more than half of the mass is at 0.

Note: The code does not have the full property; proved negation: `modes()` is `[floor(np)]`, which is a most likely value exactly when `(n+1)p ≤ floor(np) + 1`. | `median()` of Binomial(2, 0.29) is 1, but P(X ≥ 1) < 1/2. | `shannon_entropy()` of Binomial(1, 1/2) exceeds 1, whereas the entropy is ln 2 nats (1 bit). | whenever the mean `np` rounds to 1 although an outcome of 0 is more likely than not, the returned median 1 is not a median. | for every number of trials n ≥ 2 some success probability makes `median()` wrong: at `p = 1/(2n)` it returns 1, but more than half of the mass is at 0. Proved part: the answer or its successor is a most likely value. | the median returned is an integer within 1/2 of the mean.

## C123 Geometric shape and mode (proved)

skewness and kurtosis are the standardised moments of the geometric law and 0 is its only mode. *For all p in (0,1).*

* `C123_geometric_shape` (Props/Dist/Geometric.lean): C123: skewness, (excess) kurtosis and mode of the geometric law.

## C124 Geometric median and entropy (partial)

median is a median of the law and shannon_entropy its entropy in nats. *For all p in (0,1].*

* `C124_geometric_median_violated` (Props/Dist/Geometric.lean): C124 (violated): the median returned is a median of the law only in the exceptional case where some power of 1 - p is exactly 1/2.
* `C124_geometric_median_partial` (Props/Dist/Geometric.lean): C124 (what holds): rounding the returned value up gives a median, so the answer is less than 1 too small.
* `C124_geometric_entropy_violated` (Props/Dist/Geometric.lean): C124 (violated): `shannon_entropy()` is not the entropy in nats for any p in (0,1) (every other law of the crate reports nats), and is NaN at p = 1, where the entropy is 0.
* `C124_geometric_entropy_partial` (Props/Dist/Geometric.lean): C124 (what holds): for p in (0,1) `shannon_entropy()` is the entropy in bits.

Note: The code does not have the full property; proved negation: the median returned is a median of the law only in the exceptional case where some power of 1 - p is exactly 1/2. | `shannon_entropy()` is not the entropy in nats for any p in (0,1) (every other law of the crate reports nats), and is NaN at p = 1, where the entropy is 0. Proved part: rounding the returned value up gives a median, so the answer is less than 1 too small. | for p in (0,1) `shannon_entropy()` is the entropy in bits.

## C125 Poisson kurtosis, Fisher information, median, modes, entropy (partial)

kurtosis is the fourth standardised moment, fisher_information is 1/lambda, median is a median, modes are the most likely counts, shannon_entropy is the entropy. *For all lambda > 0.*

* `C125_poisson_kurtosis_violated` (Props/Dist/Poisson.lean): C125 (violated): `kurtosis()` is 3 less than the fourth standardised moment for every rate (it is the excess), and `excess_kurtosis()` is 6 less.
* `C125_poisson_fisher_violated` (Props/Dist/Poisson.lean): C125 (violated): `fisher_information()` is the Fisher information about the rate only when the rate is 1.
* `C125_poisson_median_violated` (Props/Dist/Poisson.lean): C125 (violated): for every rate up to 1/20 the median returned is negative, and for every rate in (ln 2, 0.695] it is 0 although 0 is not a median.
* `C125_poisson_median_partial` (Props/Dist/Poisson.lean): C125 (what holds): for rates in [0.052, ln 2] the median is right (0); in general it is an integer within [rate - 2/3 - 0.02/rate, rate + 1/3 - 0.02/rate]. Missing: correctness for rates above 0.695.
* `C125_poisson_modes_partial` (Props/Dist/Poisson.lean): C125: `modes()` of every rate below 2^64 is a most likely count ...
* `C125_poisson_modes_violated` (Props/Dist/Poisson.lean): C125 (violated): ... but for every positive integer rate (below 2^64) a second mode, rate - 1, is missing.
* `C125_poisson_entropy_violated` (Props/Dist/Poisson.lean): C125 (violated): for every rate up to 1/10 `shannon_entropy()` is negative, which no Shannon entropy is.
* `C125_poisson_entropy_wide_violated` (Props/Dist/Universal.lean): C125 (violated): for every rate up to 2/5 `shannon_entropy()` is negative, which no Shannon entropy is.

Note: The code does not have the full property; proved negation: `kurtosis()` is 3 less than the fourth standardised moment for every rate (it is the excess), and `excess_kurtosis()` is 6 less. | `fisher_information()` is the Fisher information about the rate only when the rate is 1. | for every rate up to 1/20 the median returned is negative, and for every rate in (ln 2, 0.695] it is 0 although 0 is not a median. | ... but for every positive integer rate (below 2^64) a second mode, rate - 1, is missing. | for every rate up to 1/10 `shannon_entropy()` is negative, which no Shannon entropy is. | for every rate up to 2/5 `shannon_entropy()` is negative, which no Shannon entropy is. Proved part: for rates in [0.052, ln 2] the median is right (0); in general it is an integer within [rate - 2/3 - 0.02/rate, rate + 1/3 - 0.02/rate]. Missing: correctness for rates above 0.695. | `modes()` of every rate below 2^64 is a most likely count ...

## C126 Geometric parameter range (partial)

Every parameter accepted by Geometric::new defines a probability law (masses sum to 1). *For all p accepted by new.*

* `C126_geometric_zero_violated` (Props/Dist/Geometric.lean): C126 (violated): p = 0 is accepted, but then every `pmf(k)` is 0 (so the masses sum to 0, not 1), `cdf` is 0 everywhere, and the mean is infinite.
* `C126_geometric_zero_partial` (Props/Dist/Geometric.lean): C126 (what holds): every accepted p other than 0 defines a law.

Note: The code does not have the full property; proved negation: p = 0 is accepted, but then every `pmf(k)` is 0 (so the masses sum to 0, not 1), `cdf` is 0 everywhere, and the mean is infinite. Proved part: every accepted p other than 0 defines a law.

## C127 Categorical support (partial)

support is {0..N-1}; pmf is defined on all of it. *For all weight vectors.*

* `C127_categorical_support_violated` (Props/Dist/Categorical.lean): C127 (violated): the reported support [0, N+1] contains N and N + 1, on which `pmf` panics, for every accepted weight vector.
* `C127_categorical_support_partial` (Props/Dist/Categorical.lean): C127 (what holds): every category lies in the reported support.

Note: The code does not have the full property; proved negation: the reported support [0, N+1] contains N and N + 1, on which `pmf` panics, for every accepted weight vector. Proved part: every category lies in the reported support.

## C128 Gamma cdf (partial)

cdf(x) is the integral of the Gamma(alpha, beta) density up to x (0 for x <= 0), a valid Probability. *For all alpha, beta > 0, x.*

* `C128_gamma_cdf_violated` (Props/Dist/Gamma.lean): C128 (violated): `cdf` returns the distribution function divided by Γ(α), so at every point of the support it is wrong unless α is 1 or 2; for α > 2 it stays below 1/Γ(α) < 1 everywhere.
* `C128_gamma_cdf_partial` (Props/Dist/Gamma.lean): C128 (what holds): for shapes 1 and 2 the cdf is the Gamma distribution function on the whole support.

Note: The code does not have the full property; proved negation: `cdf` returns the distribution function divided by Γ(α), so at every point of the support it is wrong unless α is 1 or 2; for α > 2 it stays below 1/Γ(α) < 1 everywhere. Proved part: for shapes 1 and 2 the cdf is the Gamma distribution function on the whole support.

## C129 Gamma log-likelihood (partial)

log_likelihood of a sample is the sum of the logs of the Gamma density at its points. *For all alpha, beta > 0, all samples.*

* `C129_gamma_log_likelihood_violated` (Props/Dist/Gamma.lean): C129 (violated): the code's log-likelihood has the data term with the wrong sign and `α·max(1/β,ε)` where `−α·ln β` belongs. For Gamma(1,1) it returns Σx − 2n instead of −Σx, right only when Σx = n; for every parameter pair it exceeds the true value for every sufficiently large single observation.

Note: The code does not have the full property; proved negation: the code's log-likelihood has the data term with the wrong sign and `α·max(1/β,ε)` where `−α·ln β` belongs. For Gamma(1,1) it returns Σx − 2n instead of −Σx, right only when Σx = n; for every parameter pair it exceeds the true value for every sufficiently large single observation.

## C130 Gamma score (partial)

score is the gradient of the Gamma log-likelihood in (alpha, beta). *For all alpha, beta > 0, all samples.*

* `C130_gamma_score_violated` (Props/Dist/Gamma.lean): C130 (violated): on data in the documented range the rate component of `score` is the derivative of the log-likelihood, but the shape component is short of it by 2·n·ln β (it has ln(x/β) where ln(βx) belongs), so it is right exactly when β = 1 or there is no data.
* `C130_gamma_score_partial` (Props/Dist/Gamma.lean): C130 (what holds): with unit rate both components of `score` are the derivatives of the log-likelihood.

Note: The code does not have the full property; proved negation: on data in the documented range the rate component of `score` is the derivative of the log-likelihood, but the shape component is short of it by 2·n·ln β (it has ln(x/β) where ln(βx) belongs), so it is right exactly when β = 1 or there is no data. Proved part: with unit rate both components of `score` are the derivatives of the log-likelihood.

## C131 Gamma plus exponential (proved)

Gamma(a, l).convolve(Exponential(l)) is the law of the independent sum; different rates are refused. *For all a > 0, all rates.*

* `C131_gamma_convolve_exponential` (Props/Dist/Gamma.lean): C131: convolution with an Exponential succeeds exactly when the rates agree, and returns the law of the sum.

## C132 Chi-squared cdf (partial)

cdf(x) is the integral of the chi-squared density up to x. *For all k >= 1, x.*

* `C132_chisq_cdf_violated` (Props/Dist/Chi.lean): C132 (violated): at every point of the support, `cdf` is the distribution function only for k = 2 and k = 4.
* `C132_chisq_cdf_partial` (Props/Dist/Chi.lean): C132 (what holds): the cdf is right for 2 and 4 degrees of freedom.

Note: The code does not have the full property; proved negation: at every point of the support, `cdf` is the distribution function only for k = 2 and k = 4. Proved part: the cdf is right for 2 and 4 degrees of freedom.

## C133 Chi-squared median (partial)

median halves the probability mass. *For all k >= 1.*

* `C133_chisq_median_violated` (Props/Dist/Chi.lean): C133 (violated): `median()` is the Wilson–Hilferty approximation, not the median: for k = 2 it returns 2·(8/9)^3 where the distribution function is not 1/2.
* `C133_chisq_median_partial` (Props/Dist/Chi.lean): C133 (what holds): for k = 2 the approximation is within 0.02 of the median 2·ln 2.
* `C133_chisq_median_even_violated` (Props/Dist/Universal.lean): C133 (violated): for every even number of degrees of freedom `median()` returns `k(1 - 2/(9k))³`, and that is never the median: the distribution function there is not 1/2.

Note: The code does not have the full property; proved negation: `median()` is the Wilson–Hilferty approximation, not the median: for k = 2 it returns 2·(8/9)^3 where the distribution function is not 1/2. | for every even number of degrees of freedom `median()` returns `k(1 - 2/(9k))³`, and that is never the median: the distribution function there is not 1/2. Proved part: for k = 2 the approximation is within 0.02 of the median 2·ln 2.

## C134 Chi law (proved)

pdf, cdf, mean, variance, skewness, kurtosis and mode of Chi(k) are those of the square root of a chi-squared variable. *For all k >= 1, x.*

* `C134_chi` (Props/Dist/Chi.lean): C134: `pdf`, `cdf`, moments of the first four orders and mode of the Chi law.

## C135 Chi entropy (partial)

shannon_entropy is the differential entropy of the chi law. *For all k >= 1.*

* `C135_chi_entropy_violated` (Props/Dist/Chi.lean): C135 (violated for every k): the entropy formula lacks the factor 1/2, so `shannon_entropy()` is never the entropy.
* `C135_chi_entropy_partial` (Props/Dist/Chi.lean): C135 (what holds): the code's value and the entropy differ by exactly half the bracket.

Note: The code does not have the full property; proved negation: the entropy formula lacks the factor 1/2, so `shannon_entropy()` is never the entropy. Proved part: the code's value and the entropy differ by exactly half the bracket.

## C136 Chi median (partial)

median halves the probability mass. *For all k >= 1.*

* `C136_chi_median_violated` (Props/Dist/Chi.lean): C136 (violated): `median()` is the square root of the Wilson–Hilferty approximation: for k = 2 the distribution function there is not 1/2.
* `C136_chi_median_partial` (Props/Dist/Chi.lean): C136 (what holds): for k = 2 the square of the reported median is within 0.02 of the square of the median.
* `C136_chi_median_even_violated` (Props/Dist/Universal.lean): C136 (violated): for every even number of degrees of freedom `median()` of the Chi law returns the square root of `k(1 - 2/(9k))³`, and that is never the median.

Note: The code does not have the full property; proved negation: `median()` is the square root of the Wilson–Hilferty approximation: for k = 2 the distribution function there is not 1/2. | for every even number of degrees of freedom `median()` of the Chi law returns the square root of `k(1 - 2/(9k))³`, and that is never the median. Proved part: for k = 2 the square of the reported median is within 0.02 of the square of the median.

## C137 Erlang moments and mode (proved)

mean, variance, skewness, kurtosis and mode are those of the Gamma(k, lambda) law. *For all k >= 1, lambda > 0.*

* `C137_erlang` (Props/Dist/Erlang.lean): C137: mean, variance, skewness, kurtosis and mode of the Erlang law; `mu()` is the mean of one exponential stage.

## C138 Erlang density (partial)

pdf(x) is the Gamma(k, lambda) density at x. *For all k >= 1, lambda > 0, x > 0.*

* `C138_erlang_pdf_violated` (Props/Dist/Erlang.lean): C138 (violated for every k ≥ 2): at every x > 0 the returned density is more than twice the Erlang density.
* `C138_erlang_pdf_partial` (Props/Dist/Erlang.lean): C138 (what holds): with one stage (k = 1) `pdf` is the exponential density.

Note: The code does not have the full property; proved negation: at every x > 0 the returned density is more than twice the Erlang density. Proved part: with one stage (k = 1) `pdf` is the exponential density.

## C139 Erlang cdf (partial)

cdf(x) is the integral of the Gamma(k, lambda) density up to x. *For all k >= 1, lambda > 0, x > 0.*

* `C139_erlang_cdf_violated` (Props/Dist/Erlang.lean): C139 (violated for every k ≥ 2): the cdf is divided by k!: it is at most 0.51 of the distribution function at every x > 0, so it never reaches 1.
* `C139_erlang_cdf_partial` (Props/Dist/Erlang.lean): C139 (what holds): with one stage the cdf is the exponential distribution function.

Note: The code does not have the full property; proved negation: the cdf is divided by k!: it is at most 0.51 of the distribution function at every x > 0, so it never reaches 1. Proved part: with one stage the cdf is the exponential distribution function.

## C140 Inverse-gamma law (proved)

pdf is the inverse-gamma density, mean, variance, skewness, kurtosis exist exactly for alpha > 1, 2, 3, 4 and are returned then and refused otherwise; mode beta/(alpha+1). *For all alpha, beta > 0, x > 0.*

* `C140_inverse_gamma` (Props/Dist/Erlang.lean): C140: density, mean, variance, skewness, kurtosis (each returned exactly when the moment exists, refused by a panic otherwise), mode and entropy of the inverse Gamma law.

## C141 Inverse-gamma cdf (partial)

cdf is the (non-decreasing) integral of the density. *For all alpha, beta > 0, x > 0.*

* `C141_inverse_gamma_cdf_violated` (Props/Dist/Erlang.lean): C141 (violated for all parameters): `cdf` is strictly decreasing on the support (it computes a multiple of the complementary distribution function), so it is not a distribution function, and it is right at no more than one point.
* `C141_inverse_gamma_cdf_partial` (Props/Dist/Erlang.lean): C141 (what holds): for shapes 1 and 2, `cdf` is the *complementary* distribution function.

Note: The code does not have the full property; proved negation: `cdf` is strictly decreasing on the support (it computes a multiple of the complementary distribution function), so it is not a distribution function, and it is right at no more than one point. Proved part: for shapes 1 and 2, `cdf` is the *complementary* distribution function.

## C142 Beta kurtosis (partial)

kurtosis is the fourth standardised moment of the Beta law. *For all alpha, beta > 0.*

* `C142_beta_excess_kurtosis_violated` (Props/Dist/Beta.lean): C142 (violated): the excess kurtosis is `3(α-β)²(α+β+1) - 1/(α+β+3)`, which agrees with the law's exactly when `3(α-β)²(α+β+1)(2 - αβ(α+β+2)(α+β+3)) = 5αβ(α+β+2)`; never for a symmetric law (where it says `-1/(2α+3)` instead of `-6/(2α+3)`), never when `αβ(α+β+2)(α+β+3) ≥ 2` (in particular when both shapes are at least 1/2).

Note: The code does not have the full property; proved negation: the excess kurtosis is `3(α-β)²(α+β+1) - 1/(α+β+3)`, which agrees with the law's exactly when `3(α-β)²(α+β+1)(2 - αβ(α+β+2)(α+β+3)) = 5αβ(α+β+2)`; never for a symmetric law (where it says `-1/(2α+3)` instead of `-6/(2α+3)`), never when `αβ(α+β+2)(α+β+3) ≥ 2` (in particular when both shapes are at least 1/2).

## C143 Beta median (partial)

median halves the probability mass. *For all alpha, beta > 0.*

* `C143_beta_median_partial` (Props/Dist/Beta.lean): C143 (what holds): `median` is the median for a symmetric law and when one shape is exactly 1 (and the other is not within 1e-7 of it).
* `C143_beta_median_violated` (Props/Dist/Beta.lean): C143 (violated): for both shapes above 1 `median` returns the approximation `(α-1/3)/(α+β-2/3)`; for `β = 2` and every odd integer `α ≥ 3` this is not the median. When one shape is below 1 and neither is near 1, nor the two near each other, it panics although every Beta law has a median.

Note: The code does not have the full property; proved negation: for both shapes above 1 `median` returns the approximation `(α-1/3)/(α+β-2/3)`; for `β = 2` and every odd integer `α ≥ 3` this is not the median. When one shape is below 1 and neither is near 1, nor the two near each other, it panics although every Beta law has a median. Proved part: `median` is the median for a symmetric law and when one shape is exactly 1 (and the other is not within 1e-7 of it).

## C144 Beta modes (partial)

modes returns the maximisers of the density. *For all alpha, beta > 0.*

* `C144_beta_modes_partial` (Props/Dist/Beta.lean): C144 (what holds): both shapes above 1: one interior maximiser; both below 1: the two end points, where the density tends to infinity.
* `C144_beta_modes_violated` (Props/Dist/Beta.lean): C144 (violated): when one shape is at most 1 and the other at least 1 (a monotone density, whose mode is an end point: `pdf(0)` for `α ≤ 1 ≤ β`) no mode is reported.

Note: The code does not have the full property; proved negation: when one shape is at most 1 and the other at least 1 (a monotone density, whose mode is an end point: `pdf(0)` for `α ≤ 1 ≤ β`) no mode is reported. Proved part: both shapes above 1: one interior maximiser; both below 1: the two end points, where the density tends to infinity.

## C145 Beta log-likelihood (partial)

log_likelihood of a sample from the unit interval is the sum of the logs of the Beta density at its points. *For all alpha, beta > 0, all samples.*

* `C145_beta_log_likelihood_partial` (Props/Dist/Beta.lean): C145 (what holds): for data at least 1e-9 away from both ends of the unit interval, `log_likelihood` is the sum of the log-densities.
* `C145_beta_log_likelihood_violated` (Props/Dist/Beta.lean): C145 (violated): an observation in the support but below 1e-9 is silently moved to 1e-9: unless `α = 1` the result is not the log-likelihood.

Note: The code does not have the full property; proved negation: an observation in the support but below 1e-9 is silently moved to 1e-9: unless `α = 1` the result is not the log-likelihood. Proved part: for data at least 1e-9 away from both ends of the unit interval, `log_likelihood` is the sum of the log-densities.

## C146 Beta score (partial)

score is the gradient of the Beta log-likelihood in (alpha, beta). *For all alpha, beta > 0, all samples.*

* `C146_beta_score_partial` (Props/Dist/Beta.lean): C146: for data at least 1e-9 away from both ends of the unit interval, `score` is the gradient of the log-likelihood in (α, β).
* `C146_beta_score_violated` (Props/Dist/Beta.lean): C146 (violated): one observation in the support but below 1e-9: the shape component is not the derivative.

Note: The code does not have the full property; proved negation: one observation in the support but below 1e-9: the shape component is not the derivative. Proved part: for data at least 1e-9 away from both ends of the unit interval, `score` is the gradient of the log-likelihood in (α, β).

## C147 Beta density is never negative (partial)

pdf(x) >= 0 for every x it is defined at. *For all alpha, beta > 0, all x.*

* `C147_beta_pdf_negative_violated` (Props/Dist/Beta.lean): C147 (violated): a density cannot be negative, but for `β = 2` (any `α`) `pdf` is negative at every point beyond the support.
* `C147_beta_pdf_negative_even_violated` (Props/Dist/Universal.lean): C147 (violated): a density cannot be negative, but whenever `β` is an even integer (any `α`) `pdf` is negative at every point above the support.

Note: The code does not have the full property; proved negation: a density cannot be negative, but for `β = 2` (any `α`) `pdf` is negative at every point beyond the support. | a density cannot be negative, but whenever `β` is an even integer (any `α`) `pdf` is negative at every point above the support.

## C148 Beta prime law (proved)

pdf and cdf are those of the Beta prime law; mean, variance and skewness are returned exactly when they exist (beta > 1, 2, 3) and are then the law's; modes are its maximisers. *For all alpha, beta > 0, x.*

* `C148_beta_prime` (Props/Dist/BetaPrime.lean): C148: the Beta prime law: density and distribution function on the support; mean, variance and skewness are returned exactly when they exist (and are then right), refused otherwise; the mode.

## C149 Beta prime kurtosis (partial)

kurtosis is the fourth standardised moment. *For all alpha > 0, beta > 4.*

* `C149_beta_prime_kurtosis_violated` (Props/Dist/BetaPrime.lean): C149 (violated): for `β > 4`, where the kurtosis exists, the code's numerator `6(α+β-1)(5β-11) + (β-1)²(β-2)` misses a factor: it is right exactly when `6(α-1)(α+β-1)(5β-11) + 5(β-1)²(β-2) = 0`, hence for no `α ≥ 1`. For `β ≤ 4` (other than 3 and 4) a finite number is returned although the law has no kurtosis.

Note: The code does not have the full property; proved negation: for `β > 4`, where the kurtosis exists, the code's numerator `6(α+β-1)(5β-11) + (β-1)²(β-2)` misses a factor: it is right exactly when `6(α-1)(α+β-1)(5β-11) + 5(β-1)²(β-2) = 0`, hence for no `α ≥ 1`. For `β ≤ 4` (other than 3 and 4) a finite number is returned although the law has no kurtosis.

## C150 Beta prime entropy (partial)

shannon_entropy is the differential entropy of the Beta prime law. *For all alpha, beta > 0.*

* `C150_beta_prime_entropy_violated` (Props/Dist/BetaPrime.lean): C150 (violated for all parameters): `shannon_entropy` returns the entropy of the *Beta* law with the same shapes, which falls short of the Beta prime entropy by `2(ψ(α+β) - ψ(β)) > 0`.

Note: The code does not have the full property; proved negation: `shannon_entropy` returns the entropy of the *Beta* law with the same shapes, which falls short of the Beta prime entropy by `2(ψ(α+β) - ψ(β)) > 0`.

## C151 F law (proved)

pdf and cdf are those of Fisher's F law; mean and variance are returned exactly when they exist (d2 > 2, 4); the mode is the maximiser. *For all d1, d2 >= 1, x.*

* `C151_f_dist` (Props/Dist/FDist.lean): C151: the F law: density and distribution function on the support, mean and variance returned exactly when they exist, interior mode for more than two numerator degrees of freedom (refused otherwise, where the density decreases).

## C152 F skewness (partial)

skewness is returned exactly when it exists (d2 > 6) and is then the law's. *For all d1, d2 >= 1.*

* `C152_f_skewness_partial` (Props/Dist/FDist.lean): C152 (what holds): the skewness is right for more than six denominator degrees of freedom and refused up to four.
* `C152_f_skewness_violated` (Props/Dist/FDist.lean): C152 (violated): with five or six denominator degrees of freedom the law has no skewness, yet a value is returned: a finite *negative* number for five.

Note: The code does not have the full property; proved negation: with five or six denominator degrees of freedom the law has no skewness, yet a value is returned: a finite *negative* number for five. Proved part: the skewness is right for more than six denominator degrees of freedom and refused up to four.

## C153 F kurtosis (partial)

kurtosis is the fourth standardised moment when d2 > 8. *For all d1 >= 1, d2 > 8.*

* `C153_f_kurtosis_violated` (Props/Dist/FDist.lean): C153 (violated for all parameters): where the kurtosis exists (more than eight denominator degrees of freedom) the returned excess kurtosis is always too small (a factor 12 is applied to one of two terms only); with five to eight it does not exist and yet a value is returned.

Note: The code does not have the full property; proved negation: where the kurtosis exists (more than eight denominator degrees of freedom) the returned excess kurtosis is always too small (a factor 12 is applied to one of two terms only); with five to eight it does not exist and yet a value is returned.

## C154 F entropy (partial)

shannon_entropy is the differential entropy of the F law. *For all d1, d2 >= 1.*

* `C154_f_entropy_violated` (Props/Dist/FDist.lean): C154 (violated): with `a = d1/2`, `b = d2/2` the returned entropy is off by `1/a - 1/b + 2bψ(b) + 2ln(a/b)`: it is too large whenever `d2 ≥ 5` (whatever `d1`), and wrong whenever `d1 = d2`.

Note: The code does not have the full property; proved negation: with `a = d1/2`, `b = d2/2` the returned entropy is off by `1/a - 1/b + 2bψ(b) + 2ln(a/b)`: it is too large whenever `d2 ≥ 5` (whatever `d1`), and wrong whenever `d1 = d2`.

## C155 Student t parameter range (partial)

Every degrees-of-freedom value accepted by StudentT::new defines a probability law. *For all values accepted by new.*

* `C155_student_new_violated` (Props/Dist/StudentT.lean): C155 (violated): `new` accepts every number, also the meaningless ones: NaN and every negative number of degrees of freedom pass, and then the density is NaN at every point.

Note: The code does not have the full property; proved negation: `new` accepts every number, also the meaningless ones: NaN and every negative number of degrees of freedom pass, and then the density is NaN at every point.

## C156 Student t law (proved)

pdf is the Student density; mean, variance, skewness, kurtosis are returned exactly when they exist (nu > 1, 2, 3, 4) and are then the law's; median 0 and mode 0 are right. *For all nu > 0, x.*

* `C156_student` (Props/Dist/StudentT.lean): C156: for a positive number of degrees of freedom: density, mean, variance, skewness and kurtosis (returned exactly when they exist), median, mode.

## C157 Student t cdf (partial)

cdf(x) is the integral of the Student density up to x, a valid Probability. *For all nu > 0, x.*

* `C157_student_cdf_partial` (Props/Dist/StudentT.lean): C157 (what holds): at zero, and everywhere for exactly two or four degrees of freedom.
* `C157_student_cdf_violated` (Props/Dist/StudentT.lean): C157 (violated): at every other point and number of degrees of freedom the value is wrong (`* Γ(ν/2)` instead of `/ Γ(ν/2)`); for `ν ≥ 6` it leaves the unit interval for all large `x`.

Note: The code does not have the full property; proved negation: at every other point and number of degrees of freedom the value is wrong (`* Γ(ν/2)` instead of `/ Γ(ν/2)`); for `ν ≥ 6` it leaves the unit interval for all large `x`. Proved part: at zero, and everywhere for exactly two or four degrees of freedom.

## C158 Student t entropy (partial)

shannon_entropy is the differential entropy of the Student law. *For all nu > 0.*

* `C158_student_entropy_violated` (Props/Dist/StudentT.lean): C158 (violated): the digamma functions of the formula are replaced by Gamma functions and a logarithm is missing: the returned value is too large for every `ν ≥ 3`, and wrong for one and two degrees of freedom.

Note: The code does not have the full property; proved negation: the digamma functions of the formula are replaced by Gamma functions and a logarithm is missing: the returned value is too large for every `ν ≥ 3`, and wrong for one and two degrees of freedom.

## C159 Beta-binomial law (proved)

pmf(k) is the binomial mass averaged over a Beta(alpha, beta) success probability, the masses sum to 1, mean and variance are the law's. *For all n, alpha, beta > 0, k <= n.*

* `C159_beta_binomial` (Props/Dist/BetaBinomial.lean): C159: `pmf(k)` is the probability of `k` successes in `n` trials with a Beta-distributed success probability, for every `k ≤ n` for which `choose` does not overflow; the masses sum to one; mean and variance are the law's.

## C160 Beta-binomial skewness (partial)

skewness is the third standardised moment. *For all n >= 1, alpha, beta > 0.*

* `C160_beta_binomial_skewness_violated` (Props/Dist/BetaBinomial.lean): C160 (violated): `skewness` returns the third *raw* moment `E X³`; whenever `α ≥ β` this is positive while the skewness is not.

Note: The code does not have the full property; proved negation: `skewness` returns the third *raw* moment `E X³`; whenever `α ≥ β` this is positive while the skewness is not.

## C161 Beta-binomial kurtosis (partial)

kurtosis is the fourth standardised moment. *For all n >= 1, alpha, beta > 0.*

* `C161_beta_binomial_kurtosis_violated` (Props/Dist/BetaBinomial.lean): C161 (violated): in `kurtosis` one term is divided by `α` where it should be multiplied by `α+β`: the value is the kurtosis of the law exactly when `α(α+β) = 1`.

Note: The code does not have the full property; proved negation: in `kurtosis` one term is divided by `α` where it should be multiplied by `α+β`: the value is the kurtosis of the law exactly when `α(α+β) = 1`.

## C162 Beta-binomial support and cdf (partial)

support is {0..n}, the values of positive mass; cdf(k) is the sum of the masses up to k. *For all n, alpha, beta > 0, k.*

* `C162_beta_binomial_support_violated` (Props/Dist/BetaBinomial.lean): C162 (violated): the support reported is `{0, ..., n+1}`, one more than the law can produce: its last element has probability zero; `cdf` is right from `n` on and not available below.

Note: The code does not have the full property; proved negation: the support reported is `{0, ..., n+1}`, one more than the law can produce: its last element has probability zero; `cdf` is right from `n` on and not available below.

## C163 Levy law (proved)

pdf is the Levy density above mu, which integrates to the Levy cdf; no moment exists and mean/variance are infinite, skewness and kurtosis are refused; the entropy is the law's. *For all mu, c > 0, x > mu.*

* `C163_levy` (Props/Dist/Levy.lean): C163: the accepted scales are the positive ones; on the open half line `x > mu`, `pdf` is the Lévy density, which is a probability density with the stated distribution function; no moment of the law exists, `mean` and `variance` are `+inf`, `skewness` and `kurtosis` refuse; the entropy is the law's.

## C164 Levy density at the edge of the support (partial)

pdf(x) is a number, 0, at x = mu and below. *For all mu, c > 0, x <= mu.*

* `C164_levy_boundary_violated` (Props/Dist/Levy.lean): C164, violated: the location `mu` belongs to the declared support, but `pdf(mu)` is NaN (the density is 0 there), and so is `pdf(x)` for every `x < mu`.

Note: The code does not have the full property; proved negation: C164, violated: the location `mu` belongs to the declared support, but `pdf(mu)` is NaN (the density is 0 there), and so is `pdf(x)` for every `x < mu`.

## C165 Levy cdf (partial)

cdf(x) is the integral of the Levy density up to x, a valid probability at every x. *For all mu, c > 0, x.*

* `C165_levy_cdf_violated` (Props/Dist/Levy.lean): C165, violated: `cdf` is `erfc(c/(2(x-mu)))` instead of `erfc(sqrt(c/(2(x-mu))))`. Above `mu` it is right at the single point `mu + c/2` (where the argument is 1); below `mu` it exceeds 1 and is not a probability.

Note: The code does not have the full property; proved negation: C165, violated: `cdf` is `erfc(c/(2(x-mu)))` instead of `erfc(sqrt(c/(2(x-mu))))`. Above `mu` it is right at the single point `mu + c/2` (where the argument is 1); below `mu` it exceeds 1 and is not a probability.

## C166 Levy mode and median (partial)

modes returns the maximiser of the density, median the point halving the mass, for every location. *For all mu, c > 0.*

* `C166_levy_mode_median_violated` (Props/Dist/Levy.lean): C166, violated: the law has the unique mode `mu + c/3` and a median for every `mu`. `modes` panics whenever `|mu| >= 1e-7`, answers `c/3` otherwise (wrong unless `mu = 0`), and `median` always panics.

Note: The code does not have the full property; proved negation: C166, violated: the law has the unique mode `mu + c/3` and a median for every `mu`. `modes` panics whenever `|mu| >= 1e-7`, answers `c/3` otherwise (wrong unless `mu = 0`), and `median` always panics.

## C167 Log-normal skewness and kurtosis (partial)

skewness and kurtosis are the third and fourth standardised moments of the law with distribution function cdf. *For all mu, v > 0.*

* `C167_lognormal_shape_violated` (Props/Dist/LogNormal.lean): C167, violated: skewness and kurtosis are those of the law with distribution function `cdf` only if `v = 1`.

Note: The code does not have the full property; proved negation: C167, violated: skewness and kurtosis are those of the law with distribution function `cdf` only if `v = 1`.

## C168 Log-normal mode (partial)

modes returns the maximiser of the density of the law with distribution function cdf. *For all mu, v > 0.*

* `C168_lognormal_modes_violated` (Props/Dist/LogNormal.lean): C168, violated: the law with distribution function `cdf` has the unique mode `exp(mu - v)`; `modes` answers `exp(mu - v²)`, right only if `v = 1`.

Note: The code does not have the full property; proved negation: C168, violated: the law with distribution function `cdf` has the unique mode `exp(mu - v)`; `modes` answers `exp(mu - v²)`, right only if `v = 1`.

## C169 Log-normal entropy (partial)

shannon_entropy is the differential entropy of the law with distribution function cdf. *For all mu, v > 0.*

* `C169_lognormal_entropy_violated` (Props/Dist/LogNormal.lean): C169, violated: `shannon_entropy` is in bits and with `v` for the standard deviation; it is the entropy (in nats) of the law with distribution function `cdf` exactly on one curve of parameters.

Note: The code does not have the full property; proved negation: C169, violated: `shannon_entropy` is in bits and with `v` for the standard deviation; it is the entropy (in nats) of the law with distribution function `cdf` exactly on one curve of parameters.

## C170 Log-normal Fisher information (partial)

fisher_information is the Fisher information of the family in its two parameters. *For all mu, v > 0.*

* `C170_lognormal_fisher_violated` (Props/Dist/LogNormal.lean): C170, violated: the Fisher information of the family in (mu, v) is `diag(1/v, 1/(2v²))`; the code returns `diag(1/v², 1/(2v⁴))`, right on the diagonal only if `v = 1`.

Note: The code does not have the full property; proved negation: C170, violated: the Fisher information of the family in (mu, v) is `diag(1/v, 1/(2v²))`; the code returns `diag(1/v², 1/(2v⁴))`, right on the diagonal only if `v = 1`.

## C171 Log-normal sampling (partial)

sample has the law with distribution function cdf. *For all mu, v > 0, all generators.*

* `C171_lognormal_sample_violated` (Props/Dist/LogNormal.lean): C171, violated: for a standard normal draw `z`, `sample` returns `exp(M + S z)` where `M`, `S` are `mean()` and `standard_deviation()` of the distribution itself. The median of the samples, `exp M`, lies strictly above the median of the law with distribution function `cdf`, for all parameters: samples never follow the declared law.

Note: The code does not have the full property; proved negation: C171, violated: for a standard normal draw `z`, `sample` returns `exp(M + S z)` where `M`, `S` are `mean()` and `standard_deviation()` of the distribution itself. The median of the samples, `exp M`, lies strictly above the median of the law with distribution function `cdf`, for all parameters: samples never follow the declared law.

## C172 Log-normal below the support (partial)

pdf(x) and cdf(x) are 0 for x < 0. *For all mu, v > 0, x < 0.*

* `C172_lognormal_negative_violated` (Props/Dist/LogNormal.lean): C172, violated: below the support, where the density and distribution function are 0, `pdf` is NaN and `cdf` is the normal distribution function routine applied to NaN: not a probability if that routine propagates NaN (as cephes does).

Note: The code does not have the full property; proved negation: C172, violated: below the support, where the density and distribution function are 0, `pdf` is NaN and `cdf` is the normal distribution function routine applied to NaN: not a probability if that routine propagates NaN (as cephes does).

## C173 Folded normal law (proved)

pdf and cdf are those of |N(mu, sigma^2)| on [0, inf); mean, variance and precision agree; sample has that law; half_normal and standard are the mu = 0 cases. *For all mu, sigma > 0, x >= 0, all generators.*

* `C173_folded_normal` (Props/Dist/FoldedNormal.lean): C173: the accepted scales are the positive ones; on the support `[0, ∞)`, `pdf` and `cdf` are those of the folded normal law, `mean` and `variance` are its mean and variance, `precision` is `1/sigma²`, and `sample` returns `|mu + sigma z|` for a standard normal draw `z`, which has that law.
* `C173_half_normal` (Props/Dist/FoldedNormal.lean): C173: `half_normal(scale)` and `standard()` are the folded normals with location 0

## C174 Folded normal below the support (partial)

pdf(x) and cdf(x) are 0 for x < 0. *For all mu, sigma > 0, x < 0.*

* `C174_folded_negative_violated` (Props/Dist/FoldedNormal.lean): C174, violated: below the support, where density and distribution function are 0, `pdf` is positive and `cdf` is negative (it is the odd extension), so `cdf` is not a valid probability at any `x < 0`.

Note: The code does not have the full property; proved negation: C174, violated: below the support, where density and distribution function are 0, `pdf` is positive and `cdf` is negative (it is the odd extension), so `cdf` is not a valid probability at any `x < 0`.

## C175 Folded normal mode (partial)

modes returns a maximiser of the density. *For all mu, sigma > 0.*

* `C175_folded_modes_partial` (Props/Dist/FoldedNormal.lean): C175, the part that holds: for `-sigma ≤ mu < sigma` the answer `[0]` is a mode of the law.
* `C175_folded_modes_violated` (Props/Dist/FoldedNormal.lean): C175, violated: for every `mu ≥ sigma` and every `mu < -sigma`, the single value returned by `modes` does not maximise the density.

Note: The code does not have the full property; proved negation: C175, violated: for every `mu ≥ sigma` and every `mu < -sigma`, the single value returned by `modes` does not maximise the density. Proved part: C175, the part that holds: for `-sigma ≤ mu < sigma` the answer `[0]` is a mode of the law.

## C176 Folded normal skewness and kurtosis (partial)

skewness and kurtosis, which exist for every parameter, are returned. *For all mu, sigma > 0.*

* `C176_folded_shape_violated` (Props/Dist/FoldedNormal.lean): C176, violated: the law has a skewness and a kurtosis, but all three methods panic for every parameter.

Note: The code does not have the full property; proved negation: C176, violated: the law has a skewness and a kurtosis, but all three methods panic for every parameter.

## C177 Inverse Gaussian law (proved)

pdf is the inverse Gaussian density on x > 0; mean, variance and skewness are the law's; modes returns its unique maximiser; all constructors agree. *For all mu, lambda > 0, x > 0.*

* `C177_invNormal` (Props/Dist/InvNormal.lean): C177: the accepted parameters are the positive ones; on `x > 0`, `pdf` is the inverse Gaussian density; mean, variance and skewness are the law's, and `modes` is its unique maximiser. The other constructors agree with `new`.

## C178 Inverse Gaussian cdf (partial)

cdf(x) is the integral of the density up to x, a valid probability. *For all mu, lambda > 0, x > 0.*

* `C178_invNormal_cdf_violated` (Props/Dist/InvNormal.lean): C178, violated: at every `x > 0`, `cdf(x)` exceeds the probability of `(0, x]` (the second normal probability is taken at the wrong argument); for every `x ≥ mu` it exceeds 1 and is not a probability.

Note: The code does not have the full property; proved negation: C178, violated: at every `x > 0`, `cdf(x)` exceeds the probability of `(0, x]` (the second normal probability is taken at the wrong argument); for every `x ≥ mu` it exceeds 1 and is not a probability.

## C179 Inverse Gaussian kurtosis (partial)

kurtosis is the fourth standardised moment. *For all mu, lambda > 0.*

* `C179_invNormal_kurtosis_violated` (Props/Dist/InvNormal.lean): C179, violated: `excess_kurtosis` is `16 mu/lambda` where the law's is `15 mu/lambda`, so it and `kurtosis` are wrong for all parameters.

Note: The code does not have the full property; proved negation: C179, violated: `excess_kurtosis` is `16 mu/lambda` where the law's is `15 mu/lambda`, so it and `kurtosis` are wrong for all parameters.

## C180 Inverse Gaussian entropy (partial)

shannon_entropy is the differential entropy of the law. *For all mu, lambda > 0.*

* `C180_invNormal_entropy_violated` (Props/Dist/InvNormal.lean): C180, violated: `shannon_entropy` is the entropy of the normal law with the same variance, strictly above the entropy of the inverse Gaussian law for all parameters.

Note: The code does not have the full property; proved negation: C180, violated: `shannon_entropy` is the entropy of the normal law with the same variance, strictly above the entropy of the inverse Gaussian law for all parameters.

## C181 Inverse Gaussian sampling (proved)

sample has exactly the inverse Gaussian law when its normal and uniform draws are ideal and independent. *For all mu, lambda > 0, all generators.*

* `C181_invNormal_sample` (Props/Dist/InvNormal.lean): C181: `sample` draws a standard normal and then a uniform variate and returns a value `T ν z` of them; if the two draws are independent, `ν` standard normal and `z` uniform on the unit interval, the result has exactly the inverse Gaussian law.

## C182 Inverse Gaussian below the support (partial)

pdf(x) is 0 for x < 0. *For all mu, lambda > 0, x < 0.*

* `C182_invNormal_negative_violated` (Props/Dist/InvNormal.lean): C182, violated: outside the support the density is 0, but `pdf(x)` is NaN for every `x < 0`.

Note: The code does not have the full property; proved negation: C182, violated: outside the support the density is 0, but `pdf(x)` is NaN for every `x < 0`.

## C183 Multinomial support (partial)

support() is the set of count vectors of positive mass. *For all n, p, count vectors.*

* `C183_multinomial_support_partial` (Props/Multinomial.lean): C183 (what holds): every point of positive mass lies in the box `support`
* `C183_multinomial_support_violated` (Props/Multinomial.lean): C183 is violated: for `n ≥ 1` the box `support` contains the zero vector, and (two or more categories) the vector `(n, …, n)`, which have no mass under any weights.

Note: The code does not have the full property; proved negation: C183 is violated: for `n ≥ 1` the box `support` contains the zero vector, and (two or more categories) the vector `(n, …, n)`, which have no mass under any weights. Proved part: every point of positive mass lies in the box `support`

## C184 Multinomial counts near usize::MAX (partial)

pmf and log_pmf treat a count vector by its true total: no panic, and no mass to vectors whose total is not n. *For all n, p, count vectors with entries below 2^64, both build profiles.*

* `C184_multinomial_overflow_violated` (Props/Multinomial.lean): C184 is violated: counts whose total does not fit a usize make `pmf` and `log_pmf` panic in a checked build; in a release build the total wraps, so a vector whose total is `n` modulo 2^64 is treated as one with total `n`.

Note: The code does not have the full property; proved negation: C184 is violated: counts whose total does not fit a usize make `pmf` and `log_pmf` panic in a checked build; in a release build the total wraps, so a vector whose total is `n` modulo 2^64 is treated as one with total `n`.

## C185 Dirichlet density off the simplex (partial)

pdf(x) is 0 when x is not a point of the simplex. *For all alpha, x.*

* `C185_dirichlet_pdf_off_simplex_violated` (Props/Dirichlet.lean): C185 is violated: `pdf` does not vanish off the simplex: it is positive at every vector of positive numbers, whatever their sum.

Note: The code does not have the full property; proved negation: C185 is violated: `pdf` does not vanish off the simplex: it is positive at every vector of positive numbers, whatever their sum.

## C186 Dirichlet density on the boundary (partial)

pdf(x) is a number at every vector of numbers. *For all alpha, x.*

* `C186_dirichlet_pdf_boundary_violated` (Props/Dirichlet.lean): C186 is violated: `pdf` is NaN as soon as some coordinate is negative, or is zero with concentration exactly 1

Note: The code does not have the full property; proved negation: C186 is violated: `pdf` is NaN as soon as some coordinate is negative, or is zero with concentration exactly 1

## C187 Dirichlet mode (partial)

modes() returns a maximiser of the density on the simplex, and none when there is none. *For all alpha.*

* `C187_dirichlet_modes_partial` (Props/Dirichlet.lean): C187: when every concentration is at least 1 and not all are 1, `modes` is a single point of the simplex at which the density is largest.
* `C187_dirichlet_modes_violated` (Props/Dirichlet.lean): C187 is violated: if some concentration is below 1 (and α₀ ≠ N), the density is unbounded on the simplex, so it has no mode, but `modes` still returns one point.
* `C187_dirichlet_uniform_modes_violated` (Props/Dirichlet.lean): C187 is violated: for the uniform law (all concentrations 1) every point is a mode, but `modes` is a vector of NaNs.

Note: The code does not have the full property; proved negation: C187 is violated: if some concentration is below 1 (and α₀ ≠ N), the density is unbounded on the simplex, so it has no mode, but `modes` still returns one point. | C187 is violated: for the uniform law (all concentrations 1) every point is a mode, but `modes` is a vector of NaNs. Proved part: when every concentration is at least 1 and not all are 1, `modes` is a single point of the simplex at which the density is largest.

## C188 Multivariate log-normal mean and variance (proved)

mean() and variance() are the mean and variance of each coordinate of the exponential of the Gaussian vector, for the general, diagonal and isotropic forms. *For all dimensions, means, positive definite covariances.*

* `C188_mvlognormal_moments` (Props/MvLogNormal.lean): C188 (general covariance): `mean()` and `variance()` are the mean and the variance of each coordinate of the exponential of the Gaussian
* `C188_diag_lognormal_moments` (Props/MvLogNormal.lean): C188 (diagonal covariance)
* `C188_iso_lognormal_moments` (Props/MvLogNormal.lean): C188 (isotropic covariance)

## C189 Multivariate log-normal density (partial)

pdf(x) is the density, at x with positive coordinates, of the exponential of the Gaussian vector. *For all dimensions, parameters, x.*

* `C189_mvlognormal_pdf_violated` (Props/MvLogNormal.lean): C189 (violated, general covariance): in every positive dimension and for every mean and covariance there is a point with positive coordinates at which `pdf` is not the density of the law.
* `C189_mvlognormal_pdf_partial` (Props/MvLogNormal.lean): C189 (partial, general covariance): for uncorrelated coordinates `pdf` is the Gaussian density at `ln x`, so it is the density of the law exactly where the product of the coordinates is 1. Missing: everywhere else, where the factor `1/∏x` is left out, and correlated coordinates.
* `C189_diag_lognormal_pdf_violated` (Props/MvLogNormal.lean): C189 (violated, diagonal covariance): in every positive dimension and for all parameters there is a point with positive coordinates at which `pdf` is not the density of the law.
* `C189_diag_lognormal_pdf_partial` (Props/MvLogNormal.lean): C189 (partial, diagonal covariance): the value is positive and finite wherever every coordinate is positive, and depends on the point only through the logarithms. Missing: the density itself.
* `C189_iso_lognormal_pdf_violated` (Props/MvLogNormal.lean): C189 (violated, isotropic covariance)

Note: The code does not have the full property; proved negation: in every positive dimension and for every mean and covariance there is a point with positive coordinates at which `pdf` is not the density of the law. | in every positive dimension and for all parameters there is a point with positive coordinates at which `pdf` is not the density of the law. | C189 (violated, isotropic covariance) Proved part: for uncorrelated coordinates `pdf` is the Gaussian density at `ln x`, so it is the density of the law exactly where the product of the coordinates is 1. Missing: everywhere else, where the factor `1/∏x` is left out, and correlated coordinates. | the value is positive and finite wherever every coordinate is positive, and depends on the point only through the logarithms. Missing: the density itself.

## C190 Multivariate log-normal sampling (partial)

sample() consumes what the normal sampler consumes, and with ideal normal draws has the law whose moments are returned. *For all dimensions, parameters, generators.*

* `C190_mvlognormal_sample_exp` (Props/MvLogNormal.lean): C190: drawing a log-normal sample consumes exactly what drawing the normal one does and exponentiates each coordinate of it, whatever the arithmetic
* `C190_mvlognormal_sample_law` (Props/MvLogNormal.lean): C190 (general covariance): for independent standard normal draws the samples have the law the moments describe
* `C190_diag_lognormal_sample_violated` (Props/MvLogNormal.lean): C190 (violated, diagonal covariance): unless every variance is 1, the samples do not have the law the moments describe
* `C190_diag_lognormal_sample_partial` (Props/MvLogNormal.lean): C190 (partial, diagonal covariance): the samples have the law with every variance squared; right when all are 1
* `C190_iso_lognormal_sample_violated` (Props/MvLogNormal.lean): C190 (violated, isotropic covariance)
* `C190_iso_lognormal_sample_partial` (Props/MvLogNormal.lean): C190 (partial, isotropic covariance)

Note: The code does not have the full property; proved negation: unless every variance is 1, the samples do not have the law the moments describe | C190 (violated, isotropic covariance) Proved part: the samples have the law with every variance squared; right when all are 1 | C190 (partial, isotropic covariance)

## C191 Exponential, Cauchy, Weibull, triangular and uniform sampling (proved)

sample() never panics and its value has exactly the law whose density pdf() returns. *For all parameters, all random sources whose elementary draws have the laws documented by rand and rand_distr.*

* `C191_exponential_sample` (Props/Samplers.lean): C191: an exponential sample has the exponential law of the given rate.
* `C191_cauchy_sample` (Props/Samplers.lean): C191: a Cauchy sample has the Cauchy law of the given location and scale.
* `C191_weibull_sample` (Props/Samplers.lean): C191: a Weibull sample has the Weibull law of the given scale and shape.
* `C191_triangular_sample` (Props/Samplers.lean): C191: a triangular sample has the triangular law on `[a, a + a2c + c2b]` with mode `a + a2c`.
* `C191_uniform_sample` (Props/Samplers.lean): C191: a sample of the continuous uniform distribution is uniform on `[lb, lb + width]`.

## C192 Pareto sampling (partial)

sample() of a constructed Pareto distribution never panics and has the Pareto law. *For all parameters, all random sources whose elementary draws have the laws documented by rand and rand_distr.*

* `C192_pareto_sample_partial` (Props/Samplers.lean): C192: a Pareto sample has the Pareto law of the given scale and shape when the scale is positive (for the rest see `C192_pareto_sample_violated`).
* `C192_pareto_sample_violated` (Props/Samplers.lean): C192 (violated): every non-positive scale is accepted by the constructor, and then every call to `sample` panics.

Note: The code does not have the full property; proved negation: every non-positive scale is accepted by the constructor, and then every call to `sample` panics. Proved part: a Pareto sample has the Pareto law of the given scale and shape when the scale is positive (for the rest see `C192_pareto_sample_violated`).

## C193 Gamma sampling (partial)

sample() has the Gamma law with the given shape and rate, the one pdf() describes. *For all parameters, all random sources whose elementary draws have the laws documented by rand and rand_distr.*

* `C193_gamma_sample_violated` (Props/Samplers.lean): C193 (violated): the rate `β` is handed over as a scale, so a Gamma sample has the Gamma law of rate `1/β`; this is the law of the distribution's own density only for `β = 1`.
* `C193_gamma_sample_partial` (Props/Samplers.lean): C193: with rate 1 a Gamma sample has the law of the distribution.

Note: The code does not have the full property; proved negation: the rate `β` is handed over as a scale, so a Gamma sample has the Gamma law of rate `1/β`; this is the law of the distribution's own density only for `β = 1`. Proved part: with rate 1 a Gamma sample has the law of the distribution.

## C194 Beta, chi-squared and F sampling (proved)

sample() never panics and has the Beta, chi-squared or Fisher law with the given parameters. *For all parameters, all random sources whose elementary draws have the laws documented by rand and rand_distr.*

* `C194_beta_sample` (Props/Samplers.lean): C194: a Beta sample has the Beta law with the given shapes.
* `C194_chisq_sample` (Props/Samplers.lean): C194: a chi-squared sample has the chi-squared law with `k` degrees of freedom, that is the Gamma law of shape `k/2` and rate `1/2`.
* `C194_fdist_sample` (Props/Samplers.lean): C194: an F sample has Fisher's law with the given degrees of freedom.

## C195 Student sampling (partial)

sample() of a constructed Student distribution never panics and has Student's law. *For all parameters, all random sources whose elementary draws have the laws documented by rand and rand_distr.*

* `C195_student_sample_partial` (Props/Samplers.lean): C195: a Student sample has Student's law when the number of degrees of freedom is positive.
* `C195_student_sample_violated` (Props/Samplers.lean): C195 (violated): the constructor accepts every non-positive number of degrees of freedom, and then every call to `sample` panics.

Note: The code does not have the full property; proved negation: the constructor accepts every non-positive number of degrees of freedom, and then every call to `sample` panics. Proved part: a Student sample has Student's law when the number of degrees of freedom is positive.

## C196 Bernoulli, binomial and Poisson sampling (proved)

sample() never panics and takes each value with the probability that pmf() returns (for Poisson, each value below u64::MAX). *For all parameters, all random sources whose elementary draws have the laws documented by rand and rand_distr.*

* `C196_binomial_sample` (Props/Samplers.lean): C196: a binomial sample has the binomial mass function.
* `C196_bernoulli_sample` (Props/Samplers.lean): C196: a Bernoulli sample is true with the success probability.
* `C196_poisson_sample` (Props/Samplers.lean): C196: a Poisson sample never panics and has the Poisson mass function, except that all the mass from `u64::MAX` on sits at `u64::MAX`.

## C197 Kumaraswamy and Laplace sampling (proved)

sample() has the Kumaraswamy or Laplace law. *For all parameters, all random sources whose elementary draws have the laws documented by rand and rand_distr.*

* `C197_kumaraswamy_sample` (Props/Samplers.lean): C197: a Kumaraswamy sample has the Kumaraswamy law.
* `C197_laplace_sample` (Props/Samplers.lean): C197: a Laplace sample has the Laplace law.

## C198 A sampler for every distribution (partial)

sample() of a constructed distribution returns a value. *For all distributions, parameters and sources.*

* `C198_sample_unimplemented_violated` (Props/Samplers.lean): C198 (violated): thirteen distributions have no sampler: whatever the parameters and the source, `sample` panics.
* `C198_sample_n_violated` (Props/Surface.lean): C198 (violated): the multinomial has no sampler either, and `sample_n(n)` of every distribution without a sampler panics for n ≥ 1.
* `C198_sample_n_partial` (Props/Surface.lean): C198 (partial): when the first `n` draws return, `sample_n(n)` returns exactly these draws, each taken from the state its predecessor left, and leaves the generator in the state after the last; a panic at draw `k < n` (none before) ends the call with that panic.

Note: The code does not have the full property; proved negation: thirteen distributions have no sampler: whatever the parameters and the source, `sample` panics. | the multinomial has no sampler either, and `sample_n(n)` of every distribution without a sampler panics for n ≥ 1. Proved part: when the first `n` draws return, `sample_n(n)` returns exactly these draws, each taken from the state its predecessor left, and leaves the generator in the state after the last; a panic at draw `k < n` (none before) ends the call with that panic.

## C199 Discrete uniform sampling (partial)

sample() of a constructed discrete uniform distribution never panics and is uniform on the support. *For all parameters, all random sources whose elementary draws have the laws documented by rand and rand_distr, both build profiles.*

* `C199_uniform_int_sample_partial` (Props/Samplers.lean): C199: a sample of the discrete uniform distribution is uniform on the integers from `lb` to `lb + width`, when those fit.
* `C199_uniform_int_sample_violated` (Props/Samplers.lean): C199 (violated): for every lower bound and width whose upper end does not fit an i64, `sample` panics, in both build profiles, although the constructor returned a distribution.

Note: The code does not have the full property; proved negation: for every lower bound and width whose upper end does not fit an i64, `sample` panics, in both build profiles, although the constructor returned a distribution. Proved part: a sample of the discrete uniform distribution is uniform on the integers from `lb` to `lb + width`, when those fit.

## C200 Fréchet sampling (partial)

sample() has the Fréchet law. *For all parameters, all random sources whose elementary draws have the laws documented by rand and rand_distr.*

* `C200_frechet_sample_violated` (Props/Samplers.lean): C200 (violated): a Fréchet sample has the Weibull law of scale 1 and the given shape; it never has the Fréchet law.

Note: The code does not have the full property; proved negation: a Fréchet sample has the Weibull law of scale 1 and the given shape; it never has the Fréchet law.

## C201 Geometric sampling (partial)

sample() takes each value with the probability that pmf() returns. *For all parameters, all random sources whose elementary draws have the laws documented by rand and rand_distr.*

* `C201_geometric_sample_partial` (Props/Samplers.lean): C201: a geometric sample has the geometric mass function (number of failures), for a positive success probability.
* `C201_geometric_sample_violated` (Props/Samplers.lean): C201 (violation): the constructor accepts success probability 0; then `pmf` is 0 everywhere while `sample` always returns a value, so for every source and every law of its state some value is drawn with positive probability although its mass is reported as 0.

Note: The code does not have the full property; proved negation: the constructor accepts success probability 0; then `pmf` is 0 everywhere while `sample` always returns a value, so for every source and every law of its state some value is drawn with positive probability although its mass is reported as 0. Proved part: a geometric sample has the geometric mass function (number of failures), for a positive success probability.

## C202 Floating-point distribution functions on the whole line (proved)

In rounded IEEE arithmetic, Logistic, Gumbel and Weibull cdf(x) is never NaN, lies in [0,1], is non-decreasing in x over all f64, is exactly 0 at the left end of the support and exactly 1 at +inf. *For all finite parameters accepted by the constructor; all f64 arguments of the interval, signed zeros and infinities included; IEEE rounded arithmetic (any correctly rounding + - * / sqrt with monotone library functions, binary64 in particular).*

* `C202_logistic` (Props/FloatCdf.lean): C202: Logistic — for all finite parameters accepted by `new`, the floating-point cdf is a distribution function over the whole f64 line
* `C202_gumbel` (Props/FloatCdf.lean): C202: Gumbel
* `C202_weibull` (Props/FloatCdf.lean): C202: Weibull, on the whole line (the code returns 0 below the origin)

## C203 Floating-point distribution functions with one-sided or bounded support (partial)

In rounded IEEE arithmetic, Exponential, Pareto, Kumaraswamy and Frechet cdf(x) is a non-decreasing map into [0,1] for every f64 x. *For all finite parameters accepted by the constructor; all f64 arguments of the interval, signed zeros and infinities included; IEEE rounded arithmetic (any correctly rounding + - * / sqrt with monotone library functions, binary64 in particular).*

* `C203_exponential_partial` (Props/FloatCdf.lean): C203: Exponential on `[0, +inf]`
* `C203_pareto_partial` (Props/FloatCdf.lean): C203: Pareto on `[xm, +inf]`, for a positive minimum
* `C203_kumaraswamy_partial` (Props/FloatCdf.lean): C203: Kumaraswamy on `[0, 1]`
* `C203_frechet_partial` (Props/FloatCdf.lean): C203: Fréchet on `[+0.0, +inf]` — every f64 of the support except `-0.0`
* `C203_frechet_violated` (Props/FloatCdf.lean): C203 (violation): for an odd integer shape the Fréchet cdf at `-0.0` — an f64 that compares equal to the left end of the support — is `+inf`, while at `+0.0` it is 0
* `C203_exponential_violated` (Props/FloatCdf2.lean): C203 (violation): the Exponential cdf at `-inf` is `-inf`, not a probability
* `C203_pareto_violated` (Props/FloatCdf2.lean): C203 (violation): the Pareto cdf below its minimum — at `0.0` — is `-inf`, and at `-inf` it is 1
* `C203_kumaraswamy_violated` (Props/FloatCdf2.lean): C203 (violation): the Kumaraswamy cdf at `+inf` is an infinity

Note: The code does not have the full property; proved negation: for an odd integer shape the Fréchet cdf at `-0.0` — an f64 that compares equal to the left end of the support — is `+inf`, while at `+0.0` it is 0 | the Exponential cdf at `-inf` is `-inf`, not a probability | the Pareto cdf below its minimum — at `0.0` — is `-inf`, and at `-inf` it is 1 | the Kumaraswamy cdf at `+inf` is an infinity Proved part: Exponential on `[0, +inf]` | Pareto on `[xm, +inf]`, for a positive minimum | Kumaraswamy on `[0, 1]` | Fréchet on `[+0.0, +inf]` — every f64 of the support except `-0.0`

## C204 Floating-point distribution functions over special functions (partial)

In rounded IEEE arithmetic with monotone special functions, Normal, LogNormal, FoldedNormal, Beta, Chi and Levy cdf(x) is non-decreasing on the support, lies in [0,1], and is exactly 0 and 1 at its ends. *For all finite parameters accepted by the constructor; all f64 arguments of the interval, signed zeros and infinities included; IEEE rounded arithmetic (any correctly rounding + - * / sqrt with monotone library functions, binary64 in particular).*

* `C204_normal` (Props/FloatCdf2.lean): C204: Normal, for every finite mean and every floating-point variance accepted by `new`
* `C204_lognormal` (Props/FloatCdf2.lean): C204: LogNormal on `[0, +inf]`
* `C204_folded_normal` (Props/FloatCdf2.lean): C204: FoldedNormal on `[0, +inf]`
* `C204_beta` (Props/FloatCdf2.lean): C204: Beta on `[0, 1]`
* `C204_chi` (Props/FloatCdf2.lean): C204: Chi on `[0, +inf]`, for every number of degrees of freedom a `usize` can hold
* `C204_levy_partial` (Props/FloatCdf2.lean): C204: Lévy at every `x ≥ mu` with `x - mu` not `-0.0`, unless half the scale underflows
* `C204_levy_violated` (Props/FloatCdf2.lean): C204 (violation): with location `+0.0` the Lévy cdf at `-0.0` evaluates the complementary error function at `-inf`, which is 2

Note: The code does not have the full property; proved negation: with location `+0.0` the Lévy cdf at `-0.0` evaluates the complementary error function at `-inf`, which is 2 Proved part: Lévy at every `x ≥ mu` with `x - mu` not `-0.0`, unless half the scale underflows

## C205 Floating-point Cauchy and Arcsine distribution functions (partial)

In rounded IEEE arithmetic, Cauchy and Arcsine cdf(x) is non-decreasing, never NaN and lies in [0,1] (is accepted as a Probability) for every f64 x. *For all finite parameters accepted by the constructor; all f64 arguments of the interval, signed zeros and infinities included; IEEE rounded arithmetic (any correctly rounding + - * / sqrt with monotone library functions, binary64 in particular).*

* `C205_arcsine_violated` (Props/FloatCdf3.lean): C205 (violation): whenever the width recovered from the end points of the support, `(a + w) - a`, exceeds `w` by a few units in the last place (which happens for `w` small against `a`), the Arcsine cdf at the upper end of its own support is NaN.
* `C205_cauchy` (Props/FloatCdf3.lean): C205: Cauchy in binary64 — for all finite parameters accepted by `new`, the cdf is a distribution function over the whole f64 line, exactly 0 at `-inf` and exactly 1 at `+inf`.
* `C205_arcsine_partial` (Props/FloatCdf3.lean): C205: Arcsine in binary64, on its support `[a, a + w]`, provided the width is recovered exactly from the end points.

Note: The code does not have the full property; proved negation: whenever the width recovered from the end points of the support, `(a + w) - a`, exceeds `w` by a few units in the last place (which happens for `w` small against `a`), the Arcsine cdf at the upper end of its own support is NaN. Proved part: Arcsine in binary64, on its support `[a, a + w]`, provided the width is recovered exactly from the end points.

## C206 Floating-point uniform distribution function (partial)

In rounded IEEE arithmetic, Uniform<f64> cdf(x) is non-decreasing and in [0,1], 0 at the lower and 1 at the upper end, for every pair of ends the constructor accepts. *For all finite parameters accepted by the constructor; all f64 arguments of the interval, signed zeros and infinities included; IEEE rounded arithmetic (any correctly rounding + - * / sqrt with monotone library functions, binary64 in particular).*

* `C206_uniform_tiny_violated` (Props/FloatCdf4.lean): C206 (violation): when the reciprocal of the width overflows (widths below 2^-1024 in binary64) the Uniform cdf at the lower end of the support is `0 * inf`, NaN.
* `C206_uniform_partial` (Props/FloatCdf4.lean): C206: Uniform in binary64 — for every lower bound and every width between 2^-1022 and 2^1022 whose upper bound is finite, the cdf is a distribution function over all binary64 numbers: never NaN, never above 1, monotone.
* `C206_uniform_wide_violated` (Props/FloatCdf4.lean): C206 (violation): for widths above 2^1022 the reciprocal is subnormal and has lost precision: `Uniform::new(0, 7·2^1021)` has `cdf(x) > 1` at the largest f64 below its upper bound.

Note: The code does not have the full property; proved negation: when the reciprocal of the width overflows (widths below 2^-1024 in binary64) the Uniform cdf at the lower end of the support is `0 * inf`, NaN. | for widths above 2^1022 the reciprocal is subnormal and has lost precision: `Uniform::new(0, 7·2^1021)` has `cdf(x) > 1` at the largest f64 below its upper bound. Proved part: Uniform in binary64 — for every lower bound and every width between 2^-1022 and 2^1022 whose upper bound is finite, the cdf is a distribution function over all binary64 numbers: never NaN, never above 1, monotone.

## C207 Floating-point Rayleigh, triangular and cosine distribution functions (partial)

In rounded IEEE arithmetic, Rayleigh, Triangular and Cosine cdf(x) is non-decreasing and in [0,1] for every f64 x, with 0 and 1 at the ends of the support. *For all finite parameters accepted by the constructor; all f64 arguments of the interval, signed zeros and infinities included; IEEE rounded arithmetic (any correctly rounding + - * / sqrt with monotone library functions, binary64 in particular).*

* `C207_rayleigh_partial` (Props/FloatCdf5.lean): C207: Rayleigh on `[0, +inf]` (the formula is not that of the Rayleigh law, see C75, but it is a distribution function)
* `C207_rayleigh_violated` (Props/FloatCdf5.lean): C207 (violation): the Rayleigh cdf is symmetric: at `-inf` it is 1
* `C207_triangular_wide_violated` (Props/FloatCdf6.lean): C207 (violation): a triangular distribution whose left part is wide enough for `(c-a)^2` to overflow has `cdf(c) = +inf`
* `C207_triangular_partial` (Props/FloatCdf6.lean): C207: the triangular cdf, when the two half-widths and the width are computed as finite positive numbers: non-decreasing and non-negative up to the peak, non-decreasing and at most 1 beyond it, 0 up to `a` and 1 above `b`.
* `C207_cosine_violated` (Props/FloatCdf6.lean): C207 (violation): outside the support the raised cosine cdf is not clamped; at the infinities it is NaN
* `C207_cosine_lower_end_violated` (Props/FloatCdf6.lean): C207 (violation): at the lower end `-s` of the support of the raised cosine distribution with `mu = 0` — for every scale — the cdf is negative, because `sin` of the rounded `π` is not zero.
* `C207_triangular_rounding_violated` (Props/FloatCdf6.lean): C207 (violation): `Triangular::new(0, 1.5 + 2^-52, 2^-60)` has `cdf(c) > 1`: the rounding errors of `(c-a)*(c-a)/(b-a)/(c-a)` add up.

Note: The code does not have the full property; proved negation: the Rayleigh cdf is symmetric: at `-inf` it is 1 | a triangular distribution whose left part is wide enough for `(c-a)^2` to overflow has `cdf(c) = +inf` | outside the support the raised cosine cdf is not clamped; at the infinities it is NaN | at the lower end `-s` of the support of the raised cosine distribution with `mu = 0` — for every scale — the cdf is negative, because `sin` of the rounded `π` is not zero. | `Triangular::new(0, 1.5 + 2^-52, 2^-60)` has `cdf(c) > 1`: the rounding errors of `(c-a)*(c-a)/(b-a)/(c-a)` add up. Proved part: Rayleigh on `[0, +inf]` (the formula is not that of the Rayleigh law, see C75, but it is a distribution function) | the triangular cdf, when the two half-widths and the width are computed as finite positive numbers: non-decreasing and non-negative up to the peak, non-decreasing and at most 1 beyond it, 0 up to `a` and 1 above `b`.

## C208 Floating-point beta prime and F distribution functions (partial)

In rounded IEEE arithmetic with a monotone incomplete beta function, BetaPrime and FDist cdf(x) is non-decreasing and in [0,1] on [0, +inf], and 1 at +inf. *For all finite parameters accepted by the constructor; all f64 arguments of the interval, signed zeros and infinities included; IEEE rounded arithmetic (any correctly rounding + - * / sqrt with monotone library functions, binary64 in particular).*

* `C208_beta_prime_partial` (Props/FloatCdf7.lean): C208: the beta prime cdf is a valid probability at every finite f64 `x ≥ 0`, and 0 at 0
* `C208_beta_prime_violated` (Props/FloatCdf7.lean): C208 (violation): at `+inf` the beta prime cdf evaluates the incomplete beta function at NaN; so the result is NaN, not 1, if that routine propagates NaN.
* `C208_f_dist_partial` (Props/FloatCdf7.lean): C208: the F cdf is a valid probability at every `x ≥ 0` for which `d1 * x` does not overflow, and 0 at 0
* `C208_f_dist_violated` (Props/FloatCdf7.lean): C208 (violation): wherever `d1 * x` overflows — at `+inf` and, for `d1 ≥ 2`, at large finite `x` — the F cdf evaluates the incomplete beta function at NaN; so the result is NaN, not (near) 1, if that routine propagates NaN.
* `C208_beta_prime_decreasing_violated` (Props/FloatCdf7.lean): C208 (violation): the beta prime cdf decreases: with `alpha = beta = 1`, `cdf(2^53) = 1` but `cdf(2^53 + 2) < 1`

Note: The code does not have the full property; proved negation: at `+inf` the beta prime cdf evaluates the incomplete beta function at NaN; so the result is NaN, not 1, if that routine propagates NaN. | wherever `d1 * x` overflows — at `+inf` and, for `d1 ≥ 2`, at large finite `x` — the F cdf evaluates the incomplete beta function at NaN; so the result is NaN, not (near) 1, if that routine propagates NaN. | the beta prime cdf decreases: with `alpha = beta = 1`, `cdf(2^53) = 1` but `cdf(2^53 + 2) < 1` Proved part: the beta prime cdf is a valid probability at every finite f64 `x ≥ 0`, and 0 at 0 | the F cdf is a valid probability at every `x ≥ 0` for which `d1 * x` does not overflow, and 0 at 0

## C209 Floating-point generalised Pareto and extreme value distribution functions (partial)

In rounded IEEE arithmetic, GeneralisedPareto and GeneralisedExtremeValue cdf(x) is non-decreasing and in [0,1] for every f64 x. *For all finite parameters accepted by the constructor; all f64 arguments of the interval, signed zeros and infinities included; IEEE rounded arithmetic (any correctly rounding + - * / sqrt with monotone library functions, binary64 in particular).*

* `C209_gpd_partial` (Props/FloatCdf5.lean): C209: generalised Pareto on `[mu, +inf]`, when `-1/zeta` does not underflow to zero
* `C209_gpd_violated` (Props/FloatCdf5.lean): C209 (violation): the generalised Pareto cdf at `-inf` — its reported support is the whole line — is 1
* `C209_gev_small_partial` (Props/FloatCdf5.lean): C209: generalised extreme value with a shape below the code's `1e-7` threshold: the Gumbel branch, the whole line
* `C209_gev_partial` (Props/FloatCdf5.lean): C209: generalised extreme value with a shape of at least `1e-7`, where the computed `1 + zeta*(x-mu)/sigma` is positive (inside the support of the law): valid, non-decreasing, and 1 at `+inf`. Missing from a full `FloatCDF`: see `C209_gev_violated`.
* `C209_gev_violated` (Props/FloatCdf5.lean): C209 (violation): below the support of a generalised extreme value law with shape `≥ 1e-7` — at `-inf` — the cdf is 1, not 0; `support()` is the whole line.

Note: The code does not have the full property; proved negation: the generalised Pareto cdf at `-inf` — its reported support is the whole line — is 1 | below the support of a generalised extreme value law with shape `≥ 1e-7` — at `-inf` — the cdf is 1, not 0; `support()` is the whole line. Proved part: generalised Pareto on `[mu, +inf]`, when `-1/zeta` does not underflow to zero | generalised extreme value with a shape below the code's `1e-7` threshold: the Gumbel branch, the whole line | generalised extreme value with a shape of at least `1e-7`, where the computed `1 + zeta*(x-mu)/sigma` is positive (inside the support of the law): valid, non-decreasing, and 1 at `+inf`. Missing from a full `FloatCDF`: see `C209_gev_violated`.

## C210 Floating-point densities are never NaN (proved)

In rounded IEEE arithmetic, pdf(x) of Exponential, Uniform, Laplace, Normal, LogNormal, FoldedNormal and GeneralisedPareto is a non-negative f64, never NaN, at every f64 x of the support, the infinities and the ends included. *For all finite parameters accepted by the constructor; all f64 arguments of the interval, signed zeros and infinities included; IEEE rounded arithmetic (any correctly rounding + - * / sqrt with monotone library functions, binary64 in particular).*

* `C210_exponential` (Props/FloatPdf.lean): C210: the exponential density, at every f64 except NaN (it is not cut off below 0)
* `C210_uniform` (Props/FloatPdf.lean): C210: the uniform density, at every f64
* `C210_laplace` (Props/FloatPdf.lean): C210: the Laplace density returns, a number in `[0, 1]`, at every f64 except NaN (the formula is that of the cdf, see C68)
* `C210_normal` (Props/FloatPdf.lean): C210: Normal
* `C210_lognormal` (Props/FloatPdf.lean): C210: LogNormal, on `[0, +inf]`
* `C210_folded_normal` (Props/FloatPdf.lean): C210: FoldedNormal, at every f64 except NaN
* `C210_gpd` (Props/FloatPdf2.lean): C210: generalised Pareto, on `[mu, +inf]`

## C211 Floating-point densities at the ends of the support (partial)

In rounded IEEE arithmetic, pdf(x) of Cauchy, Logistic, Gumbel, Rayleigh, Frechet, Weibull, Gamma, ChiSq, Chi, Levy, InvGamma, FDist and InvNormal is a non-negative f64, never NaN, at every f64 x of the closed support, the infinities included. *For all finite parameters accepted by the constructor; all f64 arguments of the interval, signed zeros and infinities included; IEEE rounded arithmetic (any correctly rounding + - * / sqrt with monotone library functions, binary64 in particular).*

* `C211_cauchy_partial` (Props/FloatPdf2.lean): C211: Cauchy, when `1/(π γ)` does not overflow
* `C211_cauchy_violated` (Props/FloatPdf2.lean): C211 (violation): when `1/(π γ)` overflows (a subnormal scale) the Cauchy density is NaN at the infinities
* `C211_logistic_partial` (Props/FloatPdf2.lean): C211: Logistic, wherever `1 + exp(-z)` does not overflow
* `C211_logistic_violated` (Props/FloatPdf2.lean): C211 (violation): wherever `exp(-z)` overflows, e.g. for every `x` with `z ≤ -710` and at `-inf`, the Logistic density is NaN
* `C211_gumbel_partial` (Props/FloatPdf2.lean): C211: Gumbel, wherever `z = (x-mu)/beta` does not overflow to `-inf`
* `C211_gumbel_violated` (Props/FloatPdf2.lean): C211 (violation): the Gumbel density at `-inf` is NaN (`inf - inf`)
* `C211_rayleigh_violated` (Props/FloatPdf2.lean): C211 (violation): the Rayleigh density at `+inf` is NaN (`inf * 0`) when `sigma²` is a positive finite number
* `C211_frechet_violated` (Props/FloatPdf2.lean): C211 (violation): the Frechet density at 0, a point of the closed half line returned by `support()`, is NaN (`inf * 0`)
* `C211_weibull_violated` (Props/FloatPdf2.lean): C211 (violation): the Weibull density at `+inf` is NaN for every shape above 1
* `C211_gamma_violated` (Props/FloatPdf2.lean): C211 (violation): the Gamma density at `+inf` is NaN for every shape above 1, whatever the rate
* `C211_chi_sq_violated` (Props/FloatPdf2.lean): C211 (violation): the Chi-squared density at `+inf` is NaN for more than two degrees of freedom
* `C211_chi_violated` (Props/FloatPdf2.lean): C211 (violation): the Chi density at `+inf` is NaN for more than one degree of freedom
* `C211_levy_violated` (Props/FloatPdf2.lean): C211 (violation): the Lévy density at `mu`, the closed end of the support, is NaN (`0 / 0`)
* `C211_inv_gamma_violated` (Props/FloatPdf2.lean): C211 (violation): the inverse-gamma density at 0, the limit point of its support, is NaN (`inf * 0`)
* `C211_f_dist_violated` (Props/FloatPdf2.lean): C211 (violation): the F density at 0, the closed end of its support, is NaN (`0 / 0`), whatever the degrees of freedom for which the beta function does not overflow
* `C211_inv_normal_violated` (Props/FloatPdf2.lean): C211 (violation): the inverse-normal density at 0, the closed end of its support, is NaN (`inf * 0`), unless the intermediate quotients underflow

Note: The code does not have the full property; proved negation: when `1/(π γ)` overflows (a subnormal scale) the Cauchy density is NaN at the infinities | wherever `exp(-z)` overflows, e.g. for every `x` with `z ≤ -710` and at `-inf`, the Logistic density is NaN | the Gumbel density at `-inf` is NaN (`inf - inf`) | the Rayleigh density at `+inf` is NaN (`inf * 0`) when `sigma²` is a positive finite number | the Frechet density at 0, a point of the closed half line returned by `support()`, is NaN (`inf * 0`) | the Weibull density at `+inf` is NaN for every shape above 1 | the Gamma density at `+inf` is NaN for every shape above 1, whatever the rate | the Chi-squared density at `+inf` is NaN for more than two degrees of freedom | the Chi density at `+inf` is NaN for more than one degree of freedom | the Lévy density at `mu`, the closed end of the support, is NaN (`0 / 0`) | the inverse-gamma density at 0, the limit point of its support, is NaN (`inf * 0`) | the F density at 0, the closed end of its support, is NaN (`0 / 0`), whatever the degrees of freedom for which the beta function does not overflow | the inverse-normal density at 0, the closed end of its support, is NaN (`inf * 0`), unless the intermediate quotients underflow Proved part: Cauchy, when `1/(π γ)` does not overflow | Logistic, wherever `1 + exp(-z)` does not overflow | Gumbel, wherever `z = (x-mu)/beta` does not overflow to `-inf`

## C212 Successive samples are independent (proved)

sample_n(n) (n successive calls of sample) returns n values that are independent and all have the law the distribution describes: Exponential, Cauchy, Weibull, Triangular, Uniform<f64>, Beta, ChiSq, FDist, Kumaraswamy, Laplace, Binomial, Bernoulli, Poisson, Degenerate. *For all parameters, every n, all random sources whose elementary draws have the documented laws and leave a state independent of the value drawn.*

* `C212_exponential` (Props/Repeat.lean): C212: successive exponential samples are independent with the exponential law of the given rate.
* `C212_cauchy` (Props/Repeat.lean): C212: Cauchy
* `C212_weibull` (Props/Repeat.lean): C212: Weibull
* `C212_triangular` (Props/Repeat.lean): C212: triangular
* `C212_uniform` (Props/Repeat.lean): C212: continuous uniform
* `C212_beta` (Props/Repeat.lean): C212: Beta
* `C212_chisq` (Props/Repeat.lean): C212: chi-squared
* `C212_fdist` (Props/Repeat.lean): C212: F
* `C212_binomial` (Props/Repeat.lean): C212: binomial
* `C212_bernoulli` (Props/Repeat.lean): C212: Bernoulli
* `C212_poisson` (Props/Repeat.lean): C212: Poisson; all the mass from `u64::MAX` on sits at `u64::MAX`
* `C212_kumaraswamy` (Props/Repeat.lean): C212: Kumaraswamy
* `C212_laplace` (Props/Repeat.lean): C212: Laplace
* `C212_degenerate` (Props/Repeat.lean): C212: the degenerate distribution: every call returns the point, whatever the source

## C213 Successive samples are independent: Pareto, Gamma, Fréchet, Student, geometric, discrete uniform (partial)

sample_n(n) returns n independent values of the law the distribution describes. *For all parameters, every n, all random sources whose elementary draws have the documented laws and leave a state independent of the value drawn.*

* `C213_pareto_partial` (Props/Repeat.lean): C213: Pareto, for a positive scale (the constructor accepts others, see C192)
* `C213_gamma_partial` (Props/Repeat.lean): C213: Gamma: successive samples are independent, with the Gamma law of rate `1/β` (see C193)
* `C213_student_partial` (Props/Repeat.lean): C213: Student, for a positive number of degrees of freedom (the constructor accepts others, see C195)
* `C213_geometric_partial` (Props/Repeat.lean): C213: geometric, for a positive success probability (the constructor accepts 0, see C201)
* `C213_uniform_int_partial` (Props/Repeat.lean): C213: discrete uniform, when the upper end fits (see C199)
* `C213_gamma_violated` (Props/Repeat3.lean): C213 (violated): for every rate `β` other than 1 and every source that behaves as documented, successive Gamma samples do not have the Gamma law of shape `α` and rate `β`
* `C213_frechet_partial` (Props/Repeat3.lean): C213 (Fréchet): successive samples are independent, with the Weibull law of scale 1 and the given shape (see C200)
* `C213_frechet_violated` (Props/Repeat3.lean): C213 (violated): for no shape and no source that behaves as documented do successive Fréchet samples have the Fréchet law
* `C213_pareto_violated` (Props/Repeat3.lean): C213 (violated): a Pareto distribution with a scale that is not positive is accepted and never gives a sample
* `C213_student_violated` (Props/Repeat3.lean): C213 (violated): a Student distribution whose number of degrees of freedom is not positive is accepted and never gives a sample
* `C213_uniform_int_violated` (Props/Repeat3.lean): C213 (violated): a discrete uniform distribution whose upper end does not fit never gives a sample

Note: The code does not have the full property; proved negation: for every rate `β` other than 1 and every source that behaves as documented, successive Gamma samples do not have the Gamma law of shape `α` and rate `β` | for no shape and no source that behaves as documented do successive Fréchet samples have the Fréchet law | a Pareto distribution with a scale that is not positive is accepted and never gives a sample | a Student distribution whose number of degrees of freedom is not positive is accepted and never gives a sample | a discrete uniform distribution whose upper end does not fit never gives a sample Proved part: Pareto, for a positive scale (the constructor accepts others, see C192) | Gamma: successive samples are independent, with the Gamma law of rate `1/β` (see C193) | Student, for a positive number of degrees of freedom (the constructor accepts others, see C195) | geometric, for a positive success probability (the constructor accepts 0, see C201) | discrete uniform, when the upper end fits (see C199) | successive samples are independent, with the Weibull law of scale 1 and the given shape (see C200)

## C214 Successive normal, folded normal and inverse normal samples (proved)

sample_n(n) returns n independent values of the normal, folded normal or inverse Gaussian law with the given parameters. *For all parameters, every n, all sources of standard normal (uniform, Gamma) variates whose draws have that law and leave a state independent of the value drawn.*

* `C214_normal` (Props/Repeat2.lean): C214: successive univariate normal samples are independent, normal with the given mean and variance.
* `C214_folded_normal` (Props/Repeat2.lean): C214: folded normal
* `C214_inverse_normal` (Props/Repeat2.lean): C214: inverse normal; each sample takes one normal and one uniform draw

## C215 Successive multivariate normal and log-normal samples (partial)

sample_n(n) returns n independent vectors of the Gaussian (log-Gaussian) law with the given mean and covariance: general, bivariate, paired, diagonal and isotropic. *For all parameters, every n, all sources of standard normal (uniform, Gamma) variates whose draws have that law and leave a state independent of the value drawn; all dimensions.*

* `C215_multivariate_normal` (Props/Repeat2.lean): C215: successive samples of the general multivariate normal are independent, Gaussian with the given mean and covariance.
* `C215_bivariate_normal` (Props/Repeat2.lean): C215: the bivariate normal; also for correlation ±1
* `C215_paired_normal` (Props/Repeat2.lean): C215: the pair of independent normals
* `C215_diagonal_normal_partial` (Props/Repeat2.lean): C215 (partial, diagonal covariance): successive samples are independent and Gaussian, but with every variance squared (see C51).
* `C215_isotropic_normal_partial` (Props/Repeat2.lean): C215 (partial, isotropic covariance): successive samples are independent and Gaussian, but with the variance squared (see C51).
* `C215_multivariate_lognormal` (Props/Repeat2.lean): C215: the multivariate log-normal with general covariance
* `C215_diagonal_lognormal_partial` (Props/Repeat2.lean): C215 (partial): the log-normal with diagonal covariance, with every variance squared (see C190)
* `C215_isotropic_lognormal_partial` (Props/Repeat2.lean): C215 (partial): the log-normal with isotropic covariance, with the variance squared (see C190)
* `C215_diagonal_violated` (Props/Repeat3.lean): C215 (violated, diagonal covariance): unless every variance is 1, successive samples do not have the Gaussian law of the given mean and covariance, nor their exponentials the log-Gaussian one
* `C215_isotropic_violated` (Props/Repeat3.lean): C215 (violated, isotropic covariance): unless the variance is 1

Note: The code does not have the full property; proved negation: unless every variance is 1, successive samples do not have the Gaussian law of the given mean and covariance, nor their exponentials the log-Gaussian one | unless the variance is 1 Proved part: successive samples are independent and Gaussian, but with every variance squared (see C51). | successive samples are independent and Gaussian, but with the variance squared (see C51). | the log-normal with diagonal covariance, with every variance squared (see C190) | the log-normal with isotropic covariance, with the variance squared (see C190)

## C216 Successive categorical and mixture samples (proved)

For weights that add up to 1, sample_n(n) of a Categorical returns n independent indices, each with its weight, and sample_n(n) of a Mixture n independent values of the mixture law sum of w_i nu_i. *For all weights adding up to 1, all component samplers whose successive samples are independent, every n, all sources of uniform variates as above, both build profiles.*

* `C216_categorical` (Props/Repeat2.lean): C216: successive categorical samples are independent, and take each category with its weight (weights adding up to 1).
* `C216_mixture` (Props/Repeat2.lean): C216: successive samples of a mixture are independent with the mixture law `Σ wᵢ νᵢ`, when the weights add up to 1 and the sampler of component `i`, repeated, is independent with law `νᵢ`.

## C217 Successive log-normal and Dirichlet samples (partial)

sample_n(n) returns n independent values of the log-normal (Dirichlet) law with the given parameters. *For all parameters, every n, all sources of standard normal (uniform, Gamma) variates whose draws have that law and leave a state independent of the value drawn.*

* `C217_lognormal_partial` (Props/Repeat2.lean): C217 (partial): successive log-normal samples are independent and log-normal, but with the distribution's own mean and standard deviation in the place of the parameters of the logarithm (see C171).
* `C217_dirichlet_partial` (Props/Repeat2.lean): C217 (partial): successive Dirichlet samples are independent, each the vector of independent Gamma variates divided by the sum of the parameters (not of the variates, so it is not the Dirichlet law, see C101).
* `C217_lognormal_violated` (Props/Repeat3.lean): C217 (violated): for no parameters and no source of standard normal variates do successive log-normal samples have the log-normal law that `cdf` describes
* `C217_dirichlet_violated` (Props/Repeat3.lean): C217 (violated): for no concentrations and no source of Gamma variates do successive Dirichlet samples have the Dirichlet law

Note: The code does not have the full property; proved negation: for no parameters and no source of standard normal variates do successive log-normal samples have the log-normal law that `cdf` describes | for no concentrations and no source of Gamma variates do successive Dirichlet samples have the Dirichlet law Proved part: successive log-normal samples are independent and log-normal, but with the distribution's own mean and standard deviation in the place of the parameters of the logarithm (see C171). | successive Dirichlet samples are independent, each the vector of independent Gamma variates divided by the sum of the parameters (not of the variates, so it is not the Dirichlet law, see C101).

## C218 Checked constructors only check (partial)

For every distribution, new(args) succeeds exactly when the arguments meet the documented conditions, and then returns what new_unchecked(args) returns; every other argument list is refused with an error. *For all distributions and all argument lists, NaN and infinities included.*

* `C218_arcsine_unchecked` (Props/Constructors.lean): C218: arcsine
* `C218_cauchy_unchecked` (Props/Constructors.lean): C218: cauchy
* `C218_cosine_unchecked` (Props/Constructors.lean): C218: cosine
* `C218_gumbel_unchecked` (Props/Constructors.lean): C218: gumbel
* `C218_laplace_unchecked` (Props/Constructors.lean): C218: laplace
* `C218_logistic_unchecked` (Props/Constructors.lean): C218: logistic
* `C218_pareto_unchecked` (Props/Constructors.lean): C218: pareto
* `C218_levy_unchecked` (Props/Constructors.lean): C218: levy
* `C218_folded_normal_unchecked` (Props/Constructors.lean): C218: folded normal
* `C218_uniform_unchecked` (Props/Constructors.lean): C218: uniform
* `C218_normal_unchecked` (Props/Constructors.lean): C218: normal
* `C218_lognormal_unchecked` (Props/Constructors.lean): C218: lognormal
* `C218_inverse_normal_unchecked` (Props/Constructors.lean): C218: inverse normal
* `C218_beta_unchecked` (Props/Constructors.lean): C218: beta
* `C218_beta_prime_unchecked` (Props/Constructors.lean): C218: beta prime
* `C218_gamma_unchecked` (Props/Constructors.lean): C218: gamma
* `C218_inverse_gamma_unchecked` (Props/Constructors.lean): C218: inverse gamma
* `C218_erlang_unchecked` (Props/Constructors.lean): C218: erlang
* `C218_f_dist_unchecked` (Props/Constructors.lean): C218: f dist
* `C218_gev_unchecked` (Props/Constructors.lean): C218: gev
* `C218_gpd_unchecked` (Props/Constructors.lean): C218: gpd
* `C218_triangular_unchecked` (Props/Constructors.lean): C218: triangular
* `C218_beta_binomial_unchecked` (Props/Constructors.lean): C218: beta binomial
* `C218_chi_unchecked` (Props/Constructors.lean): C218: chi
* `C218_chi_sq_unchecked` (Props/Constructors.lean): C218: chi sq
* `C218_exponential_unchecked` (Props/Constructors.lean): C218: exponential
* `C218_frechet_unchecked` (Props/Constructors.lean): C218: frechet
* `C218_poisson_unchecked` (Props/Constructors.lean): C218: poisson
* `C218_rayleigh_unchecked` (Props/Constructors.lean): C218: rayleigh
* `C218_student_t_unchecked` (Props/Constructors.lean): C218: student t
* `C218_bernoulli_unchecked` (Props/Constructors.lean): C218: bernoulli
* `C218_geometric_unchecked` (Props/Constructors.lean): C218: geometric
* `C218_binomial_unchecked` (Props/Constructors.lean): C218: binomial
* `C218_bivariate_normal_unchecked` (Props/Constructors.lean): C218: bivariate normal, with the independent and isotropic special cases
* `C218_paired_normal_unchecked` (Props/Constructors.lean): C218: paired normal, with the isotropic special case
* `C218_multivariate_normal_unchecked` (Props/Constructors.lean): C218: multivariate normal, general, diagonal, isotropic and homogeneous covariance
* `C218_categorical_unchecked` (Props/Constructors.lean): C218: simplex vectors and the categorical distribution
* `C218_dirichlet_unchecked_partial` (Props/Constructors.lean): C218 (Dirichlet, partial): what `new` returns is what `new_unchecked` builds. Missing: `new` accepts nothing (next theorem).
* `C218_dirichlet_violated` (Props/Constructors.lean): C218 (Dirichlet, violated): `new` refuses every non-empty vector of concentrations, valid or not, while `new_unchecked` builds the distribution: a Dirichlet distribution can only be built unchecked
* `C218_multinomial_unchecked` (Props/Constructors.lean): C218: multinomial
* `C218_mixture_unchecked` (Props/Constructors.lean): C218: mixture
* `C218_uniform_discrete_unchecked` (Props/Constructors.lean): C218: discrete uniform, in both build profiles: same value, same panic

Note: The code does not have the full property; proved negation: `new` refuses every non-empty vector of concentrations, valid or not, while `new_unchecked` builds the distribution: a Dirichlet distribution can only be built unchecked Proved part: what `new` returns is what `new_unchecked` builds. Missing: `new` accepts nothing (next theorem).

## C219 Standard distributions (proved)

Every Default value, and every standard() constructor, is the distribution the checked constructor returns for the standard parameters. *For all distributions with a Default or standard().*

* `C219_defaults` (Props/Constructors.lean): C219: every `Default` value, and `standard()`, is what the checked constructor returns for the standard parameters

## C220 Reported support (partial)

support() is the support of the law: the law has no mass outside the returned set, and positive mass on every non-empty open part of it (for discrete laws: exactly its elements have positive mass). *For all distributions and accepted parameters.*

* `C220_gumbel_support` (Props/Support.lean): C220: gumbel, the whole line
* `C220_cauchy_support` (Props/Support.lean): C220: cauchy, the whole line
* `C220_logistic_support` (Props/Support.lean): C220: logistic, the whole line
* `C220_laplace_support` (Props/Support.lean): C220: laplace, the whole line
* `C220_normal_support` (Props/Support.lean): C220: normal (mean, variance), the whole line
* `C220_student_support` (Props/Support.lean): C220: Student with positive degrees of freedom, the whole line
* `C220_inverse_gamma_support` (Props/Support.lean): C220: inverse_gamma, the positive half line
* `C220_weibull_support` (Props/Support.lean): C220: weibull, the positive half line
* `C220_gamma_support` (Props/Support.lean): C220: gamma, the positive half line
* `C220_beta_prime_support` (Props/Support.lean): C220: beta_prime, the positive half line
* `C220_inverse_normal_support` (Props/Support.lean): C220: inverse_normal, the positive half line
* `C220_frechet_support` (Props/Support.lean): C220: frechet, the positive half line
* `C220_rayleigh_support` (Props/Support.lean): C220: rayleigh, the positive half line
* `C220_exponential_support` (Props/Support.lean): C220: exponential, the positive half line
* `C220_chi_support` (Props/Support.lean): C220: chi, the positive half line
* `C220_chi_sq_support` (Props/Support.lean): C220: chi_sq, the positive half line
* `C220_erlang_support` (Props/Support.lean): C220: Erlang, the positive half line
* `C220_f_support` (Props/Support.lean): C220: Fisher's F, the positive half line
* `C220_lognormal_support` (Props/Support.lean): C220: log-normal, the positive half line
* `C220_folded_normal_support` (Props/Support.lean): C220: folded normal, the non-negative half line
* `C220_levy_support` (Props/Support.lean): C220: Lévy, the half line from the location on
* `C220_pareto_support` (Props/Support.lean): C220: Pareto with positive minimum, the half line from the minimum on
* `C220_kumaraswamy_support` (Props/Support.lean): C220: Kumaraswamy, the unit interval
* `C220_beta_support` (Props/Support.lean): C220: Beta, the unit interval
* `C220_arcsine_support` (Props/Support.lean): C220: arcsine, from the location to location plus width
* `C220_cosine_support` (Props/Support.lean): C220: raised cosine
* `C220_triangular_support` (Props/Support.lean): C220: triangular, from the minimum to the maximum
* `C220_uniform_support` (Props/Support.lean): C220: continuous uniform
* `C220_gpd_support_violated` (Props/Support.lean): C220 is violated by the generalised Pareto distribution, for all its parameters: `support()` is the whole line, the law has no mass below `mu`
* `C220_gev_support_violated` (Props/Support.lean): C220 is violated by the generalised extreme value distribution, for all its parameters: `support()` is the whole line, the law has no mass below `mu - sigma/zeta`
* `C220_degenerate_support_violated` (Props/Support.lean): C220 is violated by every degenerate distribution: its law is a point mass, `support()` is the whole line (all integers)
* `C220_multivariate_normal_support` (Props/Support.lean): C220: the multivariate normal (general, diagonal, isotropic and paired): all of space
* `C220_paired_normal_support` (Props/Support.lean): C220: the pair of independent normals, the plane
* `C220_bivariate_normal_support_partial` (Props/Support.lean): C220: the bivariate normal with correlation strictly between -1 and 1, the plane
* `C220_bivariate_normal_support_violated` (Props/Support.lean): C220 is violated by the bivariate normal with correlation 1 or -1 (accepted by the constructor): its law lives on a line, `support()` is the plane
* `C220_multivariate_lognormal_support` (Props/Support.lean): C220: the multivariate log-normal, the positive orthant
* `C220_dirichlet_support_violated` (Props/Support.lean): C220 is violated by every Dirichlet distribution of two or more categories: its law lives on the simplex, `support()` is the unit cube
* `C220_uniform_int_support` (Props/Support.lean): C220: the discrete uniform, the integers from `lb` to `lb + width`
* `C220_bernoulli_support_partial` (Props/Support.lean): C220: Bernoulli with 0 < p < 1
* `C220_bernoulli_support_violated` (Props/Support.lean): C220 is violated by the Bernoulli distributions with p = 0 and p = 1: one of the two values is impossible
* `C220_geometric_support_partial` (Props/Support.lean): C220: geometric with 0 < p < 1, all the naturals
* `C220_geometric_support_violated` (Props/Support.lean): C220 is violated by the geometric distributions with p = 1 and p = 0: only 0 is possible, or nothing is

Note: The code does not have the full property; proved negation: C220 is violated by the generalised Pareto distribution, for all its parameters: `support()` is the whole line, the law has no mass below `mu` | C220 is violated by the generalised extreme value distribution, for all its parameters: `support()` is the whole line, the law has no mass below `mu - sigma/zeta` | C220 is violated by every degenerate distribution: its law is a point mass, `support()` is the whole line (all integers) | C220 is violated by the bivariate normal with correlation 1 or -1 (accepted by the constructor): its law lives on a line, `support()` is the plane | C220 is violated by every Dirichlet distribution of two or more categories: its law lives on the simplex, `support()` is the unit cube | C220 is violated by the Bernoulli distributions with p = 0 and p = 1: one of the two values is impossible | C220 is violated by the geometric distributions with p = 1 and p = 0: only 0 is possible, or nothing is Proved part: the bivariate normal with correlation strictly between -1 and 1, the plane | Bernoulli with 0 < p < 1 | geometric with 0 < p < 1, all the naturals

## C221 Reported counts (proved)

size_hint() of the sampling iterator is a valid bound, n_categories() is the number of indices on which pmf answers, n_components() the number of weights and components of a mixture. *For all samplers, categorical distributions and mixtures.*

* `C221_sampler_size_hint` (Props/Shape.lean): C221: `size_hint` of the iterator of samples is right: it really yields at least the lower bound of items, it has no upper bound, and no upper bound exists: it yields as many items as are asked for, for every number
* `C221_n_categories` (Props/Shape.lean): C221: `n_categories` counts the categories: `pmf` answers exactly for the indices below it
* `C221_n_components` (Props/Shape.lean): C221: an accepted mixture has as many weights and as many components as `n_components` says (the length of the weights)

## C222 cdf at NaN (partial)

For every distribution, cdf(x) is a valid probability for every f64 argument, NaN included, and pdf does not panic. *For all univariate continuous distributions, all accepted parameters, any floating-point arithmetic (the laws computed with special functions: any that propagate NaN).*

* `C222_arithmetic_violated` (Props/NotANumber.lean): C222 (violated, IEEE rules only): whatever the arithmetic and whatever the parameters, `cdf(NaN)` is not a valid probability
* `C222_power_violated` (Props/NotANumber.lean): C222 (violated): the same for the power-law distributions and every accepted parameter; for the generalised Pareto law unless `-1/ζ` is a zero
* `C222_special_violated` (Props/NotANumber.lean): C222 (violated, special functions that propagate NaN): the distributions computed with `norm`, `erf`, `erfc`, `gammainc` and `betainc`
* `C222_laplace_pdf_violated` (Props/NotANumber.lean): C222 (violated): the Laplace density panics at NaN
* `C222_cdf_nan_partial` (Props/NotANumber.lean): C222 (what holds): the Weibull, triangular and degenerate laws, which compare before they compute, return a valid probability at NaN

Note: The code does not have the full property; proved negation: whatever the arithmetic and whatever the parameters, `cdf(NaN)` is not a valid probability | the same for the power-law distributions and every accepted parameter; for the generalised Pareto law unless `-1/ζ` is a zero | the distributions computed with `norm`, `erf`, `erfc`, `gammainc` and `betainc` | the Laplace density panics at NaN Proved part: the Weibull, triangular and degenerate laws, which compare before they compute, return a valid probability at NaN

## C223 Constructors refuse NaN (partial)

No checked constructor accepts a NaN parameter; in particular every cdf value of a constructed distribution at a number is a valid probability. *For all univariate distributions, all other parameters, every argument, any floating-point arithmetic.*

* `C223_arithmetic_violated` (Props/NotANumber.lean): C223 (violated): a NaN location (and, for Student's law, a NaN number of degrees of freedom; for Pareto's law, a NaN scale) is accepted, and no value of the `cdf` of the distribution so constructed is a valid probability
* `C223_special_violated` (Props/NotANumber.lean): C223 (violated): the same for the generalised laws, and, when the special functions propagate NaN, for the normal family. (The normal `cdf` answers 0 and 1 at the infinities before it looks at the parameters.)
* `C223_comparing_violated` (Props/NotANumber.lean): C223 (violated): the triangular and degenerate laws accept a NaN location too, and then report that all mass lies at or below every argument, negative infinity included
* `C223_refused_partial` (Props/NotANumber.lean): C223 (what holds): scales, shapes, rates and probabilities are never NaN in an accepted distribution

Note: The code does not have the full property; proved negation: a NaN location (and, for Student's law, a NaN number of degrees of freedom; for Pareto's law, a NaN scale) is accepted, and no value of the `cdf` of the distribution so constructed is a valid probability | the same for the generalised laws, and, when the special functions propagate NaN, for the normal family. (The normal `cdf` answers 0 and 1 at the infinities before it looks at the parameters.) | the triangular and degenerate laws accept a NaN location too, and then report that all mass lies at or below every argument, negative infinity included Proved part: scales, shapes, rates and probabilities are never NaN in an accepted distribution

## C224 Constructors refuse infinite parameters (partial)

No checked constructor accepts an infinite parameter, or the cdf of the constructed distribution is still a valid probability at every number. *For univariate distributions with a scale, rate or location, all other parameters, any floating-point arithmetic.*

* `C224_everywhere_violated` (Props/NotANumber.lean): C224 (violated): a Rayleigh distribution with infinite scale and a Pareto distribution with infinite scale (and any accepted shape) are constructed, and no value of their `cdf` is a valid probability
* `C224_ends_violated` (Props/NotANumber.lean): C224 (violated): an infinite rate, scale or location is accepted, and the `cdf` is not a valid probability at an end of the support: 0 for the exponential law, positive infinity for the others
* `C224_normal_partial` (Props/NotANumber.lean): C224 (what holds): the normal law with infinite variance and finite mean answers with a valid probability at the infinities and wherever the difference between the argument and the mean does not overflow

Note: The code does not have the full property; proved negation: a Rayleigh distribution with infinite scale and a Pareto distribution with infinite scale (and any accepted shape) are constructed, and no value of their `cdf` is a valid probability | an infinite rate, scale or location is accepted, and the `cdf` is not a valid probability at an end of the support: 0 for the exponential law, positive infinity for the others Proved part: the normal law with infinite variance and finite mean answers with a valid probability at the infinities and wherever the difference between the argument and the mean does not overflow

## C225 Serialised parameters survive (proved)

With the serde feature, deserialising what was serialised gives back the same parameters, and converting them gives back the distribution they were taken from; struct fields are found by name in any order, unknown entries are ignored, missing or repeated fields are refused, integers are kept in range. *For all parameter types and all their values; any self-describing format that transports f64 and 64-bit integers unchanged.*

* `C225_round_trip` (Props/Serde.lean): C225: what is written is read back unchanged, for every type shape
* `C225_field_order` (Props/Serde.lean): C225: the entries of a struct may come in any order, among entries with other names
* `C225_exactly_once` (Props/Serde.lean): C225: a struct is read only from a map in which each of its fields occurs exactly once: missing and repeated fields are refused
* `C225_numbers` (Props/Serde.lean): C225: numbers. A float field reads floats unchanged and integers by conversion, an integer field reads exactly the integers in its range, with the value written, and nothing else is read as a number.
* `C225_positional` (Props/Serde.lean): C225: the values alone, in declaration order, are read too
* `C225_in_range` (Props/Serde.lean): C225: whatever is read has its integers within their 64-bit types
* `C225_arcsine` (Props/SerdeTypes.lean): C225: arcsine
* `C225_cauchy` (Props/SerdeTypes.lean): C225: cauchy
* `C225_cosine` (Props/SerdeTypes.lean): C225: cosine
* `C225_exponential` (Props/SerdeTypes.lean): C225: exponential
* `C225_frechet` (Props/SerdeTypes.lean): C225: frechet
* `C225_gev` (Props/SerdeTypes.lean): C225: gev
* `C225_gpd` (Props/SerdeTypes.lean): C225: gpd
* `C225_gumbel` (Props/SerdeTypes.lean): C225: gumbel
* `C225_kumaraswamy` (Props/SerdeTypes.lean): C225: kumaraswamy
* `C225_laplace` (Props/SerdeTypes.lean): C225: laplace
* `C225_logistic` (Props/SerdeTypes.lean): C225: logistic
* `C225_pareto` (Props/SerdeTypes.lean): C225: pareto
* `C225_rayleigh` (Props/SerdeTypes.lean): C225: rayleigh
* `C225_triangular` (Props/SerdeTypes.lean): C225: triangular
* `C225_weibull` (Props/SerdeTypes.lean): C225: weibull
* `C225_poisson` (Props/SerdeTypes.lean): C225: poisson
* `C225_gamma` (Props/SerdeTypes.lean): C225: gamma
* `C225_inverse_gamma` (Props/SerdeTypes.lean): C225: inverse_gamma
* `C225_beta` (Props/SerdeTypes.lean): C225: beta
* `C225_beta_prime` (Props/SerdeTypes.lean): C225: beta_prime
* `C225_student_t` (Props/SerdeTypes.lean): C225: student_t
* `C225_levy` (Props/SerdeTypes.lean): C225: levy
* `C225_folded_normal` (Props/SerdeTypes.lean): C225: folded_normal
* `C225_chi_sq` (Props/SerdeTypes.lean): C225: chi_sq
* `C225_chi` (Props/SerdeTypes.lean): C225: chi
* `C225_erlang` (Props/SerdeTypes.lean): C225: erlang
* `C225_f_dist` (Props/SerdeTypes.lean): C225: f_dist
* `C225_uniform` (Props/SerdeTypes.lean): C225: uniform
* `C225_normal` (Props/SerdeTypes.lean): C225: normal
* `C225_lognormal` (Props/SerdeTypes.lean): C225: lognormal
* `C225_inverse_normal` (Props/SerdeTypes.lean): C225: inverse_normal
* `C225_beta_binomial` (Props/SerdeTypes.lean): C225: beta_binomial
* `C225_bernoulli` (Props/SerdeTypes.lean): C225: bernoulli
* `C225_binomial` (Props/SerdeTypes.lean): C225: binomial
* `C225_geometric` (Props/SerdeTypes.lean): C225: geometric
* `C225_probability` (Props/SerdeTypes2.lean): C225: a probability is written as its number and read back
* `C225_corr` (Props/SerdeTypes2.lean): C225: a correlation is written as its number and read back
* `C225_simplex` (Props/SerdeTypes2.lean): C225: a simplex vector is written as the sequence of its entries and read back
* `C225_simplex_short` (Props/SerdeTypes2.lean): C225: a data sequence is read as a simplex vector exactly when its first K elements are numbers
* `C225_dirichlet` (Props/SerdeTypes2.lean): C225: concentrations, and so the Dirichlet distribution
* `C225_degenerate` (Props/SerdeTypes2.lean): C225: degenerate
* `C225_uniform_discrete` (Props/SerdeTypes2.lean): C225: discrete uniform, when the interval and the cardinality fit an i64
* `C225_categorical` (Props/SerdeTypes2.lean): C225: categorical
* `C225_multinomial` (Props/SerdeTypes2.lean): C225: multinomial
* `C225_bivariate_normal` (Props/SerdeTypes2.lean): C225: bivariate normal
* `C225_paired_normal` (Props/SerdeTypes2.lean): C225: paired normal
* `C225_multivariate_normal` (Props/SerdeTypes2.lean): C225: multivariate normal
* `C225_diagonal_normal` (Props/SerdeTypes2.lean): C225: normal with a diagonal covariance
* `C225_isotropic_normal` (Props/SerdeTypes2.lean): C225: isotropic normal
* `C225_normal_gradient` (Props/SerdeTypes2.lean): C225: gradients of the univariate normal
* `C225_mixture` (Props/SerdeTypes2.lean): C225: a mixture's parameters, given that those of its components survive

## C226 Deserialised values satisfy the checks of the constructors (partial)

With the serde feature, a probability, simplex vector or parameter set obtained by deserialisation is one its checked constructor accepts, and converting it to a distribution neither panics nor is undefined. *For all parameter types, all data.*

* `C226_arcsine_violated` (Props/SerdeTypes.lean): C226: arcsine: every refused argument is read
* `C226_arcsine_partial` (Props/SerdeTypes.lean): C226: arcsine: accepted arguments give the constructor's result
* `C226_cauchy_violated` (Props/SerdeTypes.lean): C226: cauchy: every refused argument is read
* `C226_cauchy_partial` (Props/SerdeTypes.lean): C226: cauchy: accepted arguments give the constructor's result
* `C226_cosine_violated` (Props/SerdeTypes.lean): C226: cosine: every refused argument is read
* `C226_cosine_partial` (Props/SerdeTypes.lean): C226: cosine: accepted arguments give the constructor's result
* `C226_exponential_violated` (Props/SerdeTypes.lean): C226: exponential: every refused argument is read
* `C226_exponential_partial` (Props/SerdeTypes.lean): C226: exponential: accepted arguments give the constructor's result
* `C226_frechet_violated` (Props/SerdeTypes.lean): C226: frechet: every refused argument is read
* `C226_frechet_partial` (Props/SerdeTypes.lean): C226: frechet: accepted arguments give the constructor's result
* `C226_gev_violated` (Props/SerdeTypes.lean): C226: gev: every refused argument is read
* `C226_gev_partial` (Props/SerdeTypes.lean): C226: gev: accepted arguments give the constructor's result
* `C226_gpd_violated` (Props/SerdeTypes.lean): C226: gpd: every refused argument is read
* `C226_gpd_partial` (Props/SerdeTypes.lean): C226: gpd: accepted arguments give the constructor's result
* `C226_gumbel_violated` (Props/SerdeTypes.lean): C226: gumbel: every refused argument is read
* `C226_gumbel_partial` (Props/SerdeTypes.lean): C226: gumbel: accepted arguments give the constructor's result
* `C226_kumaraswamy_violated` (Props/SerdeTypes.lean): C226: kumaraswamy: every refused argument is read
* `C226_kumaraswamy_partial` (Props/SerdeTypes.lean): C226: kumaraswamy: accepted arguments give the constructor's result
* `C226_laplace_violated` (Props/SerdeTypes.lean): C226: laplace: every refused argument is read
* `C226_laplace_partial` (Props/SerdeTypes.lean): C226: laplace: accepted arguments give the constructor's result
* `C226_logistic_violated` (Props/SerdeTypes.lean): C226: logistic: every refused argument is read
* `C226_logistic_partial` (Props/SerdeTypes.lean): C226: logistic: accepted arguments give the constructor's result
* `C226_pareto_violated` (Props/SerdeTypes.lean): C226: pareto: every refused argument is read
* `C226_pareto_partial` (Props/SerdeTypes.lean): C226: pareto: accepted arguments give the constructor's result
* `C226_rayleigh_violated` (Props/SerdeTypes.lean): C226: rayleigh: every refused argument is read
* `C226_rayleigh_partial` (Props/SerdeTypes.lean): C226: rayleigh: accepted arguments give the constructor's result
* `C226_triangular_violated` (Props/SerdeTypes.lean): C226: triangular: every refused argument is read
* `C226_triangular_partial` (Props/SerdeTypes.lean): C226: triangular: accepted arguments give the constructor's result
* `C226_weibull_violated` (Props/SerdeTypes.lean): C226: weibull: every refused argument is read
* `C226_weibull_partial` (Props/SerdeTypes.lean): C226: weibull: accepted arguments give the constructor's result
* `C226_poisson_violated` (Props/SerdeTypes.lean): C226: poisson: every refused argument is read
* `C226_poisson_partial` (Props/SerdeTypes.lean): C226: poisson: accepted arguments give the constructor's result
* `C226_gamma_violated` (Props/SerdeTypes.lean): C226: gamma: every refused argument is read
* `C226_gamma_partial` (Props/SerdeTypes.lean): C226: gamma: accepted arguments give the constructor's result
* `C226_inverse_gamma_violated` (Props/SerdeTypes.lean): C226: inverse_gamma: every refused argument is read
* `C226_inverse_gamma_partial` (Props/SerdeTypes.lean): C226: inverse_gamma: accepted arguments give the constructor's result
* `C226_beta_violated` (Props/SerdeTypes.lean): C226: beta: every refused argument is read
* `C226_beta_partial` (Props/SerdeTypes.lean): C226: beta: accepted arguments give the constructor's result
* `C226_beta_prime_violated` (Props/SerdeTypes.lean): C226: beta_prime: every refused argument is read
* `C226_beta_prime_partial` (Props/SerdeTypes.lean): C226: beta_prime: accepted arguments give the constructor's result
* `C226_student_t_unconstrained` (Props/SerdeTypes.lean): C226: student_t has no constraint to check
* `C226_levy_violated` (Props/SerdeTypes.lean): C226: levy: every refused argument is read
* `C226_levy_partial` (Props/SerdeTypes.lean): C226: levy: accepted arguments give the constructor's result
* `C226_folded_normal_violated` (Props/SerdeTypes.lean): C226: folded_normal: every refused argument is read
* `C226_folded_normal_partial` (Props/SerdeTypes.lean): C226: folded_normal: accepted arguments give the constructor's result
* `C226_chi_sq_violated` (Props/SerdeTypes.lean): C226: chi_sq: every refused argument is read
* `C226_chi_sq_partial` (Props/SerdeTypes.lean): C226: chi_sq: accepted arguments give the constructor's result
* `C226_chi_violated` (Props/SerdeTypes.lean): C226: chi: every refused argument is read
* `C226_chi_partial` (Props/SerdeTypes.lean): C226: chi: accepted arguments give the constructor's result
* `C226_erlang_violated` (Props/SerdeTypes.lean): C226: erlang: every refused argument is read
* `C226_erlang_partial` (Props/SerdeTypes.lean): C226: erlang: accepted arguments give the constructor's result
* `C226_f_dist_violated` (Props/SerdeTypes.lean): C226: f_dist: every refused argument is read
* `C226_f_dist_partial` (Props/SerdeTypes.lean): C226: f_dist: accepted arguments give the constructor's result
* `C226_uniform_violated` (Props/SerdeTypes.lean): C226: uniform: every refused argument is read
* `C226_uniform_partial` (Props/SerdeTypes.lean): C226: uniform: accepted arguments give the constructor's result
* `C226_normal_violated` (Props/SerdeTypes.lean): C226: normal: every refused argument is read
* `C226_normal_partial` (Props/SerdeTypes.lean): C226: normal: accepted arguments give the constructor's result
* `C226_lognormal_violated` (Props/SerdeTypes.lean): C226: lognormal: every refused argument is read
* `C226_lognormal_partial` (Props/SerdeTypes.lean): C226: lognormal: accepted arguments give the constructor's result
* `C226_inverse_normal_violated` (Props/SerdeTypes.lean): C226: inverse_normal: every refused argument is read
* `C226_inverse_normal_partial` (Props/SerdeTypes.lean): C226: inverse_normal: accepted arguments give the constructor's result
* `C226_beta_binomial_violated` (Props/SerdeTypes.lean): C226: beta_binomial: every refused argument is read
* `C226_beta_binomial_partial` (Props/SerdeTypes.lean): C226: beta_binomial: accepted arguments give the constructor's result
* `C226_bernoulli_violated` (Props/SerdeTypes.lean): C226: bernoulli: every refused argument is read
* `C226_bernoulli_partial` (Props/SerdeTypes.lean): C226: bernoulli: accepted arguments give the constructor's result
* `C226_binomial_violated` (Props/SerdeTypes.lean): C226: binomial: every refused argument is read
* `C226_binomial_partial` (Props/SerdeTypes.lean): C226: binomial: accepted arguments give the constructor's result
* `C226_geometric_violated` (Props/SerdeTypes.lean): C226: geometric: every refused argument is read
* `C226_geometric_partial` (Props/SerdeTypes.lean): C226: geometric: accepted arguments give the constructor's result
* `C226_probability_violated` (Props/SerdeTypes2.lean): C226: every number, in particular every invalid one, is read as a probability
* `C226_corr_violated` (Props/SerdeTypes2.lean): C226: a correlation is read unchecked
* `C226_simplex_violated` (Props/SerdeTypes2.lean): C226: any vector at all is read as a simplex vector
* `C226_simplex_partial` (Props/SerdeTypes2.lean): C226: vectors accepted by `SimplexVector::new` are read as what it returns
* `C226_categorical_violated` (Props/SerdeTypes2.lean): C226: categorical over any vector, including those `Categorical::new` refuses
* `C226_dirichlet_violated` (Props/SerdeTypes2.lean): C226: Dirichlet distributions, none of which (for N > 0) its constructor returns, are read from data
* `C226_multinomial_violated` (Props/SerdeTypes2.lean): C226: multinomial
* `C226_bivariate_normal_violated` (Props/SerdeTypes2.lean): C226: bivariate normal
* `C226_paired_normal_violated` (Props/SerdeTypes2.lean): C226: paired normal
* `C226_multivariate_normal_violated` (Props/SerdeTypes2.lean): C226: multivariate normal
* `C226_diagonal_normal_violated` (Props/SerdeTypes2.lean): C226: normal with a diagonal covariance
* `C226_isotropic_normal_violated` (Props/SerdeTypes2.lean): C226: isotropic normal
* `C226_uniform_discrete_violated` (Props/SerdeTypes2.lean): C226: discrete uniform: reading never fails on a pair of i64 values, but turning the largest width into a distribution panics in a build with overflow checks
* `C226_mixture_violated` (Props/SerdeTypes2.lean): C226: a mixture whose data holds fewer component parameters than weights is read, and turning it into a mixture is undefined behaviour; with more component parameters than weights it panics

Note: The code does not have the full property; proved negation: arcsine: every refused argument is read | cauchy: every refused argument is read | cosine: every refused argument is read | exponential: every refused argument is read | frechet: every refused argument is read | gev: every refused argument is read | gpd: every refused argument is read | gumbel: every refused argument is read | kumaraswamy: every refused argument is read | laplace: every refused argument is read | logistic: every refused argument is read | pareto: every refused argument is read | rayleigh: every refused argument is read | triangular: every refused argument is read | weibull: every refused argument is read | poisson: every refused argument is read | gamma: every refused argument is read | inverse_gamma: every refused argument is read | beta: every refused argument is read | beta_prime: every refused argument is read | levy: every refused argument is read | folded_normal: every refused argument is read | chi_sq: every refused argument is read | chi: every refused argument is read | erlang: every refused argument is read | f_dist: every refused argument is read | uniform: every refused argument is read | normal: every refused argument is read | lognormal: every refused argument is read | inverse_normal: every refused argument is read | beta_binomial: every refused argument is read | bernoulli: every refused argument is read | binomial: every refused argument is read | geometric: every refused argument is read | every number, in particular every invalid one, is read as a probability | a correlation is read unchecked | any vector at all is read as a simplex vector | categorical over any vector, including those `Categorical::new` refuses | Dirichlet distributions, none of which (for N > 0) its constructor returns, are read from data | multinomial | bivariate normal | paired normal | multivariate normal | normal with a diagonal covariance | isotropic normal | discrete uniform: reading never fails on a pair of i64 values, but turning the largest width into a distribution panics in a build with overflow checks | a mixture whose data holds fewer component parameters than weights is read, and turning it into a mixture is undefined behaviour; with more component parameters than weights it panics Proved part: arcsine: accepted arguments give the constructor's result | cauchy: accepted arguments give the constructor's result | cosine: accepted arguments give the constructor's result | exponential: accepted arguments give the constructor's result | frechet: accepted arguments give the constructor's result | gev: accepted arguments give the constructor's result | gpd: accepted arguments give the constructor's result | gumbel: accepted arguments give the constructor's result | kumaraswamy: accepted arguments give the constructor's result | laplace: accepted arguments give the constructor's result | logistic: accepted arguments give the constructor's result | pareto: accepted arguments give the constructor's result | rayleigh: accepted arguments give the constructor's result | triangular: accepted arguments give the constructor's result | weibull: accepted arguments give the constructor's result | poisson: accepted arguments give the constructor's result | gamma: accepted arguments give the constructor's result | inverse_gamma: accepted arguments give the constructor's result | beta: accepted arguments give the constructor's result | beta_prime: accepted arguments give the constructor's result | levy: accepted arguments give the constructor's result | folded_normal: accepted arguments give the constructor's result | chi_sq: accepted arguments give the constructor's result | chi: accepted arguments give the constructor's result | erlang: accepted arguments give the constructor's result | f_dist: accepted arguments give the constructor's result | uniform: accepted arguments give the constructor's result | normal: accepted arguments give the constructor's result | lognormal: accepted arguments give the constructor's result | inverse_normal: accepted arguments give the constructor's result | beta_binomial: accepted arguments give the constructor's result | bernoulli: accepted arguments give the constructor's result | binomial: accepted arguments give the constructor's result | geometric: accepted arguments give the constructor's result | vectors accepted by `SimplexVector::new` are read as what it returns

## C227 Quantile methods answer (partial)

For every distribution that implements Quantiles, quantile(p), cquantile(p), the quartiles, iqr and the fences return a number. *For all thirty implementations, all distributions, all p.*

* `C227_quantiles_violated` (Props/Surface.lean): C227 (violated): for twenty-five of the thirty distributions that implement `Quantiles`, the quantile function, its complement, the quartiles, the interquartile range and the fences panic for every distribution and every probability.
* `C227_quantiles_partial` (Props/Surface.lean): C227 (partial): the other five return. Missing: the twenty-five of `C227_quantiles_violated`.
* `C227_derived_partial` (Props/Surface.lean): C227 (partial): where `quantile` answers, so do the methods derived from it, with the values the documentation gives: `cquantile(p)` is the quantile at `1 - p`, the quartiles are those at 1/4 and 3/4, the range is their difference and the fences lie 3/2 ranges beyond them; where `quantile` panics at `1 - p`, `cquantile(p)` panics in the same way.

Note: The code does not have the full property; proved negation: for twenty-five of the thirty distributions that implement `Quantiles`, the quantile function, its complement, the quartiles, the interquartile range and the fences panic for every distribution and every probability. Proved part: the other five return. Missing: the twenty-five of `C227_quantiles_violated`. | where `quantile` answers, so do the methods derived from it, with the values the documentation gives: `cquantile(p)` is the quantile at `1 - p`, the quartiles are those at 1/4 and 3/4, the range is their difference and the fences lie 3/2 ranges beyond them; where `quantile` panics at `1 - p`, `cquantile(p)` panics in the same way.

## C228 Distribution functions answer (partial)

For every distribution, cdf(x), ccdf(x), log_cdf(x) and log_ccdf(x) return a value, the last three being the complement and the logarithms of cdf(x). *For all distributions, all arguments.*

* `C228_cdf_violated` (Props/Surface.lean): C228 (violated): the distribution function of the Poisson law and of every multivariate law panics, for every distribution and argument, and with it `ccdf`, `log_cdf` and `log_ccdf`.
* `C228_cdf_derived_partial` (Props/Surface.lean): C228 (partial): where `cdf` returns, so do the three derived methods, with the complement and the logarithms. Missing: the laws of `C228_cdf_violated`, and the Beta-binomial below n (C150).

Note: The code does not have the full property; proved negation: the distribution function of the Poisson law and of every multivariate law panics, for every distribution and argument, and with it `ccdf`, `log_cdf` and `log_ccdf`. Proved part: where `cdf` returns, so do the three derived methods, with the complement and the logarithms. Missing: the laws of `C228_cdf_violated`, and the Beta-binomial below n (C150).

## C229 Higher moments answer (partial)

skewness, kurtosis and excess_kurtosis return whenever these moments exist and refuse (documented) when they do not. *For mixtures, folded normal, Kumaraswamy and point-mass distributions, all parameters.*

* `C229_higher_moments_violated` (Props/Surface.lean): C229 (violated): skewness and kurtosis of mixtures, skewness, kurtosis and excess kurtosis of folded normal laws and kurtosis and excess kurtosis of Kumaraswamy laws panic, whatever the parameters. (Lévy and point masses have no such moments; there the panic is documented.)
* `C229_point_mass_partial` (Props/Surface.lean): C229 (partial): a point mass has mean k, variance 0 and skewness 0, and its undefined kurtosis is refused, for f64 and i64

Note: The code does not have the full property; proved negation: skewness and kurtosis of mixtures, skewness, kurtosis and excess kurtosis of folded normal laws and kurtosis and excess kurtosis of Kumaraswamy laws panic, whatever the parameters. (Lévy and point masses have no such moments; there the panic is documented.) Proved part: a point mass has mean k, variance 0 and skewness 0, and its undefined kurtosis is refused, for f64 and i64

## C230 Parameters describe themselves (partial)

For every parameter type, constraints() lists tests that a value passes exactly when the checked constructor accepts it, and value() and into_value() give back the value that was passed. *For all parameter types, all values.*

* `C230_declared_params` (Props/ParamTrait.lean): C230: every parameter declared with `param!` (Loc, Scale, Rate, Shape, DOF, Count, at f64, i64, usize or arrays) and Corr
* `C230_probability` (Props/ParamTrait.lean): C230: probabilities
* `C230_diagonal_covariance` (Props/ParamTrait.lean): C230: diagonal (and paired) covariances
* `C230_isotropic_covariance` (Props/ParamTrait.lean): C230: isotropic covariances
* `C230_concentrations` (Props/ParamTrait.lean): C230: concentrations list what they check (both checks use the inverted `Empty`, see C14 and C16)
* `C230_values_given_back_partial` (Props/ParamTrait.lean): C230 (partial): for the types whose `constraints()` is wrong or missing, `value()` and `into_value()` still give back what was passed. Missing: `constraints()` of dense and bivariate covariances and of simplex vectors (next theorem).
* `C230_constraints_violated` (Props/ParamTrait.lean): C230 (violated): a dense covariance advertises constraints that refuse exactly the accepted matrices with a zero entry (in every dimension n ≥ 1 there is one); the constraints of simplex vectors and bivariate covariances cannot be listed at all, whatever the constructor.

Note: The code does not have the full property; proved negation: a dense covariance advertises constraints that refuse exactly the accepted matrices with a zero entry (in every dimension n ≥ 1 there is one); the constraints of simplex vectors and bivariate covariances cannot be listed at all, whatever the constructor. Proved part: for the types whose `constraints()` is wrong or missing, `value()` and `into_value()` still give back what was passed. Missing: `constraints()` of dense and bivariate covariances and of simplex vectors (next theorem).

## C231 Multivariate log-normal constructors (proved)

The checked constructors of the multivariate log-normal (dense, diagonal, isotropic, homogeneous, standard) accept exactly what those of the underlying normal accept, agree with the unchecked ones, and params() gives the arguments back, from which the same distribution is rebuilt. *For all dimensions, all arguments, any floating-point arithmetic.*

* `C231_lognormal_constructors` (Props/Surface.lean): C231: the multivariate log-normal constructors accept exactly what the constructors of the underlying normal law accept, wrap the law these build, and agree with their unchecked versions.
* `C231_lognormal_standard` (Props/Surface.lean): C231: `standard()` is the law of independent standard log-normals, and needs at least one dimension
* `C231_lognormal_params` (Props/Surface.lean): C231, C18: `params()` gives back the parameters, and the distribution rebuilt from them is the same one, for the three covariances

## C232 Printed distributions are unambiguous (proved)

Two distributions that print the same text are of the same family and have the same parameters (for the families that print their parameters). *For all pairs of distributions of thirty scalar families, of the categorical, Dirichlet, multinomial, isotropic log-normal, degenerate and paired normal families, all parameters and dimensions, any number printer that prints distinct f64 differently without punctuation.*

* `C232_text_identifies_distribution` (Props/Display.lean): C232: two distributions - of any of the thirty families that print their parameters - whose texts are equal are of the same family and have the same parameters, whatever those are.
* `C232_text_lists_parameters` (Props/Display.lean): C232: the text is the name of the family followed by the parameters, in the order of the constructor, in parentheses.
* `C232_text_identifies_vector_distribution` (Props/Display.lean): C232, vector-valued and point families: the text identifies the parameters of categorical, Dirichlet, multinomial and isotropic log-normal distributions of every dimension (for the categorical law also the dimension), of both point masses and of the paired normal.

## C233 Printed derived quantities identify the parameters (partial)

Where a distribution prints quantities computed from its parameters (uniform, arcsine, triangular, log-normal, folded normal, bivariate normal), the text still identifies the parameters. *For all pairs of distributions of one family, binary64 arithmetic.*

* `C233_text_identifies_derived_partial` (Props/Display.lean): C233 (what holds): where a text shows quantities computed from the parameters, it identifies those quantities: the end points of the support of an arcsine or uniform law, the end points and the peak of a triangular law, location and variance of the log-normal and folded normal laws, and, when the interval fits in i64, both parameters of the discrete uniform law, and mean vector and covariance matrix of the bivariate normal law. Missing: the parameters themselves, see `C233_text_loses_parameters_violated`.
* `C233_text_loses_parameters_violated` (Props/Display.lean): C233 (violated): parameters lost in the text, in binary64. All uniform laws, and all arcsine laws, starting at `2^53` with a width below 1 print the same text, an interval of length zero; so do all triangular laws there. All log-normal laws with the same nonnegative location and a scale of at least `2^600` print the same text, and among any three folded normal laws with location 0 and such a scale two do. The text of a discrete uniform law whose upper end leaves i64 cannot be produced at all in a debug build.

Note: The code does not have the full property; proved negation: parameters lost in the text, in binary64. All uniform laws, and all arcsine laws, starting at `2^53` with a width below 1 print the same text, an interval of length zero; so do all triangular laws there. All log-normal laws with the same nonnegative location and a scale of at least `2^600` print the same text, and among any three folded normal laws with location 0 and such a scale two do. The text of a discrete uniform law whose upper end leaves i64 cannot be produced at all in a debug build. Proved part: where a text shows quantities computed from the parameters, it identifies those quantities: the end points of the support of an arcsine or uniform law, the end points and the peak of a triangular law, location and variance of the log-normal and folded normal laws, and, when the interval fits in i64, both parameters of the discrete uniform law, and mean vector and covariance matrix of the bivariate normal law. Missing: the parameters themselves, see `C233_text_loses_parameters_violated`.

## C234 Error messages are unambiguous (proved)

The printed text of a constraint, however nested, determines which values it accepts; the message of an unsatisfied-constraint error determines the offending value, the parameter name and the accepted values; the messages of the probability errors determine the rejected value or vector. *For all constraints, values, parameter names; same assumptions on number printers.*

* `C234_constraint_text` (Props/Display.lean): C234: the text of a constraint, however nested, identifies which values it accepts.
* `C234_error_message` (Props/Display.lean): C234: the message of an unsatisfied-constraint error identifies the offending value, the parameter it was meant for (if recorded) and the constraint, up to constraints accepting the same values.
* `C234_probability_error_messages` (Props/Display.lean): C234: the messages of the two probability errors identify the rejected value and the rejected vector.

## C235 Variances in floating point (partial)

In IEEE double arithmetic, with overflow and underflow, variance() of any distribution built from finite accepted parameters is a non-negative number or +inf, never NaN or negative. *For all families with a variance, all finite parameters accepted by the constructor, subnormal and huge ones included.*

* `C235_float_variance_locscale_partial` (Props/FloatStats.lean): C235 (location-scale families): `variance()` is a non-negative number, never NaN (`0 ≤ v` excludes NaN). Missing: the families of `C235_float_variance_violated`.
* `C235_float_variance_shape_partial` (Props/FloatStats.lean): C235 (shape and rate families): as above.
* `C235_float_variance_discrete_partial` (Props/FloatStats.lean): C235 (discrete families): as above.
* `C235_float_variance_threshold_partial` (Props/FloatStats.lean): C235 (families whose variance exists above a threshold, binary64): as above, whenever a value is returned.
* `C235_float_variance_violated` (Props/FloatStats2.lean): C235 (violation): accepted finite parameters for which `variance()` is NaN or negative, family by family.

Note: The code does not have the full property; proved negation: accepted finite parameters for which `variance()` is NaN or negative, family by family. Proved part: `variance()` is a non-negative number, never NaN (`0 ≤ v` excludes NaN). Missing: the families of `C235_float_variance_violated`. | as above. | as above. | as above, whenever a value is returned.

## C236 Means, medians and modes in floating point (partial)

In IEEE double arithmetic, mean(), median() and modes() of any distribution built from finite accepted parameters lie in the closed range of the support (+inf allowed on overflow when the support is unbounded), and are never NaN. *For all families with such a statistic, all finite parameters accepted by the constructor, subnormal and huge ones included.*

* `C236_float_mean_positive_partial` (Props/FloatMean.lean): C236 (means of the families on the positive half-line): `mean()` is a non-negative number or `+inf`, never NaN.
* `C236_float_mean_bounded_partial` (Props/FloatMean.lean): C236 (bounded supports): the mean of a uniform distribution lies between its ends, that of a Beta in `[0, 1]`, that of a binomial in `[0, n]`; the median of the uniform is its mean.
* `C236_float_mean_threshold_partial` (Props/FloatMean.lean): C236 (families whose mean exists above a threshold, binary64): a returned mean is a non-negative number or `+inf`.
* `C236_float_median_mode_partial` (Props/FloatMean.lean): C236 (medians and modes, binary64): non-negative on the positive half-line, in `[0, 1]` for Kumaraswamy, between the ends for Triangular.
* `C236_float_location_violated` (Props/FloatMean.lean): C236 (violation): an arcsine distribution starting at 2^1023 or above has mean `+inf` although its upper end may be finite; the mean of a chi law with 400 or more degrees of freedom is NaN; a geometric distribution accepted with `p = -0.0` has mean `-inf`, with `p = 1` it has median `-1`; a Beta mode above 1; a Pareto mean below the left end of the support.

Note: The code does not have the full property; proved negation: an arcsine distribution starting at 2^1023 or above has mean `+inf` although its upper end may be finite; the mean of a chi law with 400 or more degrees of freedom is NaN; a geometric distribution accepted with `p = -0.0` has mean `-inf`, with `p = 1` it has median `-1`; a Beta mode above 1; a Pareto mean below the left end of the support. Proved part: `mean()` is a non-negative number or `+inf`, never NaN. | the mean of a uniform distribution lies between its ends, that of a Beta in `[0, 1]`, that of a binomial in `[0, n]`; the median of the uniform is its mean. | a returned mean is a non-negative number or `+inf`. | non-negative on the positive half-line, in `[0, 1]` for Kumaraswamy, between the ends for Triangular.

## C237 Exponential laws agree across classes (proved)

Exponential(λ), Gamma(1, λ), Erlang(1, λ), Weibull(1/λ, 1) and, for λ = 1/2, ChiSq(2) are one law: the methods they share (cdf, pdf, mean, variance, skewness, kurtosis, entropy, modes) return the same numbers on (0, ∞). *For all rates, all arguments > 0.*

* `C237_exponential_gamma` (Props/Links.lean): C237: `Exponential(λ)` and `Gamma(1, λ)`: cdf and pdf on (0, ∞), mean, variance, skewness, excess kurtosis, mode and entropy agree.
* `C237_exponential_erlang` (Props/Links.lean): C237: `Exponential(λ)` and `Erlang(1, λ)`: cdf and pdf on (0, ∞) (where Erlang's do not panic), mean, variance, skewness, mode.
* `C237_exponential_weibull` (Props/Links.lean): C237: `Exponential(λ)` and `Weibull(1/λ, 1)`: cdf and pdf on (0, ∞), mean, variance, skewness, excess kurtosis, median, mode, entropy.
* `C237_exponential_chisq` (Props/Links.lean): C237: `ChiSq(2)` and `Exponential(1/2)`: cdf and pdf on (0, ∞), mean, variance, skewness, entropy, mode.

## C238 Rayleigh laws agree across classes (partial)

Rayleigh(σ) and Weibull(σ√2, 2), and Rayleigh(1) and Chi(2), are one law: the methods they share return the same numbers. *For all σ, all arguments > 0.*

* `C238_rayleigh_weibull_partial` (Props/Links.lean): C238: `Rayleigh(σ)` and `Weibull(σ√2, 2)`: pdf on (0, ∞), mean, variance, skewness, median, entropy; the cdfs agree exactly when σ = 1 (C75: Rayleigh's cdf ignores σ).
* `C238_rayleigh_weibull_cdf_violated` (Props/Links.lean): C238 (violated): the cdfs of `Rayleigh(σ)` and `Weibull(σ√2, 2)` agree exactly when σ = 1.
* `C238_rayleigh_chi_partial` (Props/Links.lean): C238: `Chi(2)` and `Rayleigh(1)`: cdf and pdf on (0, ∞), mean, variance, skewness.

Note: The code does not have the full property; proved negation: the cdfs of `Rayleigh(σ)` and `Weibull(σ√2, 2)` agree exactly when σ = 1. Proved part: `Rayleigh(σ)` and `Weibull(σ√2, 2)`: pdf on (0, ∞), mean, variance, skewness, median, entropy; the cdfs agree exactly when σ = 1 (C75: Rayleigh's cdf ignores σ). | `Chi(2)` and `Rayleigh(1)`: cdf and pdf on (0, ∞), mean, variance, skewness.

## C239 Laws on the unit interval agree across classes (partial)

Beta(α, β) and Kumaraswamy(α, β) when a shape is 1, Beta(1, 1) and Uniform(0, 1), Beta(1/2, 1/2) and Arcsine(0, 1) are one law: the methods they share return the same numbers. *For all shapes concerned, all arguments of the unit interval.*

* `C239_beta_kumaraswamy_partial` (Props/Links2.lean): C239: `Beta(α, β)` and `Kumaraswamy(α, β)` coincide when a shape is 1: cdf on [0, 1], pdf on (0, 1), mean, variance, skewness, entropy, and (the shapes being equal or at least 1e-7 apart) median.
* `C239_beta_uniform` (Props/Links2.lean): C239: `Beta(1, 1)` and `Uniform(0, 1)`: cdf on [0, 1], pdf on (0, 1), mean, variance, skewness, entropy, median.
* `C239_beta_arcsine` (Props/Links2.lean): C239: `Beta(1/2, 1/2)` and `Arcsine(0, 1)`: cdf on [0, 1], pdf on (0, 1), mean, variance, skewness, median, modes, entropy.
* `C239_beta_kumaraswamy_modes_violated` (Props/Links2.lean): C239 (violated): for every α > 1 the modes of `Beta(α, 1)` and `Kumaraswamy(α, 1)`, which are the same law, differ: none against one.

Note: The code does not have the full property; proved negation: for every α > 1 the modes of `Beta(α, 1)` and `Kumaraswamy(α, 1)`, which are the same law, differ: none against one. Proved part: `Beta(α, β)` and `Kumaraswamy(α, β)` coincide when a shape is 1: cdf on [0, 1], pdf on (0, 1), mean, variance, skewness, entropy, and (the shapes being equal or at least 1e-7 apart) median.

## C240 Heavy-tailed laws agree across classes (partial)

Pareto(m, α) and GPD(m, m/α, 1/α), Frechet(α) and GEV(1, 1/α, 1/α), StudentT(1) and Cauchy(0, 1) are one law: the methods they share return the same numbers. *For all m, α > 0 concerned, all arguments of the support.*

* `C240_pareto_gpd_partial` (Props/Links2.lean): C240: `Pareto(x_m, α)` and `GPD(x_m, x_m/α, 1/α)`: cdf and pdf on [x_m, ∞), median, entropy. (Mean and variance: GPD's are refused or wrong, C80.)
* `C240_pareto_gpd_mean_violated` (Props/Links2.lean): C240 (violated): wherever the Pareto mean is finite (α > 1) the mean of the generalised Pareto law with the same distribution is refused: `mean()` panics.
* `C240_frechet_gev` (Props/Links2.lean): C240: `Frechet(α)` and `GEV(1, 1/α, 1/α)` (1/α at least the threshold 1e-7): cdf and pdf on (0, ∞), mean, variance, skewness and excess kurtosis (finite or infinite), median, mode, entropy.
* `C240_student_cauchy_partial` (Props/Links2.lean): C240: `StudentT(1)` and `Cauchy(0, 1)`: pdf everywhere, median, mode.
* `C240_student_cauchy_cdf_violated` (Props/Links2.lean): C240 (violated): the cdfs of `StudentT(1)` and `Cauchy(0, 1)` agree at 0 and nowhere else.

Note: The code does not have the full property; proved negation: wherever the Pareto mean is finite (α > 1) the mean of the generalised Pareto law with the same distribution is refused: `mean()` panics. | the cdfs of `StudentT(1)` and `Cauchy(0, 1)` agree at 0 and nowhere else. Proved part: `Pareto(x_m, α)` and `GPD(x_m, x_m/α, 1/α)`: cdf and pdf on [x_m, ∞), median, entropy. (Mean and variance: GPD's are refused or wrong, C80.) | `StudentT(1)` and `Cauchy(0, 1)`: pdf everywhere, median, mode.

## C241 Transformed variables (partial)

Distribution functions of classes related by a change of variable satisfy the relation: exp of a normal is log-normal, X/(1-X) of a Beta is Beta prime, F from Beta, 1/X of a Weibull is Fréchet, exp of a Gumbel is Fréchet, -ln of a Weibull is Gumbel, exp of an exponential is Pareto, |X| of a normal is folded normal, 1/X of a Gamma is inverse-Gamma, Levy(0, c) is InvGamma(1/2, c/2). *For all parameters accepted by both classes, all arguments of the supports.*

* `C241_lognormal_normal` (Props/Links3.lean): C241: if `X` is normal then `exp X` is log-normal: `LogNormal(μ, v).cdf(x) = Normal(μ, v).cdf(ln x)`.
* `C241_betaprime_beta` (Props/Links3.lean): C241: if `X` is Beta then `X/(1-X)` is Beta prime: `BetaPrime(α, β).cdf(x) = Beta(α, β).cdf(x/(1+x))`.
* `C241_f_beta` (Props/Links3.lean): C241: `F(m, n).cdf(x) = Beta(m/2, n/2).cdf(m x/(m x + n))`.
* `C241_frechet_weibull` (Props/Links3.lean): C241: if `X` is Weibull of scale 1 then `1/X` is Fréchet: `Frechet(α).cdf(x) + Weibull(1, α).cdf(1/x) = 1`.
* `C241_frechet_gumbel` (Props/Links3.lean): C241: if `X` is Gumbel with location 0 and scale `1/α` then `exp X` is Fréchet: `Frechet(α).cdf(x) = Gumbel(0, 1/α).cdf(ln x)`.
* `C241_weibull_gumbel` (Props/Links3.lean): C241: if `X` is Weibull then `ln X` is a reflected Gumbel: `Weibull(λ, k).cdf(x) + Gumbel(-ln λ, 1/k).cdf(-ln x) = 1`.
* `C241_pareto_exponential` (Props/Links3.lean): C241: if `X` is exponential of rate `α` then `m exp X` is Pareto: `Pareto(m, α).cdf(x) = Exponential(α).cdf(ln(x/m))`.
* `C241_folded_normal` (Props/Links3.lean): C241: if `X` is normal then `|X|` is folded normal: `FoldedNormal(μ, σ).cdf(x) = Normal(μ, σ²).cdf(x) - Normal(μ, σ²).cdf(-x)`.
* `C241_levy_inverse_gamma_partial` (Props/Links3.lean): C241: `Levy(0, c)` is `InvGamma(1/2, c/2)`: their densities agree on (0, ∞) and so do their entropies.
* `C241_inverse_gamma_gamma_violated` (Props/Links3.lean): C241: if `X` is Gamma then `1/X` is inverse-Gamma, so `InvGamma(α, β).cdf(x) + Gamma(α, β).cdf(1/x)` should be 1; the two methods return the same number instead, at every point.

Note: The code does not have the full property; proved negation: if `X` is Gamma then `1/X` is inverse-Gamma, so `InvGamma(α, β).cdf(x) + Gamma(α, β).cdf(1/x)` should be 1; the two methods return the same number instead, at every point. Proved part: `Levy(0, c)` is `InvGamma(1/2, c/2)`: their densities agree on (0, ∞) and so do their entropies.

## C242 Discrete laws agree across classes (partial)

Binomial(1, p) and Bernoulli(p), BetaBinomial(n, 1, 1) and the discrete Uniform(0, n), Categorical[1-p, p] and Bernoulli(p) are one law, and a count of Multinomial(n, ps) is Binomial(n, ps[i]): the methods they share return the same numbers. *For all n, all probabilities, all arguments.*

* `C242_binomial_bernoulli_partial` (Props/Links4.lean): C242: `Binomial(1, p)` and `Bernoulli(p)` have the same mass function, mean and variance, and (0 < p < 1) the same skewness, kurtosis, excess kurtosis and Fisher information.
* `C242_binomial_bernoulli_cdf_violated` (Props/Links4.lean): C242, violated: at 0 (`false`) the two distribution functions differ for every p < 1: Binomial's is the mass at 0, Bernoulli's is 0.
* `C242_beta_binomial_uniform` (Props/Links4.lean): C242: `BetaBinomial(n, 1, 1)` and the discrete `Uniform` on `0, …, n` have the same mass function (where the binomial coefficients fit in u64), mean and variance.
* `C242_categorical_bernoulli` (Props/Links4.lean): C242: `Categorical[1-p, p]` and `Bernoulli(p)` have the same mass function, category 1 being `true`.
* `C242_multinomial_binomial` (Props/Links4.lean): C242: each count of a `Multinomial(n, ps)` has the mean and the variance of `Binomial(n, ps[i])`.

Note: The code does not have the full property; proved negation: C242, violated: at 0 (`false`) the two distribution functions differ for every p < 1: Binomial's is the mass at 0, Bernoulli's is 0. Proved part: `Binomial(1, p)` and `Bernoulli(p)` have the same mass function, mean and variance, and (0 < p < 1) the same skewness, kurtosis, excess kurtosis and Fisher information.

## C243 Normal laws agree across classes (partial)

The isotropic, diagonal, paired, bivariate, dense multivariate and univariate normal classes agree wherever their parameters describe the same law: density, distribution function, mean, modes, variance, covariance, entropy, and the sample for the same draws. *For all dimensions, means, covariance matrices concerned, all points and draws.*

* `C243_isotropic_diagonal` (Props/Links5.lean): C243: `IsotropicNormal(μ, s)` and `DiagonalNormal(μ, [s, …, s])` agree on every method, and return the same sample for the same draws.
* `C243_diagonal_dense_partial` (Props/Links5.lean): C243: `DiagonalNormal(μ, v)` and the dense `MvNormal(μ, diag v)`: mean, modes, variance, covariance and entropy agree.
* `C243_diagonal_dense_pdf_violated` (Props/Links5.lean): C243, violated: in every dimension, for every mean and every variances, there is a point where the densities of `DiagonalNormal(μ, v)` and of the dense `MvNormal(μ, diag v)` differ, the diagonal one being the greater.
* `C243_diagonal_dense_sample_violated` (Props/Links5.lean): C243, violated: for the same draws, coordinate `i` of the samples of `DiagonalNormal(μ, v)` and of the dense `MvNormal(μ, diag v)` agree only if the variance is 1 or the draw is 0.
* `C243_bivariate_paired` (Props/Links5.lean): C243: the independent `BvNormal` and the `PairedNormal` with the same parameters agree on every method, and return the same sample for the same draws.
* `C243_bivariate_dense_partial` (Props/Links5.lean): C243: `BvNormal(μ, S, ρ)`, |ρ| < 1, and the dense `MvNormal` with the covariance matrix it reports: mean, modes, variance and covariance agree, and the same draws give the same sample.
* `C243_bivariate_dense_violated` (Props/Links5.lean): C243, violated: for a negative correlation the dense constructor refuses the covariance matrix of the bivariate normal; for the others the two entropies differ, the bivariate one being the greater.
* `C243_dense_univariate` (Props/Links5.lean): C243: a dense `MvNormal` of dimension one is the univariate `Normal`: mean, variance, entropy, density, and the sample for the same draw.

Note: The code does not have the full property; proved negation: C243, violated: in every dimension, for every mean and every variances, there is a point where the densities of `DiagonalNormal(μ, v)` and of the dense `MvNormal(μ, diag v)` differ, the diagonal one being the greater. | C243, violated: for the same draws, coordinate `i` of the samples of `DiagonalNormal(μ, v)` and of the dense `MvNormal(μ, diag v)` agree only if the variance is 1 or the draw is 0. | C243, violated: for a negative correlation the dense constructor refuses the covariance matrix of the bivariate normal; for the others the two entropies differ, the bivariate one being the greater. Proved part: `DiagonalNormal(μ, v)` and the dense `MvNormal(μ, diag v)`: mean, modes, variance, covariance and entropy agree. | `BvNormal(μ, S, ρ)`, |ρ| < 1, and the dense `MvNormal` with the covariance matrix it reports: mean, modes, variance and covariance agree, and the same draws give the same sample.

## C244 Mixtures depend only on the weighted components (partial)

Reordering the weighted components of a mixture, splitting a component into copies of total weight 1, or adding a component of weight 0 changes neither its cdf, pdf, mean nor variance. *For all component families, weights and components, any number of components, all arguments.*

* `C244_permute_partial` (Props/MixtureLaws.lean): C244: reordering the weighted components changes nothing: cdf, pdf, mean and variance are the same.
* `C244_identical_partial` (Props/MixtureLaws.lean): C244: a mixture all of whose components are the same distribution `c`, with weights summing to 1, returns the numbers `c` returns.
* `C244_zero_weight_partial` (Props/MixtureLaws.lean): C244: a component of weight 0 changes nothing, wherever it stands, if its methods return real numbers.
* `C244_zero_weight_violated` (Props/MixtureLaws.lean): C244, violated: a component of weight 0 whose mean is infinite (Lévy, Pareto with α ≤ 1, Fréchet with α ≤ 1) makes the mean and the variance of the mixture NaN, wherever it stands and whatever the other components, in every floating-point arithmetic.

Note: The code does not have the full property; proved negation: C244, violated: a component of weight 0 whose mean is infinite (Lévy, Pareto with α ≤ 1, Fréchet with α ≤ 1) makes the mean and the variance of the mixture NaN, wherever it stands and whatever the other components, in every floating-point arithmetic. Proved part: reordering the weighted components changes nothing: cdf, pdf, mean and variance are the same. | a mixture all of whose components are the same distribution `c`, with weights summing to 1, returns the numbers `c` returns. | a component of weight 0 changes nothing, wherever it stands, if its methods return real numbers.

## C245 Assigned mixture fields take effect (partial)

After any sequence of assignments to the public fields weights and components of a mixture, every query answers as for a mixture built afresh from the present fields. *For all component families, all built mixtures, all histories of assignments of any length, all arguments, generators and arithmetics.*

* `C245_fields_partial` (Props/Fields.lean): C245, the part that holds: for every mixture built by `new`, every history of assignments to `weights` and `components`, and every arithmetic, building a mixture from the present fields succeeds and gives one with the same `weights`, `components`, `params`, `cdf`, `pdf`, `mean`, `variance` and the same draws; the last assignment to each field is the one that counts. Missing: `support` (see C245_stale_support_violated).
* `C245_stale_support_violated` (Props/Fields.lean): C245, violated: `support` is computed once. Whatever is assigned later, the reported support stays the hull of the supports of the *original* components; so as soon as a present component has a support that is not inside it, the reported support is not the hull of the present ones, and it differs from the support of the mixture built from the present fields. In every arithmetic.

Note: The code does not have the full property; proved negation: C245, violated: `support` is computed once. Whatever is assigned later, the reported support stays the hull of the supports of the *original* components; so as soon as a present component has a support that is not inside it, the reported support is not the hull of the present ones, and it differs from the support of the mixture built from the present fields. In every arithmetic. Proved part: C245, the part that holds: for every mixture built by `new`, every history of assignments to `weights` and `components`, and every arithmetic, building a mixture from the present fields succeeds and gives one with the same `weights`, `components`, `params`, `cdf`, `pdf`, `mean`, `variance` and the same draws; the last assignment to each field is the one that counts. Missing: `support` (see C245_stale_support_violated).

## C246 Assigned Dirichlet concentrations take effect (partial)

After any assignment to the public field alphas of a Dirichlet law, every query answers as for a law built afresh from the present concentrations. *For all dimensions, all positive concentrations before and after, all points, all generators.*

* `C246_fields_partial` (Props/Fields.lean): C246, the part that holds: after any assignment to the public `alphas`, `params`, the printed text and the draws are those of a Dirichlet law built from the present concentrations, in every arithmetic; and an assignment of the value already there changes nothing. Missing: `mean`, `variance`, `covariance`, `modes`, `pdf`, `log_pdf` (see C246_stale_violated).
* `C246_stale_violated` (Props/Fields.lean): C246, violated: the normaliser, the total and the normalised concentrations are computed once. After assigning concentrations `b` to a law built from `a`: `mean` is still that of the *old* law; `variance` is `b_i (Σa - b_i) / ((Σa)² (Σa + 1))`; `pdf` is the new density times the constant `B(b) / B(a)`.
* `C246_impossible_moments_violated` (Props/Fields.lean): C246, violated in particular: for every law and coordinate there are positive finite concentrations whose assignment makes the reported variance of that coordinate *negative*; and any assignment that changes the proportion of a coordinate makes its reported mean differ from the mean of the law that the present concentrations describe.

Note: The code does not have the full property; proved negation: C246, violated: the normaliser, the total and the normalised concentrations are computed once. After assigning concentrations `b` to a law built from `a`: `mean` is still that of the *old* law; `variance` is `b_i (Σa - b_i) / ((Σa)² (Σa + 1))`; `pdf` is the new density times the constant `B(b) / B(a)`. | C246, violated in particular: for every law and coordinate there are positive finite concentrations whose assignment makes the reported variance of that coordinate *negative*; and any assignment that changes the proportion of a coordinate makes its reported mean differ from the mean of the law that the present concentrations describe. Proved part: C246, the part that holds: after any assignment to the public `alphas`, `params`, the printed text and the draws are those of a Dirichlet law built from the present concentrations, in every arithmetic; and an assignment of the value already there changes nothing. Missing: `mean`, `variance`, `covariance`, `modes`, `pdf`, `log_pdf` (see C246_stale_violated).

## C247 Comparing probabilities (proved)

Valid probabilities are totally ordered by the numbers they hold, equality (also with an f64) is equality of those numbers, zero and one are the extremes; checked and unchecked arithmetic respects the order after rounding; a NaN inside is comparable with nothing. *For all probabilities, all f64 values, every correctly rounded arithmetic.*

* `C247_order` (Props/ProbOrd.lean): C247: `partial_cmp` on two valid probabilities always answers, and answers the order of the real numbers they hold; `==` is equality of those numbers, both between probabilities and with an f64; `zero()` and `one()` are the least and the greatest valid probability and `default()` is `zero()`. In every arithmetic.
* `C247_nan` (Props/ProbOrd.lean): C247: a probability built unchecked from NaN is comparable with nothing and equal to nothing, not even itself.
* `C247_ops_order` (Props/ProbOrd.lean): C247: arithmetic respects the order, rounding included: a checked sum is at least both terms, a checked difference is at most the first, a product is at most both factors, a checked quotient is at least the first. For values `p`, `q` representable in the arithmetic.

## C248 Mixtures in floating point (partial)

In rounded IEEE arithmetic, for every mixture accepted by Mixture::new: cdf is non-negative and non-decreasing where the component cdfs are valid and non-decreasing, pdf is non-negative and never NaN where the component densities are non-negative, mean is never NaN and lies between the component means, variance is non-negative and never NaN. *For all component families, weights and components, any number of components, all f64 arguments, every correctly rounded arithmetic (binary64 in particular).*

* `C248_float_mixture_cdf_partial` (Props/MixtureFloat.lean): C248: whatever the rounding, the cdf of an accepted mixture is non-decreasing and non-negative wherever the component cdfs are valid probabilities that do not decrease.
* `C248_float_mixture_pdf_partial` (Props/MixtureFloat.lean): C248: whatever the rounding, the density of an accepted mixture is non-negative and never NaN where the component densities are non-negative, provided no component of weight zero has an infinite density.
* `C248_float_mixture_mean_partial` (Props/MixtureFloat.lean): C248: whatever the rounding, the mean of an accepted mixture of components with finite means is not NaN, and it is non-negative when every component mean is.
* `C248_float_mixture_single_partial` (Props/MixtureFloat.lean): C248: whatever the rounding, the variance of a one-component mixture of weight one is non-negative, provided the square of the component's mean does not overflow.
* `C248_zero_weight_violated` (Props/MixtureFloat.lean): C248 (violation): a component of weight zero whose density at `x` is infinite makes the mixture density NaN at `x`.
* `C248_negative_variance_violated` (Props/MixtureFloat.lean): C248 (violation): `Mixture::new([1, 2^-18], [Normal(1024, 1), Normal(1024, 1)])` is accepted, its mean exceeds both component means and its variance is negative (the standard deviation is NaN), in every correctly rounded arithmetic, binary64 included.
* `C248_tolerance_violated` (Props/MixtureFloat.lean): C248 (violation): with exact arithmetic, the variance of an accepted mixture of identical normals `Normal(μ, v)` is `s v + s (1 - s) μ²` where `s` is the sum of the weights; whenever the accepted weights exceed one (they may, by up to 1e-5), it is negative for every mean large enough.
* `C248_cancellation_violated` (Props/MixtureFloat.lean): C248 (violation): in double precision a mixture whose only component is `Normal(2^27, 1)` has variance zero, and one whose only component is a normal of mean at least 2^512 in absolute value has variance NaN.

Note: The code does not have the full property; proved negation: a component of weight zero whose density at `x` is infinite makes the mixture density NaN at `x`. | `Mixture::new([1, 2^-18], [Normal(1024, 1), Normal(1024, 1)])` is accepted, its mean exceeds both component means and its variance is negative (the standard deviation is NaN), in every correctly rounded arithmetic, binary64 included. | with exact arithmetic, the variance of an accepted mixture of identical normals `Normal(μ, v)` is `s v + s (1 - s) μ²` where `s` is the sum of the weights; whenever the accepted weights exceed one (they may, by up to 1e-5), it is negative for every mean large enough. | in double precision a mixture whose only component is `Normal(2^27, 1)` has variance zero, and one whose only component is a normal of mean at least 2^512 in absolute value has variance NaN. Proved part: whatever the rounding, the cdf of an accepted mixture is non-decreasing and non-negative wherever the component cdfs are valid probabilities that do not decrease. | whatever the rounding, the density of an accepted mixture is non-negative and never NaN where the component densities are non-negative, provided no component of weight zero has an infinite density. | whatever the rounding, the mean of an accepted mixture of components with finite means is not NaN, and it is non-negative when every component mean is. | whatever the rounding, the variance of a one-component mixture of weight one is non-negative, provided the square of the component's mean does not overflow.

## C249 Masses are probabilities in floating point (partial)

In rounded IEEE arithmetic the mass every discrete law returns for an outcome of its support is a number between 0 and 1 (never NaN, infinite or negative). *For all parameters accepted by the constructors, all outcomes, every correctly rounded arithmetic (binary64 for the violations and the Poisson law).*

* `C249_bernoulli` (Props/FloatPmf.lean): C249 Bernoulli: both masses are probabilities, for every accepted parameter.
* `C249_categorical` (Props/FloatPmf.lean): C249 categorical: every mass is a probability.
* `C249_geometric_partial` (Props/FloatPmf.lean): C249 geometric: below 2^31 every mass is a probability. Missing: `C249_geometric_violated`.
* `C249_binomial_partial` (Props/FloatPmf.lean): C249 binomial: whenever the intermediate products of `choose` fit in u64 and the exponents in i32, the mass of every `k ≤ n` is a probability. Missing: the other cases (`C249_binomial_violated`).
* `C249_uniform_int_partial` (Props/FloatPmf2.lean): C249 discrete uniform: every mass is a probability, as long as the interval and its size fit in i64. Missing: intervals that do not fit (`C249_uniform_int_violated`).
* `C249_geometric_violated` (Props/FloatPmf2.lean): C249 is violated by the geometric law: for every success probability of at least 1/2 and every `k` with 2^31 ≤ k ≤ 2^32 - 1075 the mass is infinite.
* `C249_binomial_violated` (Props/FloatPmf2.lean): C249 is violated by the binomial law: with 2^31 ≤ n ≤ 2^32 - 1075 trials and a success probability of at least 1/2, the mass of 0 is infinite.
* `C249_uniform_int_violated` (Props/FloatPmf3.lean): C249 is violated by the discrete uniform law in release builds: the interval of the 2^63 integers from `lb ≤ 0` is accepted, and the mass of each of its points is the negative number -2^-63.
* `C249_poisson_violated` (Props/FloatPmf3.lean): C249 is violated by the Poisson law: with the rate 2^60 + 3840 each of the 200 outcomes 2^60 + 4252 ≤ k < 2^60 + 4452 has the mass +∞.
* `C249_poisson_partial` (Props/FloatPmf4.lean): C249 Poisson: for rates between 2^-20 and 2^20 and outcomes up to 2^20 the mass is a probability. Missing: larger rates and outcomes, where the logarithm of the mass loses all its digits (`C249_poisson_violated`), and rates below 2^-20.

Note: The code does not have the full property; proved negation: C249 is violated by the geometric law: for every success probability of at least 1/2 and every `k` with 2^31 ≤ k ≤ 2^32 - 1075 the mass is infinite. | C249 is violated by the binomial law: with 2^31 ≤ n ≤ 2^32 - 1075 trials and a success probability of at least 1/2, the mass of 0 is infinite. | C249 is violated by the discrete uniform law in release builds: the interval of the 2^63 integers from `lb ≤ 0` is accepted, and the mass of each of its points is the negative number -2^-63. | C249 is violated by the Poisson law: with the rate 2^60 + 3840 each of the 200 outcomes 2^60 + 4252 ≤ k < 2^60 + 4452 has the mass +∞. Proved part: C249 geometric: below 2^31 every mass is a probability. Missing: `C249_geometric_violated`. | C249 binomial: whenever the intermediate products of `choose` fit in u64 and the exponents in i32, the mass of every `k ≤ n` is a probability. Missing: the other cases (`C249_binomial_violated`). | C249 discrete uniform: every mass is a probability, as long as the interval and its size fit in i64. Missing: intervals that do not fit (`C249_uniform_int_violated`). | C249 Poisson: for rates between 2^-20 and 2^20 and outcomes up to 2^20 the mass is a probability. Missing: larger rates and outcomes, where the logarithm of the mass loses all its digits (`C249_poisson_violated`), and rates below 2^-20.

## C250 Accuracy of floating-point masses (partial)

In rounded IEEE arithmetic the masses and distribution functions of the discrete laws are those of the law up to an explicit rounding error. *For all parameters accepted by the constructors, all outcomes, every correctly rounded arithmetic (binary64 for the Poisson law and monotonicity).*

* `C250_geometric_pmf` (Props/FloatPmf.lean): C250 geometric: the mass of `k < 2^31` failures is right up to a relative error of `(2k + 1) 2^-51` and an absolute one of 2^-1030.
* `C250_geometric_cdf` (Props/FloatPmf.lean): C249, C250 geometric: below 2^31 - 1 the distribution function returns a probability, within `(k + 2) 2^-50` of the right value.
* `C250_binomial_pmf` (Props/FloatPmf.lean): C250 binomial: in those cases the mass is right up to a relative error of `(2n + 3) 2^-51` and an absolute one of 2^-960.
* `C250_binomial_62` (Props/FloatPmf.lean): C250 binomial, up to 62 trials: no side condition; every mass has a relative error below 2^-44.
* `C250_uniform_int_pmf` (Props/FloatPmf2.lean): C250 discrete uniform: the mass of every point of the interval is `1/(width + 1)` up to a relative error of 2^-51; outside it is 0.
* `C250_uniform_int_cdf` (Props/FloatPmf2.lean): C249, C250 discrete uniform: in binary64 the distribution function returns a probability at every integer and never decreases.
* `C250_poisson_violated` (Props/FloatPmf3.lean): C250 is violated by the Poisson law: with the rate 2^60 each of the outcomes 2^60 ≤ k ≤ 2^60 + 100 has the mass 1 (the Poisson law gives them at most 1/2, and at most 1 together).
* `C250_poisson_partial` (Props/FloatPmf4.lean): C250 Poisson: for rates between 2^-20 and 2^20 and outcomes up to 2^20 the mass is the Poisson mass up to a relative error of 5·10^-7 (the accuracy of Stirling's formula at the end of the table) and half the smallest positive number. Missing: larger rates and outcomes (`C250_poisson_violated`), and rates below 2^-20.

Note: The code does not have the full property; proved negation: C250 is violated by the Poisson law: with the rate 2^60 each of the outcomes 2^60 ≤ k ≤ 2^60 + 100 has the mass 1 (the Poisson law gives them at most 1/2, and at most 1 together). Proved part: C250 Poisson: for rates between 2^-20 and 2^20 and outcomes up to 2^20 the mass is the Poisson mass up to a relative error of 5·10^-7 (the accuracy of Stirling's formula at the end of the table) and half the smallest positive number. Missing: larger rates and outcomes (`C250_poisson_violated`), and rates below 2^-20.

## C251 Accuracy of floating-point distribution functions (partial)

In rounded IEEE arithmetic with accurate elementary functions, the value returned by a continuous law's cdf differs from the real distribution function by at most 2^-47 (for Pareto, Weibull and the log-normal by an explicit multiple of 2^-51 that grows with the shape, respectively with 1/sigma). *For all parameters accepted by the constructors, all finite f64 arguments of the support, every correctly rounded arithmetic satisfying the accuracy contract (binary64 for the violations).*

* `C251_exponential` (Props/FloatAccuracy.lean): C251: the exponential distribution function is within 2^-47 of the real one at every non-negative f64, for every finite rate
* `C251_logistic_partial` (Props/FloatAccuracy.lean): C251 (part): the logistic distribution function is within 2^-47 of the real one wherever the subtraction `x - mu` does not overflow (see `C251_logistic_violated`)
* `C251_gumbel_partial` (Props/FloatAccuracy.lean): C251 (part): the same for the Gumbel distribution function
* `C251_cauchy_partial` (Props/FloatAccuracy.lean): C251 (part): the same for the Cauchy distribution function
* `C251_normal` (Props/FloatAccuracy.lean): C251: the normal distribution function (second parameter: the variance) is within 2^-47 of the real one at every f64, for every finite mean and variance: where `x - mu` overflows, `x` is at least 2^500 standard deviations away
* `C251_frechet` (Props/FloatAccuracy2.lean): C251: the Fréchet distribution function is within 2^-47 of the real one at every positive f64, for every finite shape
* `C251_pareto_partial` (Props/FloatAccuracy2.lean): C251 (part): the Pareto distribution function is within `(α + 8) 2^-51` of the real one from the scale up to 2^900 times the scale (beyond, `xm / x` may underflow: see `C251_pareto_violated`)
* `C251_weibull_partial` (Props/FloatAccuracy2.lean): C251 (part): the Weibull distribution function is within `k 2^-51 + 2^-47` of the real one at 0 and between 2^-900 and 2^1000 times the scale (outside, `x / lambda` may underflow or overflow: see `C251_weibull_violated`)
* `C251_lognormal_partial` (Props/FloatAccuracy2.lean): C251 (part): the log-normal distribution function at `x` is within `2^-47 + K 2^-51` of the real one, where `K` bounds the ratio of `1 + |ln x|` to the log-scale standard deviation
* `C251_logistic_violated` (Props/FloatAccuracy3.lean): C251 (violation): where `x - mu` overflows the logistic distribution function is 1 although the real one is at most 0.9
* `C251_gumbel_violated` (Props/FloatAccuracy3.lean): C251 (violation): the same for the Gumbel distribution function
* `C251_cauchy_violated` (Props/FloatAccuracy3.lean): C251 (violation): the same for the Cauchy distribution function
* `C251_pareto_violated` (Props/FloatAccuracy3.lean): C251 (violation): a Pareto law with scale 2^-500 and shape 2^-20 has its distribution function at 2^600 equal to 1, because `xm / x` underflows to zero; the real one is below 1/2
* `C251_weibull_violated` (Props/FloatAccuracy3.lean): C251 (violation): a Weibull law with scale 2^500 and shape 2^-20 has its distribution function at 2^-600 equal to 0, because `x / lambda` underflows to zero; the real one is above 1/2
* `C251_lognormal_violated` (Props/FloatAccuracy3.lean): C251 (violation): a log-normal law with location `rnd (ln 2)` and log-scale variance 2^-120: the distribution function at 2 is 1/2 because `ln 2` is rounded, the real one is above 3/4

Note: The code does not have the full property; proved negation: where `x - mu` overflows the logistic distribution function is 1 although the real one is at most 0.9 | the same for the Gumbel distribution function | the same for the Cauchy distribution function | a Pareto law with scale 2^-500 and shape 2^-20 has its distribution function at 2^600 equal to 1, because `xm / x` underflows to zero; the real one is below 1/2 | a Weibull law with scale 2^500 and shape 2^-20 has its distribution function at 2^-600 equal to 0, because `x / lambda` underflows to zero; the real one is above 1/2 | a log-normal law with location `rnd (ln 2)` and log-scale variance 2^-120: the distribution function at 2 is 1/2 because `ln 2` is rounded, the real one is above 3/4 Proved part: the logistic distribution function is within 2^-47 of the real one wherever the subtraction `x - mu` does not overflow (see `C251_logistic_violated`) | the same for the Gumbel distribution function | the same for the Cauchy distribution function | the Pareto distribution function is within `(α + 8) 2^-51` of the real one from the scale up to 2^900 times the scale (beyond, `xm / x` may underflow: see `C251_pareto_violated`) | the Weibull distribution function is within `k 2^-51 + 2^-47` of the real one at 0 and between 2^-900 and 2^1000 times the scale (outside, `x / lambda` may underflow or overflow: see `C251_weibull_violated`) | the log-normal distribution function at `x` is within `2^-47 + K 2^-51` of the real one, where `K` bounds the ratio of `1 + |ln x|` to the log-scale standard deviation

## C252 Samples stay in the support in floating point (partial)

When the random source answers inside the interval it was asked for, every sample computed by the library itself is, in rounded IEEE arithmetic, a number in the support of the distribution. *For all parameters accepted by the constructors (magnitude up to 2^1000 for the normal families), all answers of the source, every correctly rounded arithmetic (binary64 for two of the violations).*

* `C252_kumaraswamy` (Props/FloatSample.lean): C252 (Kumaraswamy): for every accepted pair of parameters, infinities included, every sample is a number in `[0, 1]`.
* `C252_uniform` (Props/FloatSample.lean): C252 (uniform): every sample of a uniform distribution whose upper end is finite is a number between its ends.
* `C252_frechet_partial` (Props/FloatSample.lean): C252 (Fréchet, partial): for every accepted shape every sample is at least zero, never NaN. Missing: being a positive number.
* `C252_frechet_violated` (Props/FloatSample.lean): C252 (Fréchet, violated): whatever the shape (up to `2^1000`), the sample for the draw 0 is `+inf` and the sample for the draw 1 is zero; neither is a positive number, and both draws are allowed.
* `C252_laplace_partial` (Props/FloatSample.lean): C252 (Laplace, partial): for finite parameters no sample is NaN. Missing: being finite.
* `C252_laplace_violated` (Props/FloatSample.lean): C252 (Laplace, violated): whatever the finite parameters, the sample for the draw `-1/2`, the lower end of the requested interval, is `-inf`.
* `C252_normal` (Props/FloatSample.lean): C252 (normal): for parameters of magnitude at most `2^1000` every sample of a normal distribution is a finite number.
* `C252_folded_normal` (Props/FloatSample.lean): C252 (folded normal): for parameters of magnitude at most `2^1000` every sample of a folded normal distribution is a non-negative number.
* `C252_lognormal_partial` (Props/FloatSample.lean): C252 (log-normal, partial): when the mean and the standard deviation are finite, every sample of a log-normal distribution is at least zero, never NaN. Missing: being a positive number.
* `C252_inverse_normal_violated` (Props/FloatSample2.lean): C252 (inverse normal, violated): with `mu = 2^60`, `lambda = 1` and the normal variate 1, the sample is zero or `+inf`, whatever the uniform variate: cancellation destroys the value, which should be close to 1.
* `C252_lognormal_violated` (Props/FloatSample2.lean): C252 (log-normal, violated): the log-normal distribution with parameters 0 and 16 is sampled with its own mean and standard deviation as parameters; the normal variates 1 and -1 give `+inf` and zero.

Note: The code does not have the full property; proved negation: whatever the shape (up to `2^1000`), the sample for the draw 0 is `+inf` and the sample for the draw 1 is zero; neither is a positive number, and both draws are allowed. | whatever the finite parameters, the sample for the draw `-1/2`, the lower end of the requested interval, is `-inf`. | with `mu = 2^60`, `lambda = 1` and the normal variate 1, the sample is zero or `+inf`, whatever the uniform variate: cancellation destroys the value, which should be close to 1. | the log-normal distribution with parameters 0 and 16 is sampled with its own mean and standard deviation as parameters; the normal variates 1 and -1 give `+inf` and zero. Proved part: for every accepted shape every sample is at least zero, never NaN. Missing: being a positive number. | for finite parameters no sample is NaN. Missing: being finite. | when the mean and the standard deviation are finite, every sample of a log-normal distribution is at least zero, never NaN. Missing: being a positive number.

## C253 Accuracy of floating-point densities (partial)

In rounded IEEE arithmetic with accurate elementary functions, the value returned by a continuous law's pdf differs from the real density by at most a fixed multiple (2^-50 to 2^-43) of the reciprocal scale, i.e. of the size of the density's peak. *For all parameters accepted by the constructors whose scale lies between 2^-500 and 2^500, all finite f64 arguments, every correctly rounded arithmetic satisfying the accuracy contract (binary64 for the violations).*

* `C253_exponential` (Props/FloatDensity.lean): C253: the exponential density is within λ·2^-48 of the real one at every non-negative f64
* `C253_cauchy` (Props/FloatDensity.lean): C253: the Cauchy density is within 2^-46/γ of the real one at every f64
* `C253_gumbel_partial` (Props/FloatDensity.lean): C253 (part): the Gumbel density is within 2^-45/β of the real one as long as the standardised argument does not overflow downwards (see `C253_gumbel_violated`)
* `C253_logistic_partial` (Props/FloatDensity.lean): C253 (part): the logistic density is within 2^-45/s of the real one down to 300 scales below the location (see `C253_logistic_violated`)
* `C253_normal` (Props/FloatDensity2.lean): C253: the normal density (second parameter: the variance) is within 2^-45/σ of the real one at every f64
* `C253_folded_normal` (Props/FloatDensity2.lean): C253: the folded normal density is within 2^-43/σ of the real one at every non-negative f64
* `C253_uniform_partial` (Props/FloatDensity2.lean): C253 (part): the uniform density is within 2^-50/width of the real one at every f64 other than the rounded upper end `fl(lb + width)` (see `C253_uniform_violated`)
* `C253_logistic_violated` (Props/FloatDensity2.lean): C253 (violation): the density of the standard logistic distribution is NaN a thousand scales below the location, where the real one is below 2^-1000, so it has no error bound at all
* `C253_gumbel_violated` (Props/FloatDensity2.lean): C253 (violation): where the standardised argument overflows downwards the Gumbel density is `exp(inf - inf)`, NaN
* `C253_uniform_violated` (Props/FloatDensity2.lean): C253 (violation): the rounded upper end can lie above the real one; the uniform density there is `1/width`, the real one is 0

Note: The code does not have the full property; proved negation: the density of the standard logistic distribution is NaN a thousand scales below the location, where the real one is below 2^-1000, so it has no error bound at all | where the standardised argument overflows downwards the Gumbel density is `exp(inf - inf)`, NaN | the rounded upper end can lie above the real one; the uniform density there is `1/width`, the real one is 0 Proved part: the Gumbel density is within 2^-45/β of the real one as long as the standardised argument does not overflow downwards (see `C253_gumbel_violated`) | the logistic density is within 2^-45/s of the real one down to 300 scales below the location (see `C253_logistic_violated`) | the uniform density is within 2^-50/width of the real one at every f64 other than the rounded upper end `fl(lb + width)` (see `C253_uniform_violated`)

## C254 Accuracy of floating-point moments (partial)

In rounded IEEE arithmetic the mean, variance, skewness and (excess) kurtosis returned by a distribution have relative error at most 2^-46 (64 units in the last place). *For all parameters accepted by the constructors between 2^-60 and 2^60 (and as far from the thresholds below which the moment does not exist; all integer parameters), every correctly rounded arithmetic (binary64 for the violations).*

* `C254_exponential` (Props/FloatMoments.lean): C254 (exponential law): mean and variance to 64 units of `2^-52`.
* `C254_gamma` (Props/FloatMoments.lean): C254 (gamma law): mean, variance, skewness and excess kurtosis.
* `C254_erlang` (Props/FloatMoments.lean): C254 (Erlang law).
* `C254_inverse_gamma` (Props/FloatMoments.lean): C254 (inverse gamma law): each moment above its threshold.
* `C254_pareto` (Props/FloatMoments.lean): C254 (Pareto law): each moment above its threshold.
* `C254_location_scale` (Props/FloatMoments.lean): C254 (location-scale families): the variances. The means are stored parameters.
* `C254_rayleigh` (Props/FloatMoments.lean): C254 (Rayleigh law): mean and variance.
* `C254_inverse_normal` (Props/FloatMoments.lean): C254 (inverse Gaussian law): mean, variance and skewness.
* `C254_beta` (Props/FloatMoments2.lean): C254 (beta law): mean, variance and (away from symmetry) skewness.
* `C254_beta_prime` (Props/FloatMoments2.lean): C254 (beta prime law): each moment above its threshold.
* `C254_f_dist` (Props/FloatMoments2.lean): C254 (Fisher-Snedecor law): mean and variance, for all degrees of freedom.
* `C254_student` (Props/FloatMoments2.lean): C254 (Student law): variance and excess kurtosis.
* `C254_chi_squared` (Props/FloatMoments2.lean): C254 (chi-squared law): mean, variance (below the overflow of `2 * k`), skewness, excess kurtosis and kurtosis.
* `C254_discrete` (Props/FloatMoments2.lean): C254 (discrete laws): mean and variance of the geometric, binomial and Bernoulli laws, skewness of the geometric law.
* `C254_beta_binomial_partial` (Props/FloatMoments2.lean): C254 (beta-binomial law): the mean.
* `C254_float_moments_violated` (Props/FloatMoments2.lean): C254 (violation): laws whose variance is an ordinary number but is returned as 0 or infinity: the beta law with equal large shapes, the Pareto law with large parameters, the triangular law that is narrow against its location, the beta-binomial law with a small second shape.

Note: The code does not have the full property; proved negation: laws whose variance is an ordinary number but is returned as 0 or infinity: the beta law with equal large shapes, the Pareto law with large parameters, the triangular law that is narrow against its location, the beta-binomial law with a small second shape. Proved part: the mean.

## C255 Accuracy of floating-point medians and modes (partial)

In rounded IEEE arithmetic with accurate elementary functions, the median, mode and quantile returned by a distribution are within relative error 2^-40 (on the scale |location| + spread for the families with a location; 2^-34 for Kumaraswamy) of the point where the real distribution function takes the value 1/2, respectively of the maximum of the real density. *For all parameters accepted by the constructors of ordinary size (2^-60 to 2^60, shape exponents between 1/16 and 16), every correctly rounded arithmetic satisfying the accuracy contract (binary64 for the violations).*

* `C255_exponential` (Props/FloatMedian.lean): C255 (exponential and Rayleigh laws): the median to relative error `2^-40`; the modes are exact.
* `C255_rayleigh` (Props/FloatMedian.lean): C255 (Rayleigh law): the median is within relative error `2^-40` of the point where the distribution function is one half.
* `C255_pareto` (Props/FloatMedian.lean): C255 (Pareto law, shape at least 1/16): the median; the mode is exact.
* `C255_weibull` (Props/FloatMedian.lean): C255 (Weibull law, shape at least 1/16): the median.
* `C255_frechet` (Props/FloatMedian.lean): C255 (Fréchet law, shape at least 1/16): median and mode.
* `C255_gumbel` (Props/FloatMedian.lean): C255 (Gumbel law): the median, on the scale of location and spread.
* `C255_uniform` (Props/FloatMedian.lean): C255 (uniform law): every quantile above `2^-60`, in particular the median, on the scale of the bounds.
* `C255_lognormal` (Props/FloatMedian.lean): C255 (log-normal law): the median `exp μ`, for `|μ| ≤ 400`.
* `C255_gpd` (Props/FloatMedian.lean): C255 (generalised Pareto law, shape between 1/16 and 16): the median.
* `C255_gev` (Props/FloatMedian.lean): C255 (generalised extreme value law, shape between 1/16 and 16): median and mode, to `2^-32`.
* `C255_location` (Props/FloatModes.lean): C255 (families with a location): median and mode are returned without any error, whatever the arithmetic.
* `C255_gamma` (Props/FloatModes.lean): C255 (gamma law): the mode, for shapes above 1.
* `C255_inverse_gamma` (Props/FloatModes.lean): C255 (inverse gamma law): the mode.
* `C255_beta_prime` (Props/FloatModes.lean): C255 (beta prime law): the mode, for first shape above 1.
* `C255_beta_partial` (Props/FloatModes.lean): C255 (beta law): the mode, for shapes at least 17/16 (nearer to 1 the denominator is lost, see below).
* `C255_counts` (Props/FloatModes.lean): C255 (chi-squared, chi and Erlang laws): the modes.
* `C255_f_dist` (Props/FloatModes.lean): C255 (F law): the mode.
* `C255_inverse_normal_partial` (Props/FloatModes.lean): C255 (inverse normal law): the mode, when the mean does not exceed the shape (beyond that it is lost, see below).
* `C255_kumaraswamy_partial` (Props/FloatModes.lean): C255 (Kumaraswamy law, shapes at least 1/16 and second shape at most 16): the median, to `2^-34` (for large second shapes it is lost, see below).
* `C255_standard_deviation` (Props/FloatModes.lean): C255 (standard deviations): the provided `standard_deviation`, the square root of the variance, loses no accuracy.
* `C255_float_medians_violated` (Props/FloatModes.lean): C255 does not hold over all accepted parameters, in IEEE binary64 with correctly rounded elementary functions: (1) for every generalised Pareto law with shape at most `2^-54` the median returned is the location, below which and at which there is no probability at all; (2) for every Kumaraswamy law with second shape a power of two from `2^55` up the median returned is 0, again a point of zero probability below; (3) for every inverse normal law with shape 1 and mean a power of two from `2^30` up the mode returned is 0, which is not even within a factor of two of the mode; (4) for a beta law with shapes within two units of 1 the mode returned is 1/4 instead of 1/3.

Note: The code does not have the full property; proved negation: C255 does not hold over all accepted parameters, in IEEE binary64 with correctly rounded elementary functions: (1) for every generalised Pareto law with shape at most `2^-54` the median returned is the location, below which and at which there is no probability at all; (2) for every Kumaraswamy law with second shape a power of two from `2^55` up the median returned is 0, again a point of zero probability below; (3) for every inverse normal law with shape 1 and mean a power of two from `2^30` up the mode returned is 0, which is not even within a factor of two of the mode; (4) for a beta law with shapes within two units of 1 the mode returned is 1/4 instead of 1/3. Proved part: the mode, for shapes at least 17/16 (nearer to 1 the denominator is lost, see below). | the mode, when the mean does not exceed the shape (beyond that it is lost, see below). | the median, to `2^-34` (for large second shapes it is lost, see below).

## C256 Accuracy of floating-point entropies (partial)

In rounded IEEE arithmetic with accurate elementary functions, the Shannon entropy returned by a continuous law is a finite number within 2^-40 (2^-38 for the generalised extreme value law) of the differential entropy of the law. *For all parameters accepted by the constructors of ordinary size (2^-60 to 2^60; shapes bounded as stated), every correctly rounded arithmetic satisfying the accuracy contract (binary64 for the violation).*

* `C256_exponential` (Props/FloatEntropy.lean): C256 (exponential law): the entropy.
* `C256_logistic` (Props/FloatEntropy.lean): C256 (logistic law): the entropy.
* `C256_laplace` (Props/FloatEntropy.lean): C256 (Laplace law): the entropy.
* `C256_cauchy` (Props/FloatEntropy.lean): C256 (Cauchy law): the entropy.
* `C256_uniform` (Props/FloatEntropy.lean): C256 (continuous uniform law): the entropy.
* `C256_gpd` (Props/FloatEntropy.lean): C256 (generalised Pareto law, shape at most `2^10`): the entropy.
* `C256_pareto_partial` (Props/FloatEntropy.lean): C256 (Pareto law, shape at least 1/256): the entropy.
* `C256_normal` (Props/FloatEntropy.lean): C256 (normal law): the entropy.
* `C256_gumbel` (Props/FloatEntropy.lean): C256 (Gumbel law): the entropy.
* `C256_rayleigh` (Props/FloatEntropy.lean): C256 (Rayleigh law): the entropy.
* `C256_levy` (Props/FloatEntropy.lean): C256 (Lévy law): the entropy.
* `C256_gev` (Props/FloatEntropy.lean): C256 (generalised extreme value law, shape at most `2^10`): the entropy.
* `C256_weibull` (Props/FloatEntropy.lean): C256 (Weibull law, shape at least 1/16): the entropy.
* `C256_frechet` (Props/FloatEntropy.lean): C256 (Fréchet law, shape at least 1/16): the entropy.
* `C256_pareto_violated` (Props/FloatEntropy.lean): C256 does not hold over all accepted parameters, in IEEE binary64 with correctly rounded elementary functions: the Pareto entropy is taken as the logarithm of `xm/alpha * exp(1 + 1/alpha)`, which overflows for every shape up to 1/1024: `+inf` is returned although the entropy is a finite number.

Note: The code does not have the full property; proved negation: C256 does not hold over all accepted parameters, in IEEE binary64 with correctly rounded elementary functions: the Pareto entropy is taken as the logarithm of `xm/alpha * exp(1 + 1/alpha)`, which overflows for every shape up to 1/1024: `+inf` is returned although the entropy is a finite number. Proved part: the entropy.

## C257 Quantile functions in floating point (partial)

In rounded IEEE arithmetic a larger probability never gives a smaller quantile, no quantile is NaN, every quantile lies in the support of the law, the quantile of one half is the median, and the quartiles, median and fences derived from it are in order. *For every pair of valid probabilities (for the normal law strictly between 0 and 1), every parameter accepted by the constructors of the uniform, discrete uniform, exponential, Cauchy and normal laws; every lawful rounding, tan and norm_inv monotone.*

* `C257_uniform` (Props/FloatQuantile.lean): C257 (uniform law): for every bounds the constructor accepts, `quantile` is monotone over every valid probability, stays inside the support, and reaches exactly both ends of it.
* `C257_uniform_median` (Props/FloatQuantile.lean): C257 (uniform law): `quantile` at one half and `median` are the same number.
* `C257_exponential_partial` (Props/FloatQuantile.lean): C257 (exponential law, what holds): `quantile` is monotone over the valid probabilities.
* `C257_exponential_violated` (Props/FloatQuantile.lean): C257 (violated): for every rate and every probability the quantile of an exponential law is not positive, so below the median of the law, whereas the support is `[0, ∞)`; for a probability below one half it is strictly negative, outside the support (rates up to `2^1000`, so that the quotient does not underflow).
* `C257_uniform_int_partial` (Props/FloatQuantile.lean): C257 (discrete uniform law, what holds): on every law the constructor accepts `quantile` returns without panicking, is monotone over every valid probability, and is at least the lower bound (as an f64).
* `C257_cauchy` (Props/FloatQuantile.lean): C257 (Cauchy law): when the rounded constants `π` and `π/2` are below the real ones (as in binary64), `quantile` is monotone over every valid probability, 0 and 1 included, and never NaN.
* `C257_cauchy_median` (Props/FloatQuantile.lean): C257 (Cauchy law): `quantile` at one half is exactly `median`.
* `C257_normal` (Props/FloatQuantile.lean): C257 (normal law): for every mean and every variance (every positive f64 is at least `2^-1074`), `quantile` is monotone over the probabilities strictly between 0 and 1 and never NaN there.
* `C257_normal_median` (Props/FloatQuantile.lean): C257 (normal law): `quantile` at one half is exactly the mean.
* `C257_summary` (Props/FloatQuantile.lean): C257: a quantile function monotone inside `(0,1)` whose outer quartiles are f64 numbers gives an ordered five-number summary, fences included.
* `C257_uniform_summary` (Props/FloatQuantile.lean): C257 (uniform law): the quartiles, median and fences of every uniform law whose bounds and width are below `2^1000` are ordered.
* `C257_cauchy_binary64` (Props/FloatQuantile.lean): C257: in binary64 the Cauchy quantile function is monotone over every valid probability and never NaN, for every location and scale
* `C257_uniform_int_violated` (Props/FloatQuantile.lean): C257 (violated, binary64): for every discrete uniform law whose bounds are below `2^52` in magnitude, `quantile(1)` is one more than the largest value of the support.

Note: The code does not have the full property; proved negation: for every rate and every probability the quantile of an exponential law is not positive, so below the median of the law, whereas the support is `[0, ∞)`; for a probability below one half it is strictly negative, outside the support (rates up to `2^1000`, so that the quotient does not underflow). | for every discrete uniform law whose bounds are below `2^52` in magnitude, `quantile(1)` is one more than the largest value of the support. Proved part: `quantile` is monotone over the valid probabilities. | on every law the constructor accepts `quantile` returns without panicking, is monotone over every valid probability, and is at least the lower bound (as an f64).

## C258 Maximum-likelihood fits in floating point (partial)

In rounded IEEE arithmetic the maximum-likelihood fit of a sample succeeds exactly when the sample determines a law, and its parameters are the fraction of successes (Bernoulli), the sample mean (Poisson), and the empirical mean and variance (normal), up to the rounding of the sums. *For all samples of up to 2^50 (2^53 for the discrete laws) observations of any size, every correctly rounded arithmetic (binary64 for the violations).*

* `C258_bernoulli` (Props/FloatFit.lean): C258: the Bernoulli fit of every non-empty sample of up to 2^53 outcomes succeeds; the fitted probability is a number in [0,1], within one rounding of the fraction of successes, and is 0 or 1 exactly when no or every outcome is a success.
* `C258_bernoulli_empty` (Props/FloatFit.lean): C258: an empty Bernoulli sample is refused.
* `C258_poisson` (Props/FloatFit.lean): C258: the Poisson fit of a sample of up to 2^53 counts with total up to 2^53 succeeds exactly when the total is positive, and the fitted rate is within one rounding of the sample mean.
* `C258_normal_partial` (Props/FloatFit.lean): C258 (what holds): for every sample of up to 2^50 values of magnitude up to `A` (between 2^-400 and 2^400) whose empirical variance is not within the rounding error of zero, the normal fit succeeds; the fitted mean and variance are within `(n+2)A/2^52` and `12(n+3)A²/2^52` of the empirical ones.
* `C258_normal_constant_violated` (Props/FloatFit.lean): C258 (violated), in binary64: (1) the fit of three equal samples, which has no variance, is accepted for every value `k/2^j` with `k ≡ 2 mod 4` and `2^54/3 ≤ k < 2^53` (an eighth of all significands above 2^54/3), with variance `4^-j` and a mean next to the samples;
* `C258_normal_tiny_violated` (Props/FloatFit.lean): C258 (violated), in binary64: (2) every sample of values below 2^-600 is refused, however different they are: the squared residuals underflow to zero;
* `C258_normal_overflow_violated` (Props/FloatFit.lean): C258 (violated), in binary64: (3) two or more finite samples of 2^1023 and above overflow: the fit is accepted with infinite mean and infinite variance.

Note: The code does not have the full property; proved negation: C258 (violated), in binary64: (1) the fit of three equal samples, which has no variance, is accepted for every value `k/2^j` with `k ≡ 2 mod 4` and `2^54/3 ≤ k < 2^53` (an eighth of all significands above 2^54/3), with variance `4^-j` and a mean next to the samples; | C258 (violated), in binary64: (2) every sample of values below 2^-600 is refused, however different they are: the squared residuals underflow to zero; | C258 (violated), in binary64: (3) two or more finite samples of 2^1023 and above overflow: the fit is accepted with infinite mean and infinite variance. Proved part: for every sample of up to 2^50 values of magnitude up to `A` (between 2^-400 and 2^400) whose empirical variance is not within the rounding error of zero, the normal fit succeeds; the fitted mean and variance are within `(n+2)A/2^52` and `12(n+3)A²/2^52` of the empirical ones.

## C259 Floating-point densities are never negative (partial)

In rounded IEEE arithmetic pdf(x) is never a negative number (nor minus infinity) at any f64 x of the support, signed zeros and infinities included: it may be NaN or overflow to +inf, but not negative. *For all parameters accepted by the constructors of Cauchy, Logistic, Gumbel, Cosine, Rayleigh, Chi, ChiSq, Levy, FDist, InvNormal, Frechet, Gamma, Weibull, Beta, Kumaraswamy, BetaPrime, InvGamma, Pareto, StudentT, Erlang, GeneralisedExtremeValue, Triangular and Arcsine; all f64 arguments; every lawful rounding with special functions that are non-negative on non-negative arguments.*

* `C259_whole_line` (Props/FloatPdf3.lean): C259: the computed Cauchy, Logistic and Gumbel densities are never negative, whatever the argument.
* `C259_cosine` (Props/FloatPdf3.lean): C259: the computed cosine density is never negative, whatever the argument.
* `C259_rayleigh` (Props/FloatPdf3.lean): C259: Rayleigh, at every non-negative argument (`-0` and `+inf` included).
* `C259_chi_chi_sq` (Props/FloatPdf3.lean): C259: Chi and ChiSq, at every non-negative argument (`-0` and `+inf` included).
* `C259_levy` (Props/FloatPdf3.lean): C259: Lévy, at every argument from the location on.
* `C259_f_dist` (Props/FloatPdf3.lean): C259: F-distribution, at every non-negative argument (`-0` and `+inf` included).
* `C259_inv_normal` (Props/FloatPdf3.lean): C259: inverse normal, at every non-negative argument (`-0` and `+inf` included).
* `C259_frechet_partial` (Props/FloatPdf3.lean): C259 (Fréchet, except at `-0`).
* `C259_gamma_weibull_partial` (Props/FloatPdf3.lean): C259 (Gamma, Weibull): at every non-negative argument, except at `-0` when the exponent `shape - 1` rounds to -1.
* `C259_beta_kumaraswamy_partial` (Props/FloatPdf3.lean): C259 (Beta, Kumaraswamy): at every argument of [0,1], except at `-0` when the exponent `shape - 1` rounds to -1.
* `C259_beta_prime_partial` (Props/FloatPdf3.lean): C259 (beta prime): at every non-negative argument, except at `-0` when the exponent `shape - 1` rounds to -1.
* `C259_inv_gamma_partial` (Props/FloatPdf3.lean): C259 (inverse Gamma): at every non-negative argument except `-0`.
* `C259_pareto_partial` (Props/FloatPdf3.lean): C259 (Pareto with a positive scale): at every argument.
* `C259_student_partial` (Props/FloatPdf3.lean): C259 (Student with positive degrees of freedom): at every argument.
* `C259_erlang` (Props/FloatPdf3.lean): C259: Erlang, wherever it returns.
* `C259_gev_partial` (Props/FloatPdf3.lean): C259 (generalised extreme value): wherever `1 + zeta z` is positive.
* `C259_triangular` (Props/FloatPdf3.lean): C259: triangular, at every argument.
* `C259_arcsine_partial` (Props/FloatPdf3.lean): C259 (arcsine): at every argument of the support except `-0` (the upper end not `-0` either).
* `C259_arcsine_violated` (Props/FloatPdf3.lean): C259 (violated): the computed density of every arcsine law that starts at 0 is minus infinity at `-0`.
* `C259_inv_gamma_violated` (Props/FloatPdf3.lean): C259 (violated): for every inverse Gamma law with an even shape 2n the computed density at `-0` is minus infinity (while no factor overflows).
* `C259_weibull_violated` (Props/FloatPdf3.lean): C259 (violated): for every Weibull law whose shape `k` is so small that `k - 1` rounds to -1, the computed density at `-0` is minus infinity.
* `C259_kumaraswamy_violated` (Props/FloatPdf3.lean): C259 (violated): for every Kumaraswamy law whose first shape is so small that `a - 1` rounds to -1, the computed density at `-0` is minus infinity.
* `C259_pareto_violated` (Props/FloatPdf3.lean): C259 (violated): a Pareto law with scale -1 and an even shape is accepted; its computed density at -1 is negative.

Note: The code does not have the full property; proved negation: the computed density of every arcsine law that starts at 0 is minus infinity at `-0`. | for every inverse Gamma law with an even shape 2n the computed density at `-0` is minus infinity (while no factor overflows). | for every Weibull law whose shape `k` is so small that `k - 1` rounds to -1, the computed density at `-0` is minus infinity. | for every Kumaraswamy law whose first shape is so small that `a - 1` rounds to -1, the computed density at `-0` is minus infinity. | a Pareto law with scale -1 and an even shape is accepted; its computed density at -1 is negative. Proved part: C259 (Fréchet, except at `-0`). | at every non-negative argument, except at `-0` when the exponent `shape - 1` rounds to -1. | at every argument of [0,1], except at `-0` when the exponent `shape - 1` rounds to -1. | at every non-negative argument, except at `-0` when the exponent `shape - 1` rounds to -1. | at every non-negative argument except `-0`. | at every argument. | at every argument. | wherever `1 + zeta z` is positive. | at every argument of the support except `-0` (the upper end not `-0` either).

## C260 Accuracy of multivariate moments in floating point (partial)

In rounded IEEE arithmetic mean, variance, covariance and correlation of the Dirichlet, multinomial and bivariate normal laws are within a small relative error of the moments of the law (for the Dirichlet law the error grows linearly with the dimension). *For all concentrations, weights and variances between 2^-60 and 2^60, all trial counts below 2^64, every dimension up to 100000, every pair of components.*

* `C260_dirichlet_partial` (Props/FloatMulti.lean): C260 (Dirichlet law, dimension up to 100000): each `mean` is within relative error `(m+3)·2^-52` and each off-diagonal `covariance` within `(3m+9)·2^-52` of the moment of the law; `variance` and the diagonal of `covariance` are within `(5m+12)·2^-52` on the scale `mean / (1 + Σα)` (a relative bound fails: see the violation below).
* `C260_multinomial` (Props/FloatMulti.lean): C260 (multinomial law): mean, variance, covariance are within relative error `2^-46` of the moments of the law, and each correlation within `2^-46` of covariance over standard deviations, for weights of ordinary size in every category involved.
* `C260_bivariate_normal` (Props/FloatMulti.lean): C260 (bivariate normal law): `mean`, `variance` and `correlation` are the stored parameters; the cross-covariance is within relative error `2^-46` of `ρ σ₁ σ₂`, and exactly zero for `ρ = 0`.
* `C260_dirichlet_variance_violated` (Props/FloatMulti.lean): C260 violated: in binary64 the variance of a Dirichlet component with concentration `2^k` (`60 ≤ k ≤ 300`) beside a component with concentration 1 is computed as zero, by `variance` and by `covariance`, although the component is not constant.

Note: The code does not have the full property; proved negation: C260 violated: in binary64 the variance of a Dirichlet component with concentration `2^k` (`60 ≤ k ≤ 300`) beside a component with concentration 1 is computed as zero, by `variance` and by `covariance`, although the component is not constant. Proved part: each `mean` is within relative error `(m+3)·2^-52` and each off-diagonal `covariance` within `(3m+9)·2^-52` of the moment of the law; `variance` and the diagonal of `covariance` are within `(5m+12)·2^-52` on the scale `mean / (1 + Σα)` (a relative bound fails: see the violation below).

## C261 Accuracy of the Fisher information in floating point (partial)

In rounded IEEE arithmetic fisher_information is within relative error 2^-46 of the Fisher information of the family, with exact zeros off the diagonal where the parameters are orthogonal. *For all parameters between 2^-60 and 2^60 (and 1 - p likewise) of the normal, Bernoulli, binomial, Pareto, exponential and Poisson laws.*

* `C261_normal` (Props/FloatMulti.lean): C261 (normal law): the Fisher information matrix in (mean, variance) has diagonal within relative error `2^-46` and an exactly zero off-diagonal.
* `C261_bernoulli` (Props/FloatMulti.lean): C261 (Bernoulli law).
* `C261_binomial` (Props/FloatMulti.lean): C261 (binomial law).
* `C261_pareto_partial` (Props/FloatMulti.lean): C261 (Pareto law): the entry of the shape parameter; the rest of the matrix is wrong (C110 and below).
* `C261_pareto_violated` (Props/FloatMulti.lean): C261 violated (Pareto law): in every floating-point implementation the off-diagonal entries are computed as a negative number instead of zero, and the scale entry is off by the factor `α`.
* `C261_exponential_poisson_violated` (Props/FloatMulti.lean): C261 violated (exponential and Poisson laws): the returned `λ²` and `λ` are not the information `1/λ²` and `1/λ`, whatever the rounding.

Note: The code does not have the full property; proved negation: C261 violated (Pareto law): in every floating-point implementation the off-diagonal entries are computed as a negative number instead of zero, and the scale entry is off by the factor `α`. | C261 violated (exponential and Poisson laws): the returned `λ²` and `λ` are not the information `1/λ²` and `1/λ`, whatever the rounding. Proved part: the entry of the shape parameter; the rest of the matrix is wrong (C110 and below).

## C262 Discrete distribution functions in floating point (partial)

In rounded IEEE arithmetic the distribution functions of the categorical, geometric and binomial laws return probabilities, the categorical one is non-decreasing and ends at 1 up to the tolerance of the check, and those of the geometric and binomial laws respond monotonically to the success probability. *For all accepted weight vectors (up to 2^53 entries) and success probabilities, all arguments of the support, every correctly rounded arithmetic.*

* `C262_categorical_partial` (Props/FloatDiscrete.lean): C262 categorical (in part): for every accepted weight vector the distribution function is nowhere NaN, starts at 0, is non-decreasing, ends within 1.0002e-5 of 1, never exceeds that, and is within `i 2^-51` of the sum of the first `i` weights.
* `C262_geometric` (Props/FloatDiscrete.lean): C262 geometric: below 2^31 - 1 failures the distribution function is a probability, and it is non-decreasing in the success probability.
* `C262_binomial` (Props/FloatDiscrete.lean): C262 binomial: for counts below the number of trials the distribution function is a probability, and it is non-increasing in the success probability.
* `C262_categorical_violated` (Props/FloatDiscrete.lean): C262 categorical (violated): the tolerance of the check lets the distribution function exceed 1: whatever the rounding, for the accepted weights `1, m 2^-52` with `1 ≤ m ≤ 2^35` every value from index 2 on is `1 + m 2^-52`, which is not a probability.

Note: The code does not have the full property; proved negation: C262 categorical (violated): the tolerance of the check lets the distribution function exceed 1: whatever the rounding, for the accepted weights `1, m 2^-52` with `1 ≤ m ≤ 2^35` every value from index 2 on is `1 + m 2^-52`, which is not a probability. Proved part: C262 categorical (in part): for every accepted weight vector the distribution function is nowhere NaN, starts at 0, is non-decreasing, ends within 1.0002e-5 of 1, never exceeds that, and is within `i 2^-51` of the sum of the first `i` weights.

## C263 Convolutions in floating point (partial)

In rounded IEEE arithmetic the convolution of any number of laws, formed one at a time or by convolve_many, has the summed parameters up to n units in the last place whatever the order and grouping, and is a law its constructor accepts. *For all accepted normal, Cauchy, Poisson and Gamma laws, lists of any length up to 2^50, every correctly rounded arithmetic.*

* `C263_normal` (Props/FloatConv.lean): C263 normal: the convolution of any number of accepted normal laws, however it is formed, succeeds, is a law the constructor accepts, its mean is right up to `n (Σ|μ| 2^-52 + 2^-1074)` and its variance up to a relative error of `n 2^-51`.
* `C263_cauchy` (Props/FloatConv.lean): C263 Cauchy: the same for the location and the scale.
* `C263_poisson` (Props/FloatConv.lean): C263 Poisson: the rate of the sum of any number of accepted Poisson laws is right up to a relative error of `n 2^-51`, and is accepted.
* `C263_poisson_overflow_violated` (Props/FloatConv.lean): C263 (violated) overflow: two accepted Poisson laws whose rates add up to 2^1024 or more are convolved into a law of infinite rate, without an error.
* `C263_normal_overflow_violated` (Props/FloatConv.lean): C263 (violated) overflow: the same for the means of normal laws.
* `C263_poisson_grouping_violated` (Props/FloatConv.lean): C263 (violated) grouping: convolving a Poisson law of rate 2^n with two of rate 2^(n-53) gives different laws according to the grouping: one at a time, both are lost.
* `C263_gamma_absorbs_violated` (Props/FloatConv.lean): C263 (violated) absorption: adding an exponential variable to a Gamma law of the same rate and shape 2^n, n ≥ 60, gives back the same law.

Note: The code does not have the full property; proved negation: C263 (violated) overflow: two accepted Poisson laws whose rates add up to 2^1024 or more are convolved into a law of infinite rate, without an error. | C263 (violated) overflow: the same for the means of normal laws. | C263 (violated) grouping: convolving a Poisson law of rate 2^n with two of rate 2^(n-53) gives different laws according to the grouping: one at a time, both are lost. | C263 (violated) absorption: adding an exponential variable to a Gamma law of the same rate and shape 2^n, n ≥ 60, gives back the same law.

## C264 Functions of a probability (proved)

ln, log2, powf and powi of a valid probability are the logarithms and powers of its value (minus infinity for the logarithm of 0); in rounded arithmetic the logarithm is never NaN or positive, non-negative powers are probabilities, all three grow with the probability, and a list of probabilities sums to the sum of the values. *For all valid probabilities, all exponents, all lists of probabilities, exact arithmetic and every correctly rounded arithmetic.*

* `C264_values` (Props/ProbFns.lean): C264: the logarithms and powers of a probability are those of its value: for a positive one, natural and binary logarithm, any real power and any integer power; a zero one has logarithm minus infinity, positive powers 0.
* `C264_sum` (Props/ProbFns.lean): C264: the sum of a list of probabilities, as a number, is the sum of their values.
* `C264_powi` (Props/ProbFns.lean): C264: whatever the rounding, an integer power `n ≥ 0` of a probability is a probability, and grows with it.
* `C264_sum_float` (Props/ProbFns.lean): C264: the sum of up to 2^53 valid probabilities is a number between 0 and their count; while it stays below 2 it is within `n 2^-51` of the true sum.
* `C264_sum_mono` (Props/ProbFns.lean): C264: replacing probabilities by larger ones never makes the sum smaller.
* `C264_powf` (Props/ProbFns.lean): C264: whatever the rounding, a power `e ≥ 0` of a probability (plus infinity included) is a probability; for finite `e` it grows with the probability.
* `C264_ln` (Props/ProbFns.lean): C264: the natural logarithm of a probability is never NaN, never positive, and grows with it.

## C265 Log-likelihoods in floating point (partial)

In rounded IEEE arithmetic the Bernoulli log-likelihood of any data is never NaN or positive and, like the Poisson one, lies within a small multiple of the number of observations of the true log-likelihood. *For all accepted success probabilities and rates, data of any length up to 2^50 (Poisson 2^20).*

* `C265_bernoulli_range` (Props/FloatLik.lean): C265 Bernoulli: whatever the rounding, the log-likelihood of any data is never NaN and never positive, and the likelihood is a probability.
* `C265_bernoulli` (Props/FloatLik.lean): C265 Bernoulli: the log-likelihood of `n` observations is within `n (n + 2) (B + 1) 2^-50` of the true one, where `B` bounds the logarithms of the two probabilities.
* `C265_poisson_partial` (Props/FloatLik.lean): C265 Poisson: for rates in [2^-20, 2^20], and up to 2^20 observations below 2^20, the log-likelihood is within `n (3e-7 + n 2^-25)` of the true one. Missing: larger rates and observations, see `C265_poisson_violated`.
* `C265_poisson_violated` (Props/FloatLik.lean): C265 is violated by the Poisson law: with the rate 2^60 + 3840 the log-likelihood of the single observation `k`, for each of the 200 outcomes 2^60 + 4252 ≤ k < 2^60 + 4452, is 4352: the likelihood is plus infinity.

Note: The code does not have the full property; proved negation: C265 is violated by the Poisson law: with the rate 2^60 + 3840 the log-likelihood of the single observation `k`, for each of the 200 outcomes 2^60 + 4252 ≤ k < 2^60 + 4452, is 4352: the likelihood is plus infinity. Proved part: C265 Poisson: for rates in [2^-20, 2^20], and up to 2^20 observations below 2^20, the log-likelihood is within `n (3e-7 + n 2^-25)` of the true one. Missing: larger rates and observations, see `C265_poisson_violated`.

## C266 Accuracy of floating-point distribution functions, continued (partial)

In rounded IEEE arithmetic with accurate elementary functions, the value returned by the cdf of the Kumaraswamy, uniform, generalised Pareto and generalised extreme value laws differs from the real distribution function by at most an explicit bound: (b + 1) 2^-49, 2^-49 + |l|/w 2^-52, (1 + 1/zeta) 2^-47 and (1 + 1/(zeta delta)) 2^-46 respectively. *For all parameters accepted by the constructors in the stated ranges (second Kumaraswamy shape at least 1, with a weaker bound below; shapes from 2^-40 to 2^60), every f64 argument of the stated set, every correctly rounded arithmetic and accurate library functions.*

* `C266_kumaraswamy_partial` (Props/FloatAccuracy4.lean): C266 (part): the Kumaraswamy distribution function with second shape `b >= 1` is within `(b + 1) 2^-49` of the real one at every f64 in `[0, 1]`. For `b < 1` it is not: see `C266_kumaraswamy_violated` and `C266_kumaraswamy_small_partial`
* `C266_kumaraswamy_small_partial` (Props/FloatAccuracy4.lean): C266 (part): for `b <= 1` the error of the Kumaraswamy distribution function is at most `2^(-49 b) + 2^-49`
* `C266_kumaraswamy_violated` (Props/FloatAccuracy4.lean): C266 (violation): a Kumaraswamy law with shapes 2^-60 and 2^-10 has its distribution function at 1/2 equal to 1, because `1 - x^a` cancels to zero; the real one is below 1/10
* `C266_uniform_partial` (Props/FloatAccuracy5.lean): C266 (part): the uniform distribution function is within `2^-49 + |l| / w 2^-52` of the real one at every finite f64, where `l` is the lower bound and `w` the width: the error of the upper bound `l + w`, which the code rounds, is relative to the bound and not to the width
* `C266_gpd_partial` (Props/FloatAccuracy6.lean): C266 (part): the generalised Pareto distribution function is within `(1 + 1 / zeta) 2^-47` of the real one from the location up to 2^100 scales above it, for shapes between 2^-40 and 2^60. Tiny shapes lose all accuracy: see `C266_gpd_violated`
* `C266_gev_partial` (Props/FloatAccuracy6.lean): C266 (part): for shapes from 2^-23 to 2^60 the generalised extreme value distribution function is within `(1 + 1 / (zeta δ)) 2^-46` of the real one wherever `1 + zeta (x - mu) / sigma` is at least `δ` (and `x` within 2^100 scales of the location): near the lower end of the support the cancellation in that sum is amplified. Below the threshold 10^-7 on the shape the code computes another distribution function: see `C266_gev_violated`
* `C266_gev_small_partial` (Props/FloatAccuracy6.lean): C266 (part): for shapes below the threshold 10^-7 (up to 2^-24), where the code uses the Gumbel distribution function instead, the result is within `5 zeta + 2^-47` of the real one wherever `|zeta (x - mu) / sigma| <= 1/2`: the approximation costs as much as the size of the shape
* `C266_uniform_violated` (Props/FloatAccuracy6.lean): C266 (violation): the uniform law on an interval of width 2^-60 starting at 1 has its distribution function at 1 equal to 1 (the upper bound rounds to the lower one); the real one is 0
* `C266_gpd_violated` (Props/FloatAccuracy6.lean): C266 (violation): a generalised Pareto law with shape 2^-60 has its distribution function at 1 equal to 0, because `1 + zeta` rounds to 1; the real one is above 3/5
* `C266_gev_violated` (Props/FloatAccuracy6.lean): C266 (violation): a generalised extreme value law with shape 2^-24 has its distribution function at 1 off by more than 2^-31, because shapes below 10^-7 are treated as zero

Note: The code does not have the full property; proved negation: a Kumaraswamy law with shapes 2^-60 and 2^-10 has its distribution function at 1/2 equal to 1, because `1 - x^a` cancels to zero; the real one is below 1/10 | the uniform law on an interval of width 2^-60 starting at 1 has its distribution function at 1 equal to 1 (the upper bound rounds to the lower one); the real one is 0 | a generalised Pareto law with shape 2^-60 has its distribution function at 1 equal to 0, because `1 + zeta` rounds to 1; the real one is above 3/5 | a generalised extreme value law with shape 2^-24 has its distribution function at 1 off by more than 2^-31, because shapes below 10^-7 are treated as zero Proved part: the Kumaraswamy distribution function with second shape `b >= 1` is within `(b + 1) 2^-49` of the real one at every f64 in `[0, 1]`. For `b < 1` it is not: see `C266_kumaraswamy_violated` and `C266_kumaraswamy_small_partial` | for `b <= 1` the error of the Kumaraswamy distribution function is at most `2^(-49 b) + 2^-49` | the uniform distribution function is within `2^-49 + |l| / w 2^-52` of the real one at every finite f64, where `l` is the lower bound and `w` the width: the error of the upper bound `l + w`, which the code rounds, is relative to the bound and not to the width | the generalised Pareto distribution function is within `(1 + 1 / zeta) 2^-47` of the real one from the location up to 2^100 scales above it, for shapes between 2^-40 and 2^60. Tiny shapes lose all accuracy: see `C266_gpd_violated` | for shapes from 2^-23 to 2^60 the generalised extreme value distribution function is within `(1 + 1 / (zeta δ)) 2^-46` of the real one wherever `1 + zeta (x - mu) / sigma` is at least `δ` (and `x` within 2^100 scales of the location): near the lower end of the support the cancellation in that sum is amplified. Below the threshold 10^-7 on the shape the code computes another distribution function: see `C266_gev_violated` | for shapes below the threshold 10^-7 (up to 2^-24), where the code uses the Gumbel distribution function instead, the result is within `5 zeta + 2^-47` of the real one wherever `|zeta (x - mu) / sigma| <= 1/2`: the approximation costs as much as the size of the shape

## C267 Accuracy of the triangular distribution function in floating point (partial)

In rounded IEEE arithmetic the value returned by the triangular cdf differs from the real distribution function of the law with lower corner m and legs u, v by at most 2^-48 + |m|/(u + v) 2^-50. *For all accepted parameters with legs from 2^-150 to 2^150 not absorbed by the corners (|m| + u at most 2^50 v, |m| at most 2^50 u), every f64 argument, every correctly rounded arithmetic.*

* `C267_triangular_partial` (Props/FloatAccuracy7.lean): C267 (part): the triangular distribution function, with lower corner `m` and legs `u`, `v`, is within `2^-48 + |m| / (u + v) 2^-50` of the real one at every finite f64: the code places the upper corners at rounded sums, whose error is relative to the corner and not to the width
* `C267_triangular_violated` (Props/FloatAccuracy7.lean): C267 (violation): the triangular law on `[2^53, 2^53 + 3]` with peak at `2^53 + 1/2` reaches 1 at `2^53 + 2`, because the code's upper corner rounds there; the real distribution function is `13/15`

Note: The code does not have the full property; proved negation: the triangular law on `[2^53, 2^53 + 3]` with peak at `2^53 + 1/2` reaches 1 at `2^53 + 2`, because the code's upper corner rounds there; the real distribution function is `13/15` Proved part: the triangular distribution function, with lower corner `m` and legs `u`, `v`, is within `2^-48 + |m| / (u + v) 2^-50` of the real one at every finite f64: the code places the upper corners at rounded sums, whose error is relative to the corner and not to the width

## C268 The logarithms of the Erlang law (partial)

log_pdf and log_cdf are the logarithms of the density and the distribution function of the Erlang law; pdf and cdf are their exponentials, at every f64 and panicking exactly when they do. *For all accepted shapes and rates, all f64 arguments, both build profiles.*

* `C268_erlang_defaults` (Props/ErlangLogs.lean): C268: at every f64, in both profiles, `pdf` returns the exponential of what `log_pdf` returns and panics exactly when it does; the same for `cdf` and `log_cdf`
* `C268_erlang_log_pdf_violated` (Props/ErlangLogs.lean): C268 (violation, every k ≥ 2): at every `x > 0`, `log_pdf` is above the logarithm of the Erlang density by `(k - 1) (x - ln x)` up to `1e-6` (the code multiplies `k - 1` by `x` instead of `ln x`), which is at least `k - 1`
* `C268_erlang_log_pdf_partial` (Props/ErlangLogs.lean): C268 (what holds): with one stage `log_pdf` is the logarithm of the exponential density
* `C268_erlang_log_cdf_violated` (Props/ErlangLogs.lean): C268 (violation, every k ≥ 2): at every `x > 0`, `log_cdf` is below the logarithm of the distribution function by `ln k!` up to `1e-6` (the regularised incomplete gamma function is divided by `k!` once more)
* `C268_erlang_log_cdf_partial` (Props/ErlangLogs.lean): C268 (what holds): with one stage `log_cdf` is the logarithm of the exponential distribution function

Note: The code does not have the full property; proved negation: at every `x > 0`, `log_pdf` is above the logarithm of the Erlang density by `(k - 1) (x - ln x)` up to `1e-6` (the code multiplies `k - 1` by `x` instead of `ln x`), which is at least `k - 1` | at every `x > 0`, `log_cdf` is below the logarithm of the distribution function by `ln k!` up to `1e-6` (the regularised incomplete gamma function is divided by `k!` once more) Proved part: with one stage `log_pdf` is the logarithm of the exponential density | with one stage `log_cdf` is the logarithm of the exponential distribution function

## C269 Relative accuracy of floating-point densities (proved)

In rounded IEEE arithmetic with accurate elementary functions, the value returned by the pdf of the Pareto, Rayleigh, Weibull, Frechet, Kumaraswamy, Levy, inverse normal and generalised Pareto laws is within a relative 2^-35 or better (2^-43 for the Pareto law) of the real density, however small the density is, as long as the powers and exponentials it multiplies stay within the stated range. *For all accepted parameters and all arguments of ordinary size (2^-60 to 2^60) for which the logarithm of each factor of the density is at most 64 (Pareto 128), with the shapes bounded as stated in each theorem; every correctly rounded arithmetic and accurate library functions.*

* `C269_pareto` (Props/FloatDensity3.lean): C269 (Pareto): `a x_m^a / x^(a+1)` to a relative `2^-43`
* `C269_rayleigh` (Props/FloatDensity3.lean): C269 (Rayleigh): `x / s² exp(-x²/(2 s²))` to a relative `2^-42`
* `C269_weibull` (Props/FloatDensity3.lean): C269 (Weibull, shapes up to 64 other than 1): to a relative `2^-35`
* `C269_frechet` (Props/FloatDensity3.lean): C269 (Fréchet, shapes up to 63): to a relative `2^-42`
* `C269_kumaraswamy` (Props/FloatDensity3.lean): C269 (Kumaraswamy, second shape up to 64, shapes other than 1, arguments with `x^a ≤ 1/2`): to a relative `2^-39`
* `C269_levy` (Props/FloatDensity3.lean): C269 (Lévy): to a relative `2^-42`
* `C269_inverse_normal` (Props/FloatDensity3.lean): C269 (inverse normal): to a relative `2^-41`
* `C269_gpd` (Props/FloatDensity3.lean): C269 (generalised Pareto, shapes from 1/32): to a relative `2^-39`

## C270 Accuracy of the raised cosine and arcsine distribution functions in floating point (partial)

In rounded IEEE arithmetic with accurate trigonometric functions the value returned by the raised cosine cdf is within 2^-48, and the one returned by the arcsine cdf within 2^-47, of the real distribution function. *For all accepted parameters and all f64 arguments, in every correctly rounded arithmetic with accurate sin and asin (instances: exact arithmetic and binary64).*

* `C270_cosine_partial` (Props/FloatAccuracy8.lean): C270 (part): the raised cosine distribution function is within 2^-48 of the real one at every f64 of the support
* `C270_arcsine_partial` (Props/FloatAccuracy8.lean): C270 (part): the arcsine distribution function is within 2^-25 of the real one at every f64 of the support (half the digits: near the upper end the arcsine of a square root multiplies the rounding error of `x - a` by its slope, which is unbounded)
* `C270_cosine_violated` (Props/FloatAccuracy8.lean): C270 (violation): between two and four scales above the centre — beyond the support, where the distribution function is 1 — the computed raised cosine distribution function is more than 1/4 away from it, for every parameter and every such f64: it is not clamped
* `C270_arcsine_violated` (Props/FloatAccuracy8.lean): C270 (violation): half of the digits really are lost: the standard arcsine distribution function in correctly rounded binary64 is more than 2^-30 off at the largest f64 below 1

Note: The code does not have the full property; proved negation: between two and four scales above the centre — beyond the support, where the distribution function is 1 — the computed raised cosine distribution function is more than 1/4 away from it, for every parameter and every such f64: it is not clamped | half of the digits really are lost: the standard arcsine distribution function in correctly rounded binary64 is more than 2^-30 off at the largest f64 below 1 Proved part: the raised cosine distribution function is within 2^-48 of the real one at every f64 of the support | the arcsine distribution function is within 2^-25 of the real one at every f64 of the support (half the digits: near the upper end the arcsine of a square root multiplies the rounding error of `x - a` by its slope, which is unbounded)

## C271 Accuracy of mixtures in floating point (partial)

In rounded IEEE arithmetic the cdf, pdf and mean of a mixture are the weighted sums of the real values of its components up to 11/10 of the error of the worst component plus (n + 1) 2^-50 of the largest value, and its variance is within a small relative error of the variance of the mixture. *For all accepted mixtures of at most 2^30 components of any kind, all weights, all arguments, every correctly rounded arithmetic.*

* `C271_mixture` (Props/MixtureAccuracy.lean): C271: the value returned by a mixture's `cdf`, `pdf` and `mean` is the weighted sum of the real values of the components up to 11/10 of the error of the worst component plus one part in 2^50 for every component (and one more) of the largest value
* `C271_variance_partial` (Props/MixtureAccuracy.lean): C271: the variance of a mixture of at most 2^30 components with means within `L` and variances within `L²` is computed up to `(n + 2) L² 2^-47`, absolutely: it is the difference of two numbers as large as `L²`
* `C271_normals` (Props/MixtureAccuracy.lean): C271: the distribution function of a mixture of at most 2^30 normal laws is within (n + 10) 2^-50 of the weighted sum of theirs
* `C271_variance_violated` (Props/MixtureAccuracy.lean): C271 (violation): relatively, all the digits of a variance can be lost: the mixture whose only component is `Normal(2^j, 1)` has computed variance 0 in binary64 for every `j` from 27 to 500, the true one being 1

Note: The code does not have the full property; proved negation: relatively, all the digits of a variance can be lost: the mixture whose only component is `Normal(2^j, 1)` has computed variance 0 in binary64 for every `j` from 27 to 500, the true one being 1 Proved part: the variance of a mixture of at most 2^30 components with means within `L` and variances within `L²` is computed up to `(n + 2) L² 2^-47`, absolutely: it is the difference of two numbers as large as `L²`

## C272 The provided methods in floating point (proved)

In rounded IEEE arithmetic an implementor who computes one method of a pair accurately gets the other one accurate from the trait: the standard deviation is the root of the variance (and the variance its square), the excess kurtosis is three less than the kurtosis, the ccdf is the complement of the cdf, the logarithms turn relative into absolute errors and the exponentials absolute into relative ones, the distance is the root of the squared distance, and the fences follow the quartiles, each up to a few units in the last place. *For all implementations of the traits, all errors of the implemented method below the stated thresholds, all values in the stated ranges, every correctly rounded arithmetic with accurate elementary functions.*

* `C272_standard_deviation` (Props/FloatDerived.lean): C272: when only `variance` is implemented, `standard_deviation` is its square root up to one more unit in the last place
* `C272_variance` (Props/FloatDerived.lean): C272: when only `standard_deviation` is implemented, `variance` is its square, with twice the relative error and one unit
* `C272_kurtosis` (Props/FloatDerived.lean): C272: when only `excess_kurtosis` is implemented, `kurtosis` is three more
* `C272_excess_kurtosis` (Props/FloatDerived.lean): C272: when only `kurtosis` is implemented, `excess_kurtosis` is three less
* `C272_ccdf` (Props/FloatDerived.lean): C272: the default `ccdf` is the complement of `cdf` up to one rounding
* `C272_logarithms` (Props/FloatDerived.lean): C272: the default `log_pdf`, `log_pmf`, `log_cdf` and `log_likelihood` are the logarithms of `pdf`, `pmf`, `cdf` and `likelihood`: a relative error in the one is an absolute error in the other
* `C272_exponentials` (Props/FloatDerived.lean): C272: the default `pdf`, `pmf`, `cdf` and `likelihood` are the exponentials of `log_pdf`, `log_pmf`, `log_cdf` and `log_likelihood`: an absolute error in the one is a relative error in the other
* `C272_mahalanobis` (Props/FloatDerived.lean): C272: when only the squared Mahalanobis distance is implemented, the distance is its square root up to one more unit
* `C272_fences` (Props/FloatDerived.lean): C272: the interquartile range and the fences computed from accurate quartiles are accurate
* `C272_ccdf_accurate` (Props/FloatDerived.lean): C272: so the default `ccdf` of a distribution whose `cdf` is accurate is accurate too

## C273 Tail probabilities keep their relative accuracy (partial)

In rounded IEEE arithmetic ccdf(x) is within a small relative error of the probability of exceeding x, and log_ccdf(x) within a small absolute error of its logarithm, as long as that probability is an ordinary number. *For all distributions with an accurate cdf (no distribution of the crate overrides ccdf), all arguments; every correctly rounded arithmetic (binary64 for the violations).*

* `C273_tail_partial` (Props/FloatDerived.lean): C273 (part): where the tail probability is at least `2^-k`, the default `ccdf` has relative error `(n+2)·2^k` units, and the default `log_ccdf` is correspondingly accurate (see `C273_exponential_violated` for smaller tails)
* `C273_exponential_violated` (Props/FloatDerived.lean): C273 in binary64: for an exponential distribution the tail is lost far too early: at every `x` with `λ·x ≥ 40` (and no overflow is needed: up to `λ·x = 700` the true tail `exp(-λ·x)` is an ordinary number) `cdf` is exactly 1, the default `ccdf` exactly 0, and the default `log_ccdf` is `-inf` instead of `-λ·x`
* `C273_logistic_violated` (Props/FloatDerived.lean): C273 in binary64: the same for the logistic distribution, wherever the computed `x - mu` is at least forty scale units
* `C273_violated` (Props/FloatDerived.lean): C273: the full claim fails in binary64, already for the standard exponential distribution at 50

Note: The code does not have the full property; proved negation: C273 in binary64: for an exponential distribution the tail is lost far too early: at every `x` with `λ·x ≥ 40` (and no overflow is needed: up to `λ·x = 700` the true tail `exp(-λ·x)` is an ordinary number) `cdf` is exactly 1, the default `ccdf` exactly 0, and the default `log_ccdf` is `-inf` instead of `-λ·x` | C273 in binary64: the same for the logistic distribution, wherever the computed `x - mu` is at least forty scale units | the full claim fails in binary64, already for the standard exponential distribution at 50 Proved part: where the tail probability is at least `2^-k`, the default `ccdf` has relative error `(n+2)·2^k` units, and the default `log_ccdf` is correspondingly accurate (see `C273_exponential_violated` for smaller tails)

## C274 Small probabilities keep their relative accuracy (partial)

In rounded IEEE arithmetic cdf(x) is within a small relative error of the probability of not exceeding x even where that probability is small: it never collapses to zero while the probability is an ordinary number. *For all accepted parameters of ordinary size and all arguments in the stated ranges (logistic, Gumbel, Frechet and uniform laws: proved; exponential, Weibull, generalised Pareto and Kumaraswamy laws: refuted; any accurate cdf down to probabilities of 2^-k); every correctly rounded arithmetic (binary64 for the violations).*

* `C274_partial` (Props/FloatTail.lean): C274 (part): an accurate distribution function keeps some relative accuracy down to probabilities of `2^-k`
* `C274_logistic` (Props/FloatTail.lean): C274 (logistic): probabilities as small as `exp(-64)` come out to a relative `2^-43`
* `C274_gumbel` (Props/FloatTail.lean): C274 (Gumbel): probabilities as small as `exp(-64)` come out to a relative `2^-36`
* `C274_frechet` (Props/FloatTail.lean): C274 (Frechet): probabilities as small as `exp(-64)` come out to a relative `2^-42`
* `C274_uniform` (Props/FloatTail.lean): C274 (uniform): the probability of a short interval at the lower end comes out to a relative `2^-49`, however short it is
* `C274_exponential_violated` (Props/FloatTail.lean): C274 in binary64: the exponential distribution function returns exactly zero for every positive `x` with `λ·x ≤ 2^-55`, although the probability `1 - exp(-λ·x)` is positive (about `λ·x`): `1 - exp(…)` cancels, where `-exp_m1(…)` would not
* `C274_weibull_violated` (Props/FloatTail.lean): C274 in binary64: the same for the Weibull distribution function of any shape `k ≥ 1` wherever `x/λ` is between `2^-900` and `2^-57`
* `C274_gpd_violated` (Props/FloatTail.lean): C274 in binary64: the same for the generalised Pareto distribution function wherever `ζ·(x - μ)/σ` is at most `2^-56`
* `C274_kumaraswamy_violated` (Props/FloatTail.lean): C274 in binary64: the same for the Kumaraswamy distribution function wherever `x^a` is at most `2^-56`
* `C274_violated` (Props/FloatTail.lean): C274: the full claim fails in binary64

Note: The code does not have the full property; proved negation: C274 in binary64: the exponential distribution function returns exactly zero for every positive `x` with `λ·x ≤ 2^-55`, although the probability `1 - exp(-λ·x)` is positive (about `λ·x`): `1 - exp(…)` cancels, where `-exp_m1(…)` would not | C274 in binary64: the same for the Weibull distribution function of any shape `k ≥ 1` wherever `x/λ` is between `2^-900` and `2^-57` | C274 in binary64: the same for the generalised Pareto distribution function wherever `ζ·(x - μ)/σ` is at most `2^-56` | C274 in binary64: the same for the Kumaraswamy distribution function wherever `x^a` is at most `2^-56` | the full claim fails in binary64 Proved part: an accurate distribution function keeps some relative accuracy down to probabilities of `2^-k`

## C275 Log-densities in floating point (partial)

In rounded IEEE arithmetic log_pdf(x) is within a small absolute error of the logarithm of the density, also far out where the density itself is tiny. *For all laws with an accurate density where the density is between 2^-k and 2^k; the normal law for all parameters of ordinary size; refuted in binary64 for every exponential and every normal law of ordinary size beyond the point where the density underflows.*

* `C275_partial` (Props/FloatLogs.lean): C275 (part): where a density accurate to `n` units is between `2^-k` and `2^k`, the default `log_pdf` is within `(2n + 2k + 3)/2^52` of the log-density (see `C275_exponential_violated` and `C275_normal_violated` for smaller densities)
* `C275_normal_partial` (Props/FloatLogs.lean): C275 (part): the normal density comes out to a relative `2^-42` up to about eleven standard deviations, so the default `log_pdf` is accurate there
* `C275_exponential_violated` (Props/FloatLogs.lean): C275 in binary64: from `λ·x = 750` on the exponential density underflows, and the default `log_pdf` is `-inf` where the log-density is `ln λ - λ·x`, a number of ordinary size
* `C275_normal_violated` (Props/FloatLogs.lean): C275 in binary64: from 39 standard deviations on (`(x - μ)²/(2σ²) ≥ 751`) the normal density underflows, and the default `log_pdf` is `-inf`
* `C275_violated` (Props/FloatLogs.lean): C275: the full claim fails in binary64

Note: The code does not have the full property; proved negation: C275 in binary64: from `λ·x = 750` on the exponential density underflows, and the default `log_pdf` is `-inf` where the log-density is `ln λ - λ·x`, a number of ordinary size | C275 in binary64: from 39 standard deviations on (`(x - μ)²/(2σ²) ≥ 751`) the normal density underflows, and the default `log_pdf` is `-inf` | the full claim fails in binary64 Proved part: where a density accurate to `n` units is between `2^-k` and `2^k`, the default `log_pdf` is within `(2n + 2k + 3)/2^52` of the log-density (see `C275_exponential_violated` and `C275_normal_violated` for smaller densities) | the normal density comes out to a relative `2^-42` up to about eleven standard deviations, so the default `log_pdf` is accurate there

## C276 Accuracy of multivariate log-normal moments in floating point (partial)

In rounded IEEE arithmetic the mean and the variance of each coordinate of a multivariate log-normal law with diagonal covariance are within a small relative error of the moments of the law. *For all dimensions, all locations of the logarithm up to 16 in size and all its variances up to 32 (for the variance at least 1/16: refuted in binary64 for every variance up to 2^-56); every correctly rounded arithmetic with accurate elementary functions.*

* `C276_diagonal_partial` (Props/FloatLogNormal.lean): C276 (part): the mean of the multivariate log-normal law to a relative `2^-44`, and its variance to a relative `2^-43` when the variance of the logarithm is not small (see `C276_variance_violated`)
* `C276_variance_violated` (Props/FloatLogNormal.lean): C276 in binary64: when the variance of the logarithm is at most `2^-56`, `variance()` is exactly zero in that coordinate, although the law is not constant: `exp(v) - 1` cancels, where `exp_m1(v)` would not

Note: The code does not have the full property; proved negation: C276 in binary64: when the variance of the logarithm is at most `2^-56`, `variance()` is exactly zero in that coordinate, although the law is not constant: `exp(v) - 1` cancels, where `exp_m1(v)` would not Proved part: the mean of the multivariate log-normal law to a relative `2^-44`, and its variance to a relative `2^-43` when the variance of the logarithm is not small (see `C276_variance_violated`)

## C277 Accuracy of bivariate normal densities in floating point (partial)

In rounded IEEE arithmetic the density of a paired (independent) or bivariate normal law is within a small relative error of the two-dimensional Gaussian density with the covariance matrix the value describes. *For all ordinary variances, all correlations (proved up to 255/256 in size, losing accuracy in proportion to 1/(1-|rho|); refuted in binary64 at 1 - 2^-53), all arguments at ordinary distances from the means with exponent up to 64; every correctly rounded arithmetic with accurate elementary functions.*

* `C277_paired_partial` (Props/FloatBv.lean): C277 (paired, part): the density comes out to a relative `2^-42`
* `C277_bivariate_partial` (Props/FloatBv.lean): C277 (bivariate, part): for `|ρ| ≤ 1 - 2^-j` with `j ≤ 8` (`ρ` zero or of ordinary size), the density comes out to a relative `2^(j-39)`
* `C277_bivariate_violated` (Props/FloatBv.lean): C277 in binary64: with correlation `1 - 2^-53`, zero means and unit variances, at the point `(3, 3)` the quadratic form comes out as exactly 16, where its real value is less than 10, and the density has lost all accuracy: the numerator and the denominator of `z` both cancel

Note: The code does not have the full property; proved negation: C277 in binary64: with correlation `1 - 2^-53`, zero means and unit variances, at the point `(3, 3)` the quadratic form comes out as exactly 16, where its real value is less than 10, and the density has lost all accuracy: the numerator and the denominator of `z` both cancel Proved part: the density comes out to a relative `2^-42` | for `|ρ| ≤ 1 - 2^-j` with `j ≤ 8` (`ρ` zero or of ordinary size), the density comes out to a relative `2^(j-39)`
