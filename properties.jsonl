{"id": "C01", "title": "Probability::new accepts exactly [0,1]", "statement": "Probability::new(p) and TryFrom<f64> succeed exactly when p is an f64 with 0 <= p <= 1 (so NaN, both infinities and every out-of-range value are refused, -0.0 is accepted), the accepted Probability holds the very same f64, the refusal carries the offending value, and is_valid agrees with the acceptance test.", "quantifier": "all 2^64 f64 values including NaN, infinities, signed zeros", "why_tests_cant": "The claim ranges over an uncountable/2^64-size set of f64 inputs; a test samples finitely many and rounding corner cases sit between samples.", "anchors": ["src/probability.rs: Probability::new, try_from, is_valid, unwrap"]}
{"id": "C02", "title": "Checked Probability arithmetic is closed", "statement": "Adding, subtracting, dividing or taking the remainder of any two Probability values either fails or yields a Probability that is_valid; it succeeds exactly when the rounded IEEE result lies in [0,1].", "quantifier": "all pairs of Probability values (even ones built with new_unchecked)", "why_tests_cant": "The claim ranges over an uncountable/2^64-size set of f64 inputs; a test samples finitely many and rounding corner cases sit between samples.", "anchors": ["src/probability.rs: impl_op! Add/Sub/Div/Rem"]}
{"id": "C03", "title": "Unchecked product and complement stay in [0,1]", "statement": "For valid probabilities p, q the product p*q and the complement !p are valid probabilities, although neither operator checks, under every correctly-rounded arithmetic (binary64 in particular).", "quantifier": "all valid pairs p,q; every lawful rounding", "why_tests_cant": "The claim ranges over an uncountable/2^64-size set of f64 inputs; a test samples finitely many and rounding corner cases sit between samples.", "anchors": ["src/probability.rs: impl_op! Mul, Not"]}
{"id": "C04", "title": "Complement is an order-reversing near-involution", "statement": "!p reverses order; !!p is p exactly in exact arithmetic, and in any correctly rounded arithmetic differs from p by at most 2^-50 (it is not the identity in binary64: a positive p below 2^-54 is mapped to 0).", "quantifier": "all valid p,q", "why_tests_cant": "The claim ranges over an uncountable/2^64-size set of f64 inputs; a test samples finitely many and rounding corner cases sit between samples.", "anchors": ["src/probability.rs: Not"]}
{"id": "C05", "title": "SimplexVector::new acceptance", "statement": "SimplexVector::new(ps) succeeds exactly when every entry lies in [0,1] and the left-to-right floating sum z satisfies |z-1| < 1e-5, and then stores the same array; otherwise it reports the first out-of-range entry, or the array itself when only the sum is wrong.", "quantifier": "arrays of every length K and content", "why_tests_cant": "It ranges over sequences of every length and content.", "anchors": ["src/probability.rs: SimplexVector::new, try_from"]}
{"id": "C06", "title": "Accepted simplex weights really sum to nearly one", "statement": "If SimplexVector::new accepts an array of K <= 2^30 entries then the exact (real-number) sum of the entries is within 1.1e-5 of 1, despite rounding in the check.", "quantifier": "all accepted arrays, every K <= 2^30, every lawful rounding", "why_tests_cant": "It ranges over sequences of every length and content.", "anchors": ["src/probability.rs: SimplexVector::try_from"]}
{"id": "C07", "title": "sample_index is total, in range, one draw", "statement": "For every K >= 1, every weight array and every RNG, sample_index returns an index < K and consumes exactly one draw; for K = 0 it panics in a debug build.", "quantifier": "all arrays, all RNG states", "why_tests_cant": "It ranges over every RNG stream / every length of history, which no finite test run enumerates.", "anchors": ["src/probability.rs: SimplexVector::sample_index"]}
{"id": "C08", "title": "sample_index inverts the prefix sums", "statement": "sample_index returns i exactly when the draw u is below prefix sum i and not below any earlier prefix sum (last index if no prefix exceeds u); in exact arithmetic, for weights summing to 1, the set of draws in [0,1) returning i has Lebesgue measure exactly p_i.", "quantifier": "all weight arrays, all draws, all indices", "why_tests_cant": "It ranges over every RNG stream / every length of history, which no finite test run enumerates.", "anchors": ["src/probability.rs: SimplexVector::sample_index"]}
{"id": "C09", "title": "sample_index never returns a zero-weight index", "statement": "An index whose weight is zero is never sampled.", "quantifier": "all accepted simplex vectors and all draws", "why_tests_cant": "It ranges over every RNG stream / every length of history, which no finite test run enumerates.", "anchors": ["src/probability.rs: SimplexVector::sample_index"]}
{"id": "C10", "title": "SimplexVector::sample returns a point of the simplex", "statement": "SimplexVector::sample returns a vector whose entries are non-negative and sum to one.", "quantifier": "all K >= 1 and all RNG streams", "why_tests_cant": "It ranges over every RNG stream / every length of history, which no finite test run enumerates.", "anchors": ["src/probability.rs: SimplexVector::sample"]}
{"id": "C11", "title": "SimplexVector::centre", "statement": "centre() is the vector with all K entries equal to 1/K, it passes the SimplexVector::new check, and sums to 1 exactly in exact arithmetic (rounded: entries for K up to 2^53, the check for K up to 2^30).", "quantifier": "all K >= 1", "why_tests_cant": "It ranges over sequences of every length and content.", "anchors": ["src/probability.rs: SimplexVector::centre"]}
{"id": "C12", "title": "Atomic constraints decide their relation and check returns the value untouched", "statement": "Equal, LessThan(OrEqual), GreaterThan(OrEqual), Negative, NonPositive, Positive, NonNegative, Natural, Interval accept exactly the values in the named relation (never NaN); check returns Ok with the same value iff is_satisfied_by, otherwise Err carrying the same value.", "quantifier": "all f64/i64/usize values and bounds", "why_tests_cant": "The claim ranges over an uncountable/2^64-size set of f64 inputs; a test samples finitely many and rounding corner cases sit between samples.", "anchors": ["src/params/constraints.rs"]}
{"id": "C13", "title": "Constraint combinators are a faithful Boolean algebra", "statement": "And/Or/Not/All accept exactly the conjunction / disjunction / negation / all-elements closure of their operands, for check as well as is_satisfied_by, at any nesting depth, and check and is_satisfied_by always agree.", "quantifier": "all constraint expression trees, all values, all array lengths", "why_tests_cant": "Ranges over expression trees of unbounded depth and arrays of unbounded length.", "anchors": ["src/params/constraints.rs: All, Not, Or, And"]}
{"id": "C14", "title": "Empty means empty", "statement": "Empty accepts a container exactly when it has no elements, for Vec and for fixed-size arrays.", "quantifier": "all containers", "why_tests_cant": "It ranges over sequences of every length and content.", "anchors": ["src/params/constraints.rs: Empty"]}
{"id": "C15", "title": "Scalar parameter constructors", "statement": "Scale/Rate/Shape/DOF::new succeed exactly for strictly positive values (so never NaN, -0.0 or 0), Count::new exactly for values >= 0, Corr::new exactly on [-1,1], Loc::new always; the stored value is the argument.", "quantifier": "all f64 (and integer) arguments", "why_tests_cant": "The claim ranges over an uncountable/2^64-size set of f64 inputs; a test samples finitely many and rounding corner cases sit between samples.", "anchors": ["src/params/mod.rs: param!", "src/params/corr.rs: Corr::new"]}
{"id": "C16", "title": "Concentrations::new accepts exactly non-empty positive vectors", "statement": "Concentrations::new(v) succeeds exactly when v is non-empty and all entries are strictly positive; hence Dirichlet::new succeeds on such vectors.", "quantifier": "all arrays of every length", "why_tests_cant": "It ranges over sequences of every length and content.", "anchors": ["src/params/concentrations.rs: Concentrations::new", "src/multivariate/dirichlet.rs: Dirichlet::new"]}
{"id": "C17", "title": "Composite Params::new validate every field, in order", "statement": "A generated Params::new succeeds exactly when every field's own constructor accepts its argument, stores the arguments unchanged and otherwise returns the error of the first rejected field.", "quantifier": "all parameter records of any number of fields", "why_tests_cant": "The claim ranges over an uncountable/2^64-size set of f64 inputs; a test samples finitely many and rounding corner cases sit between samples.", "anchors": ["src/params/mod.rs: params!"]}
{"id": "C18", "title": "Constructor/params round trip", "statement": "For every univariate distribution: if Dist::new(args) is Ok(d) then d.params() holds exactly args, every constrained field satisfies its constraint, and From<Params> of d.params() is d.", "quantifier": "all constructor arguments of all parametric univariate distributions", "why_tests_cant": "The claim ranges over an uncountable/2^64-size set of f64 inputs; a test samples finitely many and rounding corner cases sit between samples.", "anchors": ["src/lib.rs: new_dist!, Distribution::params", "src/univariate/*.rs: new"]}
{"id": "C19", "title": "Covariance constructors accept exactly valid covariances", "statement": "Covariance::matrix accepts exactly symmetric positive semi-definite matrices; diagonal/paired/isotropic accept exactly positive variances; bivariate accepts exactly positive scales with |rho| < 1.", "quantifier": "all matrices / vectors / scalars", "why_tests_cant": "The claim ranges over an uncountable/2^64-size set of f64 inputs; a test samples finitely many and rounding corner cases sit between samples.", "anchors": ["src/normal/mod.rs: Covariance"]}
{"id": "C20", "title": "cdf/log_cdf/ccdf/log_ccdf defaults agree", "statement": "For a distribution defining only one of cdf, log_cdf, the other is its exp/ln, ccdf(x) = 1 - cdf(x) and log_ccdf = ln ccdf; cdf(x)+ccdf(x)=1 in exact arithmetic; an implementation overriding neither never returns.", "quantifier": "all distributions (records of overrides), all points", "why_tests_cant": "It is an identity between functions of a real argument and real parameters; finitely many sampled points never establish it.", "anchors": ["src/lib.rs: Distribution::cdf, log_cdf, ccdf, log_ccdf"]}
{"id": "C21", "title": "pmf/log_pmf and pdf/log_pdf defaults agree", "statement": "For any implementation overriding one of pmf/log_pmf (pdf/log_pdf), in exact arithmetic pmf = exp(log_pmf) wherever pmf is positive and both are defined (each default being the rounded exp/ln of the other in every arithmetic); overriding neither diverges.", "quantifier": "all implementations, all points", "why_tests_cant": "It is an identity between functions of a real argument and real parameters; finitely many sampled points never establish it.", "anchors": ["src/lib.rs: DiscreteDistribution, ContinuousDistribution"]}
{"id": "C22", "title": "Moment defaults agree", "statement": "In exact arithmetic, with default methods, standard_deviation^2 = variance (for non-negative variance) and kurtosis = excess_kurtosis + 3, whichever of each pair the implementation overrides.", "quantifier": "all implementations", "why_tests_cant": "It is an identity between functions of a real argument and real parameters; finitely many sampled points never establish it.", "anchors": ["src/statistics.rs: UvMoments"]}
{"id": "C23", "title": "Quantile-derived statistics", "statement": "cquantile(p) = quantile(1-p), median = Q(1/2), iqr = Q(3/4)-Q(1/4), fences at 1.5 iqr; for any monotone quantile function lower_fence <= lower_quartile <= median <= upper_quartile <= upper_fence, under every lawful rounding.", "quantifier": "all implementations with a monotone quantile", "why_tests_cant": "It is an identity between functions of a real argument and real parameters; finitely many sampled points never establish it.", "anchors": ["src/statistics.rs: Quantiles"]}
{"id": "C24", "title": "sample_n / sample_iter are sequential sampling", "statement": "sample_n(n) returns n values, equals the first n values of sample_iter, equals n successive sample calls threading the same RNG, and sample_n(n+m) = sample_n(n) ++ sample_n(m) from the resulting RNG state; sample_iter never ends.", "quantifier": "all samplers, all RNG states, all n,m", "why_tests_cant": "It ranges over every RNG stream / every length of history, which no finite test run enumerates.", "anchors": ["src/lib.rs: sample_n, sample_iter, Sampler::next"]}
{"id": "C25", "title": "convolve_many is the iterated convolution", "statement": "convolve_many(rvs) convolves self with every element of rvs exactly once and returns the first error if any; it must work for every non-empty list.", "quantifier": "all lists of distributions", "why_tests_cant": "It ranges over sequences of every length and content.", "anchors": ["src/lib.rs: Convolution::convolve_many"]}
{"id": "C26", "title": "Default multivariate variance and correlation", "statement": "Default variance is the diagonal of covariance; default correlation(i,j) = cov(i,j)/sqrt(cov(i,i) cov(j,j)), hence unit diagonal.", "quantifier": "all implementations, all dimensions", "why_tests_cant": "It is an identity between functions of a real argument and real parameters; finitely many sampled points never establish it.", "anchors": ["src/statistics.rs: MvMoments"]}
{"id": "C27", "title": "likelihood/log_likelihood and Mahalanobis defaults agree", "statement": "In exact arithmetic likelihood = exp(log_likelihood) (where positive) and d_mahalanobis^2 = d_mahalanobis_squared by default, whichever is overridden.", "quantifier": "all implementations, all samples", "why_tests_cant": "It is an identity between functions of a real argument and real parameters; finitely many sampled points never establish it.", "anchors": ["src/fitting.rs: Likelihood", "src/distance.rs: Mahalanobis"]}
{"id": "C28", "title": "choose is the binomial coefficient", "statement": "choose(n,k) returns C(n,k) for all k <= n whenever every intermediate product fits in u64 (in particular for all n <= 62), is symmetric in k and n-k, and panics in debug for k > n.", "quantifier": "all n,k in u64", "why_tests_cant": "The claim ranges over an uncountable/2^64-size set of f64 inputs; a test samples finitely many and rounding corner cases sit between samples.", "anchors": ["src/utils.rs: choose"]}
{"id": "C29", "title": "factorial", "statement": "factorial(n) = n! for every n <= 20 (table and product branch) and overflow (debug panic) for n >= 21.", "quantifier": "all n in u64", "why_tests_cant": "The claim ranges over an uncountable/2^64-size set of f64 inputs; a test samples finitely many and rounding corner cases sit between samples.", "anchors": ["src/utils.rs: factorial, factorial_exact", "src/consts.rs: FACTORIALS_16"]}
{"id": "C30", "title": "log_factorial_stirling approximates ln n!", "statement": "In exact arithmetic the n > 254 branch lies within 1e-6 of ln(n!), and the table branch lies within 1e-12 of ln(n!).", "quantifier": "all n < u64::MAX (at u64::MAX n+1 overflows)", "why_tests_cant": "The claim ranges over an uncountable/2^64-size set of f64 inputs; a test samples finitely many and rounding corner cases sit between samples.", "anchors": ["src/utils.rs: log_factorial_stirling", "src/consts.rs: LOG_FACTORIALS_255"]}
{"id": "C31", "title": "Array (de)serialisation round trip", "statement": "Serialising an array of N elements then deserialising yields the same array; deserialising a sequence shorter than N is an error, never a partially initialised array.", "quantifier": "all arrays of every length, all element types", "why_tests_cant": "It ranges over sequences of every length and content.", "anchors": ["src/utils.rs: serde_arrays"]}
{"id": "C32", "title": "Mixture::new", "statement": "Mixture::new(weights, components) succeeds exactly when weights form an accepted simplex vector (N >= 1), keeps weights and components, and its support contains the support of every component and nothing outside their interval hull.", "quantifier": "all weights, all component arrays", "why_tests_cant": "It ranges over sequences of every length and content.", "anchors": ["src/mixture.rs: Mixture::new, compute_support"]}
{"id": "C33", "title": "Mixture cdf/pdf are the weighted sums", "statement": "cdf = sum_i w_i F_i, pdf = sum_i w_i f_i; hence in exact arithmetic for weights summing to 1 the mixture cdf is a valid monotone CDF and pdf is its derivative when the components' are.", "quantifier": "all mixtures of every size", "why_tests_cant": "It ranges over sequences of every length and content.", "anchors": ["src/mixture.rs: cdf, pdf"]}
{"id": "C34", "title": "Mixture cdf always returns a valid probability", "statement": "Every accepted mixture of valid components has cdf(x) in [0,1].", "quantifier": "all accepted mixtures, all points", "why_tests_cant": "It ranges over sequences of every length and content.", "anchors": ["src/mixture.rs: cdf"]}
{"id": "C35", "title": "Mixture mean and variance", "statement": "mean = sum w_i m_i and variance = sum w_i (v_i + (m_i - mean)^2) >= 0 (law of total variance) for weights summing to one and v_i >= 0.", "quantifier": "all mixtures of every size", "why_tests_cant": "It ranges over sequences of every length and content.", "anchors": ["src/mixture.rs: mean, variance"]}
{"id": "C36", "title": "Mixture sampling", "statement": "sample draws component i (by weight) then samples that component with the remaining RNG; only listed components are sampled.", "quantifier": "all mixtures, all RNG states", "why_tests_cant": "It ranges over every RNG stream / every length of history, which no finite test run enumerates.", "anchors": ["src/mixture.rs: sample"]}
{"id": "C37", "title": "Mixture params round trip", "statement": "From<Params>(m.params()) = m for every mixture; a params value with too many component_params panics.", "quantifier": "all mixtures", "why_tests_cant": "It ranges over sequences of every length and content.", "anchors": ["src/mixture.rs: params, From"]}
{"id": "C38", "title": "Univariate normal is the Gaussian measure", "statement": "For sigma^2 > 0: pdf is the Gaussian density, cdf the Gaussian distribution function (0/1 at the infinities), mean/variance its moments, quantile its inverse; z/precision are (x-mu)/sigma and 1/sigma^2.", "quantifier": "all mu, sigma^2 > 0, x", "why_tests_cant": "It is an identity between functions of a real argument and real parameters; finitely many sampled points never establish it.", "anchors": ["src/normal/univariate.rs"]}
{"id": "C39", "title": "Normal kurtosis", "statement": "kurtosis is the fourth standardised moment (3) and excess_kurtosis = kurtosis - 3 (0).", "quantifier": "all normals", "why_tests_cant": "It is an identity between functions of a real argument and real parameters; finitely many sampled points never establish it.", "anchors": ["src/normal/univariate.rs: kurtosis, excess_kurtosis"]}
{"id": "C40", "title": "Normal convolution is the law of the sum", "statement": "convolve returns the distribution of the sum of independent normals: means and variances add; it is commutative and associative in exact arithmetic, commutative in floating point.", "quantifier": "all pairs/triples of normals", "why_tests_cant": "It is an identity between functions of a real argument and real parameters; finitely many sampled points never establish it.", "anchors": ["src/normal/univariate.rs: convolve"]}
{"id": "C41", "title": "Normal log-likelihood", "statement": "log_likelihood(xs) = sum_i ln pdf(x_i), so it is additive over concatenation of samples.", "quantifier": "all samples of every length", "why_tests_cant": "It ranges over sequences of every length and content.", "anchors": ["src/normal/univariate.rs: log_likelihood"]}
{"id": "C42", "title": "Normal score is the gradient of the log-likelihood", "statement": "score.mu is the derivative in mu and score.Sigma the derivative in the scale of sum ln pdf.", "quantifier": "all samples of every length", "why_tests_cant": "It ranges over sequences of every length and content.", "anchors": ["src/normal/univariate.rs: score"]}
{"id": "C43", "title": "Normal MLE", "statement": "fit_mle returns mean and biased variance, which maximise sum ln pdf over all (mu, sigma^2); it refuses empty data and constant data.", "quantifier": "all samples of every length", "why_tests_cant": "It ranges over sequences of every length and content.", "anchors": ["src/normal/univariate.rs: fit_mle"]}
{"id": "C44", "title": "Normal Shannon entropy, Fisher information, mode, median", "statement": "entropy is 1/2 ln(2 pi e sigma^2); the mode maximises pdf; cdf(median)=1/2; Fisher information is diag(1/s2, 1/(2 s2^2)), minus the expected Hessian of ln pdf.", "quantifier": "all normals", "why_tests_cant": "It is an identity between functions of a real argument and real parameters; finitely many sampled points never establish it.", "anchors": ["src/normal/univariate.rs"]}
{"id": "C45", "title": "Gradient scaling", "statement": "Multiplying a Grad by s scales every component by s (univariate, bivariate, paired, multivariate).", "quantifier": "all gradients, all scalars", "why_tests_cant": "The claim ranges over an uncountable/2^64-size set of f64 inputs; a test samples finitely many and rounding corner cases sit between samples.", "anchors": ["src/normal/*.rs: impl Mul<f64> for *Grad"]}
{"id": "C46", "title": "Bivariate normal density", "statement": "z, pdf, covariance, correlation are those of the bivariate Gaussian with scales and rho: pdf(x) = exp(-Q/2)/(2 pi s0 s1 sqrt(1-rho^2)) with Q the Mahalanobis form of the covariance matrix.", "quantifier": "all parameters with |rho|<1", "why_tests_cant": "It is an identity between functions of a real argument and real parameters; finitely many sampled points never establish it.", "anchors": ["src/normal/bivariate.rs"]}
{"id": "C47", "title": "Bivariate/paired normal entropy", "statement": "shannon_entropy = 1 + ln(2 pi) + 1/2 ln det Sigma.", "quantifier": "all parameters", "why_tests_cant": "It is an identity between functions of a real argument and real parameters; finitely many sampled points never establish it.", "anchors": ["src/normal/bivariate.rs", "src/normal/paired.rs"]}
{"id": "C48", "title": "Bivariate sampling", "statement": "The sample is mu + A z with A A^T = covariance(), for two independent standard normal draws.", "quantifier": "all parameters, all draws", "why_tests_cant": "It ranges over every RNG stream / every length of history, which no finite test run enumerates.", "anchors": ["src/normal/bivariate.rs: sample"]}
{"id": "C49", "title": "Paired normal is a product of independent normals", "statement": "pdf factors into the two univariate pdfs; moments are the marginal moments; log_likelihood is additive over samples.", "quantifier": "all parameters, all samples", "why_tests_cant": "It is an identity between functions of a real argument and real parameters; finitely many sampled points never establish it.", "anchors": ["src/normal/paired.rs"]}
{"id": "C50", "title": "Mahalanobis distance of multivariate normals", "statement": "d_mahalanobis_squared(x) = (x-mu)^T Sigma^{-1} (x-mu) for general, diagonal and isotropic covariances.", "quantifier": "all dimensions, all parameters, all x", "why_tests_cant": "It is an identity between functions of a real argument and real parameters; finitely many sampled points never establish it.", "anchors": ["src/normal/multivariate.rs: d_mahalanobis_squared", "src/normal/linalg.rs"]}
{"id": "C51", "title": "Multivariate sampling has the requested covariance", "statement": "Samples are mu + A z with A A^T = Sigma for general, diagonal and isotropic covariances.", "quantifier": "all dimensions, all parameters, all draws", "why_tests_cant": "It ranges over every RNG stream / every length of history, which no finite test run enumerates.", "anchors": ["src/normal/multivariate.rs: sample"]}
{"id": "C52", "title": "Multivariate normal entropy and moments", "statement": "entropy = 1/2 (k(1+ln 2 pi) + ln det Sigma); mean/covariance/variance are the parameters.", "quantifier": "all dimensions, all parameters", "why_tests_cant": "It is an identity between functions of a real argument and real parameters; finitely many sampled points never establish it.", "anchors": ["src/normal/multivariate.rs"]}
{"id": "C53", "title": "Continuous uniform", "statement": "For width > 0: cdf is the distribution function of the uniform law on [lb, lb+width], pdf its density, quantile its inverse on [0,1], mean/variance/skewness/kurtosis its moments, entropy ln width.", "quantifier": "all lb, width > 0, x, p", "why_tests_cant": "It is an identity between functions of a real argument and real parameters; finitely many sampled points never establish it.", "anchors": ["src/univariate/uniform.rs: Uniform<f64>"]}
{"id": "C54", "title": "Discrete uniform", "statement": "For width > 0: pmf is 1/(width+1) on {lb..lb+width} and 0 elsewhere, sums to 1, cdf(k) is the sum of pmf up to k, mean/variance are its moments.", "quantifier": "all lb, width within i64, k", "why_tests_cant": "It is an identity between functions of a real argument and real parameters; finitely many sampled points never establish it.", "anchors": ["src/univariate/uniform.rs: Uniform<i64>"]}
{"id": "C55", "title": "Discrete uniform quantile", "statement": "quantile(p) = inf{k : p <= cdf(k)}.", "quantifier": "all parameters, p in [0,1]", "why_tests_cant": "It is an identity between functions of a real argument and real parameters; finitely many sampled points never establish it.", "anchors": ["src/univariate/uniform.rs: quantile (i64)"]}
{"id": "C56", "title": "Degenerate laws", "statement": "cdf is the unit step at k, pmf(k)=1 and 0 elsewhere, mean=median=k, variance 0, entropy 0, sample always k.", "quantifier": "all k, x, RNG states", "why_tests_cant": "It is an identity between functions of a real argument and real parameters; finitely many sampled points never establish it.", "anchors": ["src/univariate/degenerate.rs"]}
{"id": "C57", "title": "Arcsine", "statement": "pdf is the derivative of cdf inside the support, cdf runs from 0 to 1 and is monotone, cdf(median)=1/2, mean symmetric, variance = width^2/8.", "quantifier": "all a, w > 0, x", "why_tests_cant": "It is an identity between functions of a real argument and real parameters; finitely many sampled points never establish it.", "anchors": ["src/univariate/arcsine.rs"]}
{"id": "C58", "title": "Arcsine entropy", "statement": "shannon_entropy is the differential entropy ln(pi w/4).", "quantifier": "all a, w > 0", "why_tests_cant": "It is an identity between functions of a real argument and real parameters; finitely many sampled points never establish it.", "anchors": ["src/univariate/arcsine.rs: shannon_entropy"]}
{"id": "C59", "title": "Cauchy", "statement": "cdf is the distribution function of the Cauchy law, pdf its derivative and density, quantile its inverse, median/mode x0, fwhm 2 gamma: pdf(x0 +- gamma) = pdf(x0)/2.", "quantifier": "all x0, gamma > 0, x, p in (0,1)", "why_tests_cant": "It is an identity between functions of a real argument and real parameters; finitely many sampled points never establish it.", "anchors": ["src/univariate/cauchy.rs"]}
{"id": "C60", "title": "Cauchy convolution", "statement": "convolve adds locations and scales (commutative, associative in exact arithmetic).", "quantifier": "all pairs", "why_tests_cant": "It is an identity between functions of a real argument and real parameters; finitely many sampled points never establish it.", "anchors": ["src/univariate/cauchy.rs: convolve"]}
{"id": "C61", "title": "Exponential law on its support", "statement": "For x >= 0 cdf/pdf are those of the exponential law with rate lambda; mean 1/lambda, variance 1/lambda^2; cdf(median)=1/2; entropy 1 - ln lambda; memoryless: ccdf(s+t)=ccdf(s)ccdf(t).", "quantifier": "all lambda > 0, x >= 0", "why_tests_cant": "It is an identity between functions of a real argument and real parameters; finitely many sampled points never establish it.", "anchors": ["src/univariate/exponential.rs"]}
{"id": "C62", "title": "Exponential off its support", "statement": "cdf(x) and pdf(x) are 0 for x < 0 and cdf always is a valid Probability.", "quantifier": "all x", "why_tests_cant": "It is an identity between functions of a real argument and real parameters; finitely many sampled points never establish it.", "anchors": ["src/univariate/exponential.rs: cdf, pdf"]}
{"id": "C63", "title": "Exponential quantile", "statement": "cdf(quantile(p)) = p.", "quantifier": "all p in [0,1)", "why_tests_cant": "It is an identity between functions of a real argument and real parameters; finitely many sampled points never establish it.", "anchors": ["src/univariate/exponential.rs: quantile"]}
{"id": "C64", "title": "Exponential kurtosis and Fisher information", "statement": "kurtosis = excess_kurtosis + 3 = 9; Fisher information is 1/lambda^2.", "quantifier": "all lambda > 0", "why_tests_cant": "It is an identity between functions of a real argument and real parameters; finitely many sampled points never establish it.", "anchors": ["src/univariate/exponential.rs"]}
{"id": "C65", "title": "Laplace", "statement": "cdf is the Laplace distribution function and pdf its density; moments, entropy, median and mode are those of the law, kurtosis=excess+3, and sampling inverts the distribution function.", "quantifier": "all mu, b > 0, x", "why_tests_cant": "It is an identity between functions of a real argument and real parameters; finitely many sampled points never establish it.", "anchors": ["src/univariate/laplace.rs"]}
{"id": "C66", "title": "Logistic", "statement": "pdf is the derivative of cdf; cdf monotone from 0 to 1; median inverts cdf; mean, variance, skewness, kurtosis, entropy and mode are those of the logistic law.", "quantifier": "all mu, s > 0, x", "why_tests_cant": "It is an identity between functions of a real argument and real parameters; finitely many sampled points never establish it.", "anchors": ["src/univariate/logistic.rs"]}
{"id": "C67", "title": "Gumbel", "statement": "pdf is the derivative of cdf; cdf monotone from 0 to 1; cdf(median) = 1/2; the mode maximises pdf; mean, variance, skewness, kurtosis (= excess + 3) and entropy are those of the law.", "quantifier": "all mu, beta > 0, x", "why_tests_cant": "It is an identity between functions of a real argument and real parameters; finitely many sampled points never establish it.", "anchors": ["src/univariate/gumbel.rs"]}
{"id": "C68", "title": "Frechet", "statement": "pdf is the derivative of cdf on the support; cdf(median)=1/2; the mode maximises pdf; mean, variance, skewness, excess kurtosis are the moments where they exist and infinite exactly where they do not (alpha <= 1,2,3,4); entropy.", "quantifier": "all parameters, x", "why_tests_cant": "It is an identity between functions of a real argument and real parameters; finitely many sampled points never establish it.", "anchors": ["src/univariate/frechet.rs"]}
{"id": "C69", "title": "Frechet sampling", "statement": "sample applies the inverse cdf to a uniform draw: cdf(sample)=u.", "quantifier": "all draws", "why_tests_cant": "It ranges over every RNG stream / every length of history, which no finite test run enumerates.", "anchors": ["src/univariate/frechet.rs: sample"]}
{"id": "C70", "title": "Weibull", "statement": "pdf is the density of cdf; cdf(median)=1/2; cdf is 0 at and below 0; mean, variance, skewness, excess kurtosis and entropy are those of the law.", "quantifier": "all lambda, k > 0, x", "why_tests_cant": "It is an identity between functions of a real argument and real parameters; finitely many sampled points never establish it.", "anchors": ["src/univariate/weibull.rs"]}
{"id": "C71", "title": "Weibull mode", "statement": "modes are the maximisers of pdf.", "quantifier": "all lambda, k > 1", "why_tests_cant": "It is an identity between functions of a real argument and real parameters; finitely many sampled points never establish it.", "anchors": ["src/univariate/weibull.rs: modes"]}
{"id": "C72", "title": "Kumaraswamy", "statement": "pdf is the derivative of cdf on (0,1); cdf(median)=1/2; inverse-cdf sampling: cdf(sample from u) is uniform; interior mode maximises pdf.", "quantifier": "all a,b > 0, x", "why_tests_cant": "It is an identity between functions of a real argument and real parameters; finitely many sampled points never establish it.", "anchors": ["src/univariate/kumaraswamy.rs"]}
{"id": "C73", "title": "Pareto", "statement": "On x >= x_m cdf/pdf are those of the Pareto law; cdf(median)=1/2; mean, variance, skewness, kurtosis are the moments where they exist (alpha > 1,2,3,4) and infinite/refused exactly where they do not; mode x_m; entropy.", "quantifier": "all alpha > 0, x_m > 0, x >= x_m", "why_tests_cant": "It is an identity between functions of a real argument and real parameters; finitely many sampled points never establish it.", "anchors": ["src/univariate/pareto.rs"]}
{"id": "C74", "title": "Pareto off its support and parameter check", "statement": "cdf(x)=0 for x < x_m; x_m <= 0 is refused.", "quantifier": "all x", "why_tests_cant": "It is an identity between functions of a real argument and real parameters; finitely many sampled points never establish it.", "anchors": ["src/univariate/pareto.rs"]}
{"id": "C75", "title": "Rayleigh", "statement": "pdf is the derivative of cdf, cdf(median)=1/2; mean, variance, skewness, kurtosis, entropy and mode are those of the Rayleigh law.", "quantifier": "all sigma > 0, x >= 0", "why_tests_cant": "It is an identity between functions of a real argument and real parameters; finitely many sampled points never establish it.", "anchors": ["src/univariate/rayleigh.rs"]}
{"id": "C76", "title": "Triangular", "statement": "cdf is continuous monotone from 0 to 1, pdf its derivative, cdf(median)=1/2, mode c maximises pdf, variance as for the triangular law.", "quantifier": "all a, b, c", "why_tests_cant": "It is an identity between functions of a real argument and real parameters; finitely many sampled points never establish it.", "anchors": ["src/univariate/triangular.rs"]}
{"id": "C77", "title": "Triangular mean", "statement": "mean = (a+b+c)/3.", "quantifier": "all a,b,c", "why_tests_cant": "It is an identity between functions of a real argument and real parameters; finitely many sampled points never establish it.", "anchors": ["src/univariate/triangular.rs: mean"]}
{"id": "C78", "title": "Cosine", "statement": "cdf monotone from 0 to 1 on the support; pdf is its derivative.", "quantifier": "all mu, s > 0, x", "why_tests_cant": "It is an identity between functions of a real argument and real parameters; finitely many sampled points never establish it.", "anchors": ["src/univariate/cosine.rs"]}
{"id": "C79", "title": "Generalised Pareto", "statement": "On its support pdf is the density of cdf, cdf(median)=1/2, cdf monotone from 0 to 1, entropy.", "quantifier": "all mu, sigma > 0, zeta > 0, x", "why_tests_cant": "It is an identity between functions of a real argument and real parameters; finitely many sampled points never establish it.", "anchors": ["src/univariate/gpd.rs"]}
{"id": "C80", "title": "Generalised Pareto mean/variance domain", "statement": "mean is returned exactly when it exists (zeta < 1), variance exactly when zeta < 1/2 (skewness 1/3, kurtosis 1/4).", "quantifier": "all zeta > 0", "why_tests_cant": "It is an identity between functions of a real argument and real parameters; finitely many sampled points never establish it.", "anchors": ["src/univariate/gpd.rs: mean, variance"]}
{"id": "C81", "title": "Generalised extreme value", "statement": "On its support pdf is the density of cdf (shape above the 1e-7 switch), cdf(median)=1/2; moments where they exist and infinite exactly where they do not; mode; entropy.", "quantifier": "all parameters, x", "why_tests_cant": "It is an identity between functions of a real argument and real parameters; finitely many sampled points never establish it.", "anchors": ["src/univariate/gev.rs"]}
{"id": "C82", "title": "Poisson", "statement": "pmf is the Poisson mass lambda^k e^-lambda/k! (up to the ln k! table/Stirling accuracy), mean = variance = lambda.", "quantifier": "all lambda > 0, k", "why_tests_cant": "It is an identity between functions of a real argument and real parameters; finitely many sampled points never establish it.", "anchors": ["src/univariate/poisson.rs"]}
{"id": "C83", "title": "Poisson convolution", "statement": "convolve returns the law of the sum of independent Poissons.", "quantifier": "all pairs", "why_tests_cant": "It is an identity between functions of a real argument and real parameters; finitely many sampled points never establish it.", "anchors": ["src/univariate/poisson.rs: convolve"]}
{"id": "C84", "title": "Poisson likelihood, score, MLE", "statement": "log_likelihood is additive; score is its derivative in lambda; fit_mle returns the sample mean, the maximiser, and refuses empty/all-zero data.", "quantifier": "all samples of every length", "why_tests_cant": "It ranges over sequences of every length and content.", "anchors": ["src/univariate/poisson.rs"]}
{"id": "C85", "title": "Bernoulli pmf and moments", "statement": "pmf(true)=p, pmf(false)=1-p (sums to 1), mean p, variance p(1-p), kurtosis = excess+3, MLE = fraction of true, refuses empty data.", "quantifier": "all p, all samples", "why_tests_cant": "It ranges over sequences of every length and content.", "anchors": ["src/univariate/bernoulli.rs"]}
{"id": "C86", "title": "Bernoulli cdf", "statement": "cdf(false)=1-p and cdf(true)=1.", "quantifier": "all p", "why_tests_cant": "It is an identity between functions of a real argument and real parameters; finitely many sampled points never establish it.", "anchors": ["src/univariate/bernoulli.rs: cdf"]}
{"id": "C87", "title": "Bernoulli/Binomial convolution", "statement": "Bernoulli+Bernoulli and Binomial+Bernoulli/Binomial with equal p give Binomial with added counts, whose pmf is the convolution of the pmfs; different p is refused.", "quantifier": "all n,m,p,k", "why_tests_cant": "It is an identity between functions of a real argument and real parameters; finitely many sampled points never establish it.", "anchors": ["src/univariate/bernoulli.rs: convolve", "src/univariate/binomial.rs: convolve"]}
{"id": "C88", "title": "Binomial", "statement": "pmf is C(n,k)p^k q^(n-k), sums to 1, mean np, variance npq.", "quantifier": "all n <= 61, p, k <= n", "why_tests_cant": "It is an identity between functions of a real argument and real parameters; finitely many sampled points never establish it.", "anchors": ["src/univariate/binomial.rs"]}
{"id": "C89", "title": "Binomial support and kurtosis", "statement": "support is {0..n}; kurtosis is the fourth standardised moment.", "quantifier": "all n,p", "why_tests_cant": "It is an identity between functions of a real argument and real parameters; finitely many sampled points never establish it.", "anchors": ["src/univariate/binomial.rs: support, kurtosis"]}
{"id": "C90", "title": "Geometric", "statement": "pmf(k) = p q^k sums to 1, cdf(k) = sum of pmf up to k for every k, mean q/p and variance q/p^2.", "quantifier": "all p in (0,1), k", "why_tests_cant": "It is an identity between functions of a real argument and real parameters; finitely many sampled points never establish it.", "anchors": ["src/univariate/geometric.rs"]}
{"id": "C91", "title": "Categorical pmf, sampling, modes", "statement": "pmf(i)=p_i for i<N and panics otherwise, sampling picks i by weight, modes are exactly the indices of maximal probability in increasing order.", "quantifier": "all simplex vectors", "why_tests_cant": "It ranges over sequences of every length and content.", "anchors": ["src/univariate/categorical.rs"]}
{"id": "C92", "title": "Categorical cdf", "statement": "cdf(i) = sum_{j<=i} p_j, so cdf(N-1)=1.", "quantifier": "all simplex vectors", "why_tests_cant": "It ranges over sequences of every length and content.", "anchors": ["src/univariate/categorical.rs: cdf"]}
{"id": "C93", "title": "Chi-squared", "statement": "mean k, variance 2k, skewness sqrt(8/k), excess 12/k, mode max(k-2,0) maximises pdf; convolution adds degrees of freedom.", "quantifier": "all k", "why_tests_cant": "It is an identity between functions of a real argument and real parameters; finitely many sampled points never establish it.", "anchors": ["src/univariate/chi_sq.rs"]}
{"id": "C94", "title": "Chi-squared convolution accepts all pairs", "statement": "convolve(k1,k2) succeeds for all degrees of freedom.", "quantifier": "all k1,k2", "why_tests_cant": "It is an identity between functions of a real argument and real parameters; finitely many sampled points never establish it.", "anchors": ["src/univariate/chi_sq.rs: convolve"]}
{"id": "C95", "title": "Gamma family cdfs are consistent", "statement": "Chi.cdf(x) = ChiSq.cdf(x^2) and ChiSq(k) = Gamma(k/2, 1/2) have equal cdfs.", "quantifier": "all k, x > 0", "why_tests_cant": "It is an identity between functions of a real argument and real parameters; finitely many sampled points never establish it.", "anchors": ["src/univariate/chi.rs", "src/univariate/chi_sq.rs", "src/univariate/gamma.rs"]}
{"id": "C96", "title": "Gamma", "statement": "pdf is the Gamma(alpha, rate beta) density; mean alpha/beta, variance alpha/beta^2; mode maximises pdf for alpha >= 1.", "quantifier": "all alpha, beta > 0", "why_tests_cant": "It is an identity between functions of a real argument and real parameters; finitely many sampled points never establish it.", "anchors": ["src/univariate/gamma.rs"]}
{"id": "C97", "title": "Gamma convolution", "statement": "convolve succeeds exactly for equal rates and returns Gamma(a1+a2, rate).", "quantifier": "all pairs", "why_tests_cant": "It is an identity between functions of a real argument and real parameters; finitely many sampled points never establish it.", "anchors": ["src/univariate/gamma.rs: convolve"]}
{"id": "C98", "title": "Beta", "statement": "pdf is the Beta(alpha,beta) density, mean alpha/(alpha+beta), variance the Beta variance, interior mode maximises pdf.", "quantifier": "all alpha, beta > 0, x", "why_tests_cant": "It is an identity between functions of a real argument and real parameters; finitely many sampled points never establish it.", "anchors": ["src/univariate/beta.rs"]}
{"id": "C99", "title": "Log-normal", "statement": "cdf(x) = normal cdf of ln x; pdf is its derivative; mean/variance agree with it.", "quantifier": "all mu, sigma, x > 0", "why_tests_cant": "It is an identity between functions of a real argument and real parameters; finitely many sampled points never establish it.", "anchors": ["src/univariate/lognormal.rs"]}
{"id": "C100", "title": "Dirichlet", "statement": "mean alpha/alpha0, variance = diag covariance, covariance matrix symmetric with zero row sums.", "quantifier": "all alpha", "why_tests_cant": "It is an identity between functions of a real argument and real parameters; finitely many sampled points never establish it.", "anchors": ["src/multivariate/dirichlet.rs"]}
{"id": "C101", "title": "Dirichlet sampling", "statement": "samples lie on the simplex (sum to 1).", "quantifier": "all alpha, all draws", "why_tests_cant": "It ranges over every RNG stream / every length of history, which no finite test run enumerates.", "anchors": ["src/multivariate/dirichlet.rs: sample"]}
{"id": "C102", "title": "Multinomial moments", "statement": "mean n p_i, covariance n(diag p - p p^T), variance its diagonal, correlation = cov normalised.", "quantifier": "all n, p", "why_tests_cant": "It is an identity between functions of a real argument and real parameters; finitely many sampled points never establish it.", "anchors": ["src/multivariate/multinomial.rs"]}
{"id": "C103", "title": "Multinomial pmf is defined on its support", "statement": "pmf(x) returns n!/prod x_i! prod p_i^x_i when sum x = n and 0 otherwise.", "quantifier": "all n, p, x", "why_tests_cant": "It is an identity between functions of a real argument and real parameters; finitely many sampled points never establish it.", "anchors": ["src/multivariate/multinomial.rs: pmf, log_pmf"]}
{"id": "C104", "title": "Multivariate log-normal covariance", "statement": "covariance(i,j) = exp(mu_i+mu_j+(S_ii+S_jj)/2)(exp(S_ij)-1) for all i,j; symmetric.", "quantifier": "all dimensions, all parameters", "why_tests_cant": "It is an identity between functions of a real argument and real parameters; finitely many sampled points never establish it.", "anchors": ["src/multivariate/lognormal.rs: covariance"]}
{"id": "C105", "title": "Multivariate normal density", "statement": "pdf(x) = exp(-(x-mu)^T Sigma^{-1} (x-mu)/2) / sqrt((2 pi)^n det Sigma), a density of total mass 1, for general, diagonal and isotropic covariances.", "quantifier": "all dimensions, all parameters, all x", "why_tests_cant": "It is an identity between functions of a real argument and real parameters; finitely many sampled points never establish it.", "anchors": ["src/normal/multivariate.rs: pdf"]}
{"id": "C106", "title": "A pdf integrates to 1: degenerate law", "statement": "Where a continuous distribution offers pdf, it is the density of its cdf (total mass 1): for the f64 degenerate law no density exists, so pdf should not return a finite positive function.", "quantifier": "all k", "why_tests_cant": "It is an identity between functions of a real argument and real parameters; finitely many sampled points never establish it.", "anchors": ["src/univariate/degenerate.rs: pdf"]}
{"id": "C107", "title": "Arcsine off its support", "statement": "cdf is 0 below the support and 1 above it and always a valid Probability; pdf is 0 off the support.", "quantifier": "all a, w > 0, x", "why_tests_cant": "It is an identity between functions of a real argument and real parameters; finitely many sampled points never establish it.", "anchors": ["src/univariate/arcsine.rs: cdf, pdf"]}
{"id": "C108", "title": "Frechet off its support", "statement": "cdf(x) is 0 for x < 0 and always a valid Probability.", "quantifier": "all alpha > 0, x < 0", "why_tests_cant": "It is an identity between functions of a real argument and real parameters; finitely many sampled points never establish it.", "anchors": ["src/univariate/frechet.rs: cdf, pdf"]}
{"id": "C109", "title": "Rayleigh off its support", "statement": "cdf(x) and pdf(x) are 0 for x < 0.", "quantifier": "all sigma > 0, x < 0", "why_tests_cant": "It is an identity between functions of a real argument and real parameters; finitely many sampled points never establish it.", "anchors": ["src/univariate/rayleigh.rs: cdf, pdf"]}
{"id": "C110", "title": "Pareto Fisher information", "statement": "fisher_information is the Fisher information matrix of the Pareto family in (x_m, alpha).", "quantifier": "all x_m, alpha > 0", "why_tests_cant": "It is an identity between functions of a real argument and real parameters; finitely many sampled points never establish it.", "anchors": ["src/univariate/pareto.rs: fisher_information"]}
{"id": "C111", "title": "Generalised Pareto / extreme value below the support", "statement": "cdf is 0 and pdf 0 below the left end of the support, and cdf is always a valid Probability.", "quantifier": "all parameters, x below the support", "why_tests_cant": "It is an identity between functions of a real argument and real parameters; finitely many sampled points never establish it.", "anchors": ["src/univariate/gpd.rs: cdf, pdf", "src/univariate/gev.rs: cdf, pdf"]}
{"id": "C112", "title": "Generalised extreme value with tiny shape", "statement": "pdf is the derivative of cdf also for 0 < zeta < 1e-7.", "quantifier": "all parameters with zeta < 1e-7, x", "why_tests_cant": "It is an identity between functions of a real argument and real parameters; finitely many sampled points never establish it.", "anchors": ["src/univariate/gev.rs: t_func, pdf"]}
{"id": "C113", "title": "Kumaraswamy entropy", "statement": "shannon_entropy is the differential entropy of the Kumaraswamy law (with the generalised harmonic number of b).", "quantifier": "all a, b > 0", "why_tests_cant": "It is an identity between functions of a real argument and real parameters; finitely many sampled points never establish it.", "anchors": ["src/univariate/kumaraswamy.rs: shannon_entropy, harmonic_n"]}
{"id": "C114", "title": "Kumaraswamy off its support", "statement": "cdf(x) is 0 for x < 0 and 1 for x > 1 and always a valid Probability.", "quantifier": "all a, b > 0, x outside [0,1]", "why_tests_cant": "It is an identity between functions of a real argument and real parameters; finitely many sampled points never establish it.", "anchors": ["src/univariate/kumaraswamy.rs: cdf"]}
{"id": "C115", "title": "Cosine off its support", "statement": "cdf(x) is 0 below mu - s, 1 above mu + s, always a valid Probability.", "quantifier": "all mu, s > 0, x outside the support", "why_tests_cant": "It is an identity between functions of a real argument and real parameters; finitely many sampled points never establish it.", "anchors": ["src/univariate/cosine.rs: cdf"]}
{"id": "C116", "title": "Cosine kurtosis", "statement": "excess_kurtosis is the fourth standardised moment of the raised-cosine law minus 3.", "quantifier": "all mu, s > 0", "why_tests_cant": "It is an identity between functions of a real argument and real parameters; finitely many sampled points never establish it.", "anchors": ["src/univariate/cosine.rs: excess_kurtosis"]}
{"id": "C117", "title": "Triangular entropy", "statement": "shannon_entropy is the differential entropy 1/2 + ln((b-a)/2).", "quantifier": "all a < c < b", "why_tests_cant": "It is an identity between functions of a real argument and real parameters; finitely many sampled points never establish it.", "anchors": ["src/univariate/triangular.rs: shannon_entropy"]}
{"id": "C118", "title": "Bernoulli kurtosis", "statement": "kurtosis is the fourth standardised moment and excess_kurtosis is that minus 3.", "quantifier": "all p in (0,1)", "why_tests_cant": "It is an identity between functions of a real argument and real parameters; finitely many sampled points never establish it.", "anchors": ["src/univariate/bernoulli.rs: kurtosis, excess_kurtosis"]}
{"id": "C119", "title": "Bernoulli median, modes, entropy", "statement": "median is a median, modes are exactly the most likely values, shannon_entropy is the entropy in nats.", "quantifier": "all p in [0,1]", "why_tests_cant": "It is an identity between functions of a real argument and real parameters; finitely many sampled points never establish it.", "anchors": ["src/univariate/bernoulli.rs: median, modes, shannon_entropy"]}
{"id": "C120", "title": "Bernoulli likelihood, Fisher information, score", "statement": "log_likelihood is the (additive) sum of log-masses, fisher_information is 1/(p q), score is the derivative of the log-likelihood.", "quantifier": "all p in (0,1), all samples", "why_tests_cant": "It is an identity between functions of a real argument and real parameters; finitely many sampled points never establish it.", "anchors": ["src/univariate/bernoulli.rs: log_likelihood, fisher_information, score"]}
{"id": "C121", "title": "Binomial cdf", "statement": "cdf(k) is the sum of the masses up to k.", "quantifier": "all n, p, k", "why_tests_cant": "It is an identity between functions of a real argument and real parameters; finitely many sampled points never establish it.", "anchors": ["src/univariate/binomial.rs: cdf"]}
{"id": "C122", "title": "Binomial modes, median, entropy", "statement": "modes are the most likely counts, median is a median, shannon_entropy is the entropy of the law.", "quantifier": "all n, p", "why_tests_cant": "It is an identity between functions of a real argument and real parameters; finitely many sampled points never establish it.", "anchors": ["src/univariate/binomial.rs: modes, median, shannon_entropy"]}
{"id": "C123", "title": "Geometric shape and mode", "statement": "skewness and kurtosis are the standardised moments of the geometric law and 0 is its only mode.", "quantifier": "all p in (0,1)", "why_tests_cant": "It is an identity between functions of a real argument and real parameters; finitely many sampled points never establish it.", "anchors": ["src/univariate/geometric.rs: skewness, excess_kurtosis, modes"]}
{"id": "C124", "title": "Geometric median and entropy", "statement": "median is a median of the law and shannon_entropy its entropy in nats.", "quantifier": "all p in (0,1]", "why_tests_cant": "It is an identity between functions of a real argument and real parameters; finitely many sampled points never establish it.", "anchors": ["src/univariate/geometric.rs: median, shannon_entropy"]}
{"id": "C125", "title": "Poisson kurtosis, Fisher information, median, modes, entropy", "statement": "kurtosis is the fourth standardised moment, fisher_information is 1/lambda, median is a median, modes are the most likely counts, shannon_entropy is the entropy.", "quantifier": "all lambda > 0", "why_tests_cant": "It is an identity between functions of a real argument and real parameters; finitely many sampled points never establish it.", "anchors": ["src/univariate/poisson.rs: kurtosis, fisher_information, median, modes, shannon_entropy"]}
{"id": "C126", "title": "Geometric parameter range", "statement": "Every parameter accepted by Geometric::new defines a probability law (masses sum to 1).", "quantifier": "all p accepted by new", "why_tests_cant": "It is an identity between functions of a real argument and real parameters; finitely many sampled points never establish it.", "anchors": ["src/univariate/geometric.rs: new"]}
{"id": "C127", "title": "Categorical support", "statement": "support is {0..N-1}; pmf is defined on all of it.", "quantifier": "all weight vectors", "why_tests_cant": "It is an identity between functions of a real argument and real parameters; finitely many sampled points never establish it.", "anchors": ["src/univariate/categorical.rs: support, pmf"]}
{"id": "C128", "title": "Gamma cdf", "statement": "cdf(x) is the integral of the Gamma(alpha, beta) density up to x (0 for x <= 0), a valid Probability.", "quantifier": "all alpha, beta > 0, x", "why_tests_cant": "It is an identity between functions of a real argument and real parameters; finitely many sampled points never establish it.", "anchors": ["src/univariate/gamma.rs: cdf"]}
{"id": "C129", "title": "Gamma log-likelihood", "statement": "log_likelihood of a sample is the sum of the logs of the Gamma density at its points.", "quantifier": "all alpha, beta > 0, all samples", "why_tests_cant": "It is an identity between functions of a real argument and real parameters; finitely many sampled points never establish it.", "anchors": ["src/univariate/gamma.rs: log_likelihood"]}
{"id": "C130", "title": "Gamma score", "statement": "score is the gradient of the Gamma log-likelihood in (alpha, beta).", "quantifier": "all alpha, beta > 0, all samples", "why_tests_cant": "It is an identity between functions of a real argument and real parameters; finitely many sampled points never establish it.", "anchors": ["src/univariate/gamma.rs: score"]}
{"id": "C131", "title": "Gamma plus exponential", "statement": "Gamma(a, l).convolve(Exponential(l)) is the law of the independent sum; different rates are refused.", "quantifier": "all a > 0, all rates", "why_tests_cant": "It is an identity between functions of a real argument and real parameters; finitely many sampled points never establish it.", "anchors": ["src/univariate/gamma.rs: Convolution<Exponential>"]}
{"id": "C132", "title": "Chi-squared cdf", "statement": "cdf(x) is the integral of the chi-squared density up to x.", "quantifier": "all k >= 1, x", "why_tests_cant": "It is an identity between functions of a real argument and real parameters; finitely many sampled points never establish it.", "anchors": ["src/univariate/chi_sq.rs: cdf"]}
{"id": "C133", "title": "Chi-squared median", "statement": "median halves the probability mass.", "quantifier": "all k >= 1", "why_tests_cant": "It is an identity between functions of a real argument and real parameters; finitely many sampled points never establish it.", "anchors": ["src/univariate/chi_sq.rs: median"]}
{"id": "C134", "title": "Chi law", "statement": "pdf, cdf, mean, variance, skewness, kurtosis and mode of Chi(k) are those of the square root of a chi-squared variable.", "quantifier": "all k >= 1, x", "why_tests_cant": "It is an identity between functions of a real argument and real parameters; finitely many sampled points never establish it.", "anchors": ["src/univariate/chi.rs"]}
{"id": "C135", "title": "Chi entropy", "statement": "shannon_entropy is the differential entropy of the chi law.", "quantifier": "all k >= 1", "why_tests_cant": "It is an identity between functions of a real argument and real parameters; finitely many sampled points never establish it.", "anchors": ["src/univariate/chi.rs: shannon_entropy"]}
{"id": "C136", "title": "Chi median", "statement": "median halves the probability mass.", "quantifier": "all k >= 1", "why_tests_cant": "It is an identity between functions of a real argument and real parameters; finitely many sampled points never establish it.", "anchors": ["src/univariate/chi.rs: median"]}
{"id": "C137", "title": "Erlang moments and mode", "statement": "mean, variance, skewness, kurtosis and mode are those of the Gamma(k, lambda) law.", "quantifier": "all k >= 1, lambda > 0", "why_tests_cant": "It is an identity between functions of a real argument and real parameters; finitely many sampled points never establish it.", "anchors": ["src/univariate/erlang.rs: mean, variance, skewness, excess_kurtosis, modes"]}
{"id": "C138", "title": "Erlang density", "statement": "pdf(x) is the Gamma(k, lambda) density at x.", "quantifier": "all k >= 1, lambda > 0, x > 0", "why_tests_cant": "It is an identity between functions of a real argument and real parameters; finitely many sampled points never establish it.", "anchors": ["src/univariate/erlang.rs: pdf, log_pdf"]}
{"id": "C139", "title": "Erlang cdf", "statement": "cdf(x) is the integral of the Gamma(k, lambda) density up to x.", "quantifier": "all k >= 1, lambda > 0, x > 0", "why_tests_cant": "It is an identity between functions of a real argument and real parameters; finitely many sampled points never establish it.", "anchors": ["src/univariate/erlang.rs: cdf"]}
{"id": "C140", "title": "Inverse-gamma law", "statement": "pdf is the inverse-gamma density, mean, variance, skewness, kurtosis exist exactly for alpha > 1, 2, 3, 4 and are returned then and refused otherwise; mode beta/(alpha+1).", "quantifier": "all alpha, beta > 0, x > 0", "why_tests_cant": "It is an identity between functions of a real argument and real parameters; finitely many sampled points never establish it.", "anchors": ["src/univariate/inverse_gamma.rs"]}
{"id": "C141", "title": "Inverse-gamma cdf", "statement": "cdf is the (non-decreasing) integral of the density.", "quantifier": "all alpha, beta > 0, x > 0", "why_tests_cant": "It is an identity between functions of a real argument and real parameters; finitely many sampled points never establish it.", "anchors": ["src/univariate/inverse_gamma.rs: cdf"]}
{"id": "C142", "title": "Beta kurtosis", "statement": "kurtosis is the fourth standardised moment of the Beta law.", "quantifier": "all alpha, beta > 0", "why_tests_cant": "It is an identity between functions of a real argument and real parameters; finitely many sampled points never establish it.", "anchors": ["src/univariate/beta.rs: excess_kurtosis"]}
{"id": "C143", "title": "Beta median", "statement": "median halves the probability mass.", "quantifier": "all alpha, beta > 0", "why_tests_cant": "It is an identity between functions of a real argument and real parameters; finitely many sampled points never establish it.", "anchors": ["src/univariate/beta.rs: median"]}
{"id": "C144", "title": "Beta modes", "statement": "modes returns the maximisers of the density.", "quantifier": "all alpha, beta > 0", "why_tests_cant": "It is an identity between functions of a real argument and real parameters; finitely many sampled points never establish it.", "anchors": ["src/univariate/beta.rs: modes"]}
{"id": "C145", "title": "Beta log-likelihood", "statement": "log_likelihood of a sample from the unit interval is the sum of the logs of the Beta density at its points.", "quantifier": "all alpha, beta > 0, all samples", "why_tests_cant": "It is an identity between functions of a real argument and real parameters; finitely many sampled points never establish it.", "anchors": ["src/univariate/beta.rs: log_likelihood"]}
{"id": "C146", "title": "Beta score", "statement": "score is the gradient of the Beta log-likelihood in (alpha, beta).", "quantifier": "all alpha, beta > 0, all samples", "why_tests_cant": "It is an identity between functions of a real argument and real parameters; finitely many sampled points never establish it.", "anchors": ["src/univariate/beta.rs: score"]}
{"id": "C147", "title": "Beta density is never negative", "statement": "pdf(x) >= 0 for every x it is defined at.", "quantifier": "all alpha, beta > 0, all x", "why_tests_cant": "It is an identity between functions of a real argument and real parameters; finitely many sampled points never establish it.", "anchors": ["src/univariate/beta.rs: pdf"]}
{"id": "C148", "title": "Beta prime law", "statement": "pdf and cdf are those of the Beta prime law; mean, variance and skewness are returned exactly when they exist (beta > 1, 2, 3) and are then the law's; modes are its maximisers.", "quantifier": "all alpha, beta > 0, x", "why_tests_cant": "It is an identity between functions of a real argument and real parameters; finitely many sampled points never establish it.", "anchors": ["src/univariate/beta_prime.rs"]}
{"id": "C149", "title": "Beta prime kurtosis", "statement": "kurtosis is the fourth standardised moment.", "quantifier": "all alpha > 0, beta > 4", "why_tests_cant": "It is an identity between functions of a real argument and real parameters; finitely many sampled points never establish it.", "anchors": ["src/univariate/beta_prime.rs: excess_kurtosis"]}
{"id": "C150", "title": "Beta prime entropy", "statement": "shannon_entropy is the differential entropy of the Beta prime law.", "quantifier": "all alpha, beta > 0", "why_tests_cant": "It is an identity between functions of a real argument and real parameters; finitely many sampled points never establish it.", "anchors": ["src/univariate/beta_prime.rs: shannon_entropy"]}
{"id": "C151", "title": "F law", "statement": "pdf and cdf are those of Fisher's F law; mean and variance are returned exactly when they exist (d2 > 2, 4); the mode is the maximiser.", "quantifier": "all d1, d2 >= 1, x", "why_tests_cant": "It is an identity between functions of a real argument and real parameters; finitely many sampled points never establish it.", "anchors": ["src/univariate/f_dist.rs"]}
{"id": "C152", "title": "F skewness", "statement": "skewness is returned exactly when it exists (d2 > 6) and is then the law's.", "quantifier": "all d1, d2 >= 1", "why_tests_cant": "It is an identity between functions of a real argument and real parameters; finitely many sampled points never establish it.", "anchors": ["src/univariate/f_dist.rs: skewness"]}
{"id": "C153", "title": "F kurtosis", "statement": "kurtosis is the fourth standardised moment when d2 > 8.", "quantifier": "all d1 >= 1, d2 > 8", "why_tests_cant": "It is an identity between functions of a real argument and real parameters; finitely many sampled points never establish it.", "anchors": ["src/univariate/f_dist.rs: excess_kurtosis"]}
{"id": "C154", "title": "F entropy", "statement": "shannon_entropy is the differential entropy of the F law.", "quantifier": "all d1, d2 >= 1", "why_tests_cant": "It is an identity between functions of a real argument and real parameters; finitely many sampled points never establish it.", "anchors": ["src/univariate/f_dist.rs: shannon_entropy"]}
{"id": "C155", "title": "Student t parameter range", "statement": "Every degrees-of-freedom value accepted by StudentT::new defines a probability law.", "quantifier": "all values accepted by new", "why_tests_cant": "It is an identity between functions of a real argument and real parameters; finitely many sampled points never establish it.", "anchors": ["src/univariate/student_t.rs: new"]}
{"id": "C156", "title": "Student t law", "statement": "pdf is the Student density; mean, variance, skewness, kurtosis are returned exactly when they exist (nu > 1, 2, 3, 4) and are then the law's; median 0 and mode 0 are right.", "quantifier": "all nu > 0, x", "why_tests_cant": "It is an identity between functions of a real argument and real parameters; finitely many sampled points never establish it.", "anchors": ["src/univariate/student_t.rs"]}
{"id": "C157", "title": "Student t cdf", "statement": "cdf(x) is the integral of the Student density up to x, a valid Probability.", "quantifier": "all nu > 0, x", "why_tests_cant": "It is an identity between functions of a real argument and real parameters; finitely many sampled points never establish it.", "anchors": ["src/univariate/student_t.rs: cdf"]}
{"id": "C158", "title": "Student t entropy", "statement": "shannon_entropy is the differential entropy of the Student law.", "quantifier": "all nu > 0", "why_tests_cant": "It is an identity between functions of a real argument and real parameters; finitely many sampled points never establish it.", "anchors": ["src/univariate/student_t.rs: shannon_entropy"]}
{"id": "C159", "title": "Beta-binomial law", "statement": "pmf(k) is the binomial mass averaged over a Beta(alpha, beta) success probability, the masses sum to 1, mean and variance are the law's.", "quantifier": "all n, alpha, beta > 0, k <= n", "why_tests_cant": "It is an identity between functions of a real argument and real parameters; finitely many sampled points never establish it.", "anchors": ["src/univariate/beta_binomial.rs: pmf, mean, variance"]}
{"id": "C160", "title": "Beta-binomial skewness", "statement": "skewness is the third standardised moment.", "quantifier": "all n >= 1, alpha, beta > 0", "why_tests_cant": "It is an identity between functions of a real argument and real parameters; finitely many sampled points never establish it.", "anchors": ["src/univariate/beta_binomial.rs: skewness"]}
{"id": "C161", "title": "Beta-binomial kurtosis", "statement": "kurtosis is the fourth standardised moment.", "quantifier": "all n >= 1, alpha, beta > 0", "why_tests_cant": "It is an identity between functions of a real argument and real parameters; finitely many sampled points never establish it.", "anchors": ["src/univariate/beta_binomial.rs: kurtosis"]}
{"id": "C162", "title": "Beta-binomial support and cdf", "statement": "support is {0..n}, the values of positive mass; cdf(k) is the sum of the masses up to k.", "quantifier": "all n, alpha, beta > 0, k", "why_tests_cant": "It is an identity between functions of a real argument and real parameters; finitely many sampled points never establish it.", "anchors": ["src/univariate/beta_binomial.rs: support, cdf"]}
{"id": "C163", "title": "Levy law", "statement": "pdf is the Levy density above mu, which integrates to the Levy cdf; no moment exists and mean/variance are infinite, skewness and kurtosis are refused; the entropy is the law's.", "quantifier": "all mu, c > 0, x > mu", "why_tests_cant": "It is an identity between functions of a real argument and real parameters; finitely many sampled points never establish it.", "anchors": ["src/univariate/levy.rs"]}
{"id": "C164", "title": "Levy density at the edge of the support", "statement": "pdf(x) is a number, 0, at x = mu and below.", "quantifier": "all mu, c > 0, x <= mu", "why_tests_cant": "It is an identity between functions of a real argument and real parameters; finitely many sampled points never establish it.", "anchors": ["src/univariate/levy.rs: pdf, support"]}
{"id": "C165", "title": "Levy cdf", "statement": "cdf(x) is the integral of the Levy density up to x, a valid probability at every x.", "quantifier": "all mu, c > 0, x", "why_tests_cant": "It is an identity between functions of a real argument and real parameters; finitely many sampled points never establish it.", "anchors": ["src/univariate/levy.rs: cdf"]}
{"id": "C166", "title": "Levy mode and median", "statement": "modes returns the maximiser of the density, median the point halving the mass, for every location.", "quantifier": "all mu, c > 0", "why_tests_cant": "It is an identity between functions of a real argument and real parameters; finitely many sampled points never establish it.", "anchors": ["src/univariate/levy.rs: modes, median"]}
{"id": "C167", "title": "Log-normal skewness and kurtosis", "statement": "skewness and kurtosis are the third and fourth standardised moments of the law with distribution function cdf.", "quantifier": "all mu, v > 0", "why_tests_cant": "It is an identity between functions of a real argument and real parameters; finitely many sampled points never establish it.", "anchors": ["src/univariate/lognormal.rs: skewness, kurtosis"]}
{"id": "C168", "title": "Log-normal mode", "statement": "modes returns the maximiser of the density of the law with distribution function cdf.", "quantifier": "all mu, v > 0", "why_tests_cant": "It is an identity between functions of a real argument and real parameters; finitely many sampled points never establish it.", "anchors": ["src/univariate/lognormal.rs: modes"]}
{"id": "C169", "title": "Log-normal entropy", "statement": "shannon_entropy is the differential entropy of the law with distribution function cdf.", "quantifier": "all mu, v > 0", "why_tests_cant": "It is an identity between functions of a real argument and real parameters; finitely many sampled points never establish it.", "anchors": ["src/univariate/lognormal.rs: shannon_entropy"]}
{"id": "C170", "title": "Log-normal Fisher information", "statement": "fisher_information is the Fisher information of the family in its two parameters.", "quantifier": "all mu, v > 0", "why_tests_cant": "It is an identity between functions of a real argument and real parameters; finitely many sampled points never establish it.", "anchors": ["src/univariate/lognormal.rs: fisher_information"]}
{"id": "C171", "title": "Log-normal sampling", "statement": "sample has the law with distribution function cdf.", "quantifier": "all mu, v > 0, all generators", "why_tests_cant": "It is an identity between functions of a real argument and real parameters; finitely many sampled points never establish it.", "anchors": ["src/univariate/lognormal.rs: sample"]}
{"id": "C172", "title": "Log-normal below the support", "statement": "pdf(x) and cdf(x) are 0 for x < 0.", "quantifier": "all mu, v > 0, x < 0", "why_tests_cant": "It is an identity between functions of a real argument and real parameters; finitely many sampled points never establish it.", "anchors": ["src/univariate/lognormal.rs: pdf, cdf"]}
{"id": "C173", "title": "Folded normal law", "statement": "pdf and cdf are those of |N(mu, sigma^2)| on [0, inf); mean, variance and precision agree; sample has that law; half_normal and standard are the mu = 0 cases.", "quantifier": "all mu, sigma > 0, x >= 0, all generators", "why_tests_cant": "It is an identity between functions of a real argument and real parameters; finitely many sampled points never establish it.", "anchors": ["src/univariate/folded_normal.rs"]}
{"id": "C174", "title": "Folded normal below the support", "statement": "pdf(x) and cdf(x) are 0 for x < 0.", "quantifier": "all mu, sigma > 0, x < 0", "why_tests_cant": "It is an identity between functions of a real argument and real parameters; finitely many sampled points never establish it.", "anchors": ["src/univariate/folded_normal.rs: pdf, cdf"]}
{"id": "C175", "title": "Folded normal mode", "statement": "modes returns a maximiser of the density.", "quantifier": "all mu, sigma > 0", "why_tests_cant": "It is an identity between functions of a real argument and real parameters; finitely many sampled points never establish it.", "anchors": ["src/univariate/folded_normal.rs: modes"]}
{"id": "C176", "title": "Folded normal skewness and kurtosis", "statement": "skewness and kurtosis, which exist for every parameter, are returned.", "quantifier": "all mu, sigma > 0", "why_tests_cant": "It is an identity between functions of a real argument and real parameters; finitely many sampled points never establish it.", "anchors": ["src/univariate/folded_normal.rs: skewness, kurtosis, excess_kurtosis"]}
{"id": "C177", "title": "Inverse Gaussian law", "statement": "pdf is the inverse Gaussian density on x > 0; mean, variance and skewness are the law's; modes returns its unique maximiser; all constructors agree.", "quantifier": "all mu, lambda > 0, x > 0", "why_tests_cant": "It is an identity between functions of a real argument and real parameters; finitely many sampled points never establish it.", "anchors": ["src/univariate/inverse_normal.rs"]}
{"id": "C178", "title": "Inverse Gaussian cdf", "statement": "cdf(x) is the integral of the density up to x, a valid probability.", "quantifier": "all mu, lambda > 0, x > 0", "why_tests_cant": "It is an identity between functions of a real argument and real parameters; finitely many sampled points never establish it.", "anchors": ["src/univariate/inverse_normal.rs: cdf"]}
{"id": "C179", "title": "Inverse Gaussian kurtosis", "statement": "kurtosis is the fourth standardised moment.", "quantifier": "all mu, lambda > 0", "why_tests_cant": "It is an identity between functions of a real argument and real parameters; finitely many sampled points never establish it.", "anchors": ["src/univariate/inverse_normal.rs: excess_kurtosis"]}
{"id": "C180", "title": "Inverse Gaussian entropy", "statement": "shannon_entropy is the differential entropy of the law.", "quantifier": "all mu, lambda > 0", "why_tests_cant": "It is an identity between functions of a real argument and real parameters; finitely many sampled points never establish it.", "anchors": ["src/univariate/inverse_normal.rs: shannon_entropy"]}
{"id": "C181", "title": "Inverse Gaussian sampling", "statement": "sample has exactly the inverse Gaussian law when its normal and uniform draws are ideal and independent.", "quantifier": "all mu, lambda > 0, all generators", "why_tests_cant": "It is an identity between functions of a real argument and real parameters; finitely many sampled points never establish it.", "anchors": ["src/univariate/inverse_normal.rs: sample"]}
{"id": "C182", "title": "Inverse Gaussian below the support", "statement": "pdf(x) is 0 for x < 0.", "quantifier": "all mu, lambda > 0, x < 0", "why_tests_cant": "It is an identity between functions of a real argument and real parameters; finitely many sampled points never establish it.", "anchors": ["src/univariate/inverse_normal.rs: pdf"]}
{"id": "C183", "title": "Multinomial support", "statement": "support() is the set of count vectors of positive mass.", "quantifier": "all n, p, count vectors", "why_tests_cant": "It is an identity between functions of a real argument and real parameters; finitely many sampled points never establish it.", "anchors": ["src/multivariate/multinomial.rs: support"]}
{"id": "C184", "title": "Multinomial counts near usize::MAX", "statement": "pmf and log_pmf treat a count vector by its true total: no panic, and no mass to vectors whose total is not n.", "quantifier": "all n, p, count vectors with entries below 2^64, both build profiles", "why_tests_cant": "It is an identity between functions of a real argument and real parameters; finitely many sampled points never establish it.", "anchors": ["src/multivariate/multinomial.rs: pmf, log_pmf"]}
{"id": "C185", "title": "Dirichlet density off the simplex", "statement": "pdf(x) is 0 when x is not a point of the simplex.", "quantifier": "all alpha, x", "why_tests_cant": "It is an identity between functions of a real argument and real parameters; finitely many sampled points never establish it.", "anchors": ["src/multivariate/dirichlet.rs: pdf"]}
{"id": "C186", "title": "Dirichlet density on the boundary", "statement": "pdf(x) is a number at every vector of numbers.", "quantifier": "all alpha, x", "why_tests_cant": "It is an identity between functions of a real argument and real parameters; finitely many sampled points never establish it.", "anchors": ["src/multivariate/dirichlet.rs: pdf, log_pdf"]}
{"id": "C187", "title": "Dirichlet mode", "statement": "modes() returns a maximiser of the density on the simplex, and none when there is none.", "quantifier": "all alpha", "why_tests_cant": "It is an identity between functions of a real argument and real parameters; finitely many sampled points never establish it.", "anchors": ["src/multivariate/dirichlet.rs: modes"]}
{"id": "C188", "title": "Multivariate log-normal mean and variance", "statement": "mean() and variance() are the mean and variance of each coordinate of the exponential of the Gaussian vector, for the general, diagonal and isotropic forms.", "quantifier": "all dimensions, means, positive definite covariances", "why_tests_cant": "It is an identity between functions of a real argument and real parameters; finitely many sampled points never establish it.", "anchors": ["src/multivariate/lognormal.rs: mean, variance"]}
{"id": "C189", "title": "Multivariate log-normal density", "statement": "pdf(x) is the density, at x with positive coordinates, of the exponential of the Gaussian vector.", "quantifier": "all dimensions, parameters, x", "why_tests_cant": "It is an identity between functions of a real argument and real parameters; finitely many sampled points never establish it.", "anchors": ["src/multivariate/lognormal.rs: pdf"]}
{"id": "C190", "title": "Multivariate log-normal sampling", "statement": "sample() consumes what the normal sampler consumes, and with ideal normal draws has the law whose moments are returned.", "quantifier": "all dimensions, parameters, generators", "why_tests_cant": "It ranges over every RNG stream / every length of history, which no finite test run enumerates.", "anchors": ["src/multivariate/lognormal.rs: sample"]}
{"id": "C191", "title": "Exponential, Cauchy, Weibull, triangular and uniform sampling", "statement": "sample() never panics and its value has exactly the law whose density pdf() returns.", "quantifier": "all parameters, all random sources whose elementary draws have the laws documented by rand and rand_distr", "why_tests_cant": "It ranges over every RNG stream / every length of history, which no finite test run enumerates.", "anchors": ["src/univariate/exponential.rs, cauchy.rs, weibull.rs, triangular.rs, uniform.rs: sample"]}
{"id": "C192", "title": "Pareto sampling", "statement": "sample() of a constructed Pareto distribution never panics and has the Pareto law.", "quantifier": "all parameters, all random sources whose elementary draws have the laws documented by rand and rand_distr", "why_tests_cant": "It ranges over every RNG stream / every length of history, which no finite test run enumerates.", "anchors": ["src/univariate/pareto.rs: new, sample"]}
{"id": "C193", "title": "Gamma sampling", "statement": "sample() has the Gamma law with the given shape and rate, the one pdf() describes.", "quantifier": "all parameters, all random sources whose elementary draws have the laws documented by rand and rand_distr", "why_tests_cant": "It ranges over every RNG stream / every length of history, which no finite test run enumerates.", "anchors": ["src/univariate/gamma.rs: sample, Into<rand_distr::Gamma>"]}
{"id": "C194", "title": "Beta, chi-squared and F sampling", "statement": "sample() never panics and has the Beta, chi-squared or Fisher law with the given parameters.", "quantifier": "all parameters, all random sources whose elementary draws have the laws documented by rand and rand_distr", "why_tests_cant": "It ranges over every RNG stream / every length of history, which no finite test run enumerates.", "anchors": ["src/univariate/beta.rs, chi_sq.rs, f_dist.rs: sample"]}
{"id": "C195", "title": "Student sampling", "statement": "sample() of a constructed Student distribution never panics and has Student's law.", "quantifier": "all parameters, all random sources whose elementary draws have the laws documented by rand and rand_distr", "why_tests_cant": "It ranges over every RNG stream / every length of history, which no finite test run enumerates.", "anchors": ["src/univariate/student_t.rs: new, sample"]}
{"id": "C196", "title": "Bernoulli, binomial and Poisson sampling", "statement": "sample() never panics and takes each value with the probability that pmf() returns (for Poisson, each value below u64::MAX).", "quantifier": "all parameters, all random sources whose elementary draws have the laws documented by rand and rand_distr", "why_tests_cant": "It ranges over every RNG stream / every length of history, which no finite test run enumerates.", "anchors": ["src/univariate/bernoulli.rs, binomial.rs, poisson.rs: sample"]}
{"id": "C197", "title": "Kumaraswamy and Laplace sampling", "statement": "sample() has the Kumaraswamy or Laplace law.", "quantifier": "all parameters, all random sources whose elementary draws have the laws documented by rand and rand_distr", "why_tests_cant": "It ranges over every RNG stream / every length of history, which no finite test run enumerates.", "anchors": ["src/univariate/kumaraswamy.rs, laplace.rs: sample"]}
{"id": "C198", "title": "A sampler for every distribution", "statement": "sample() of a constructed distribution returns a value.", "quantifier": "all distributions, parameters and sources", "why_tests_cant": "It ranges over every RNG stream / every length of history, which no finite test run enumerates.", "anchors": ["src/univariate/arcsine.rs, beta_binomial.rs, beta_prime.rs, chi.rs, cosine.rs, erlang.rs, gev.rs, gpd.rs, gumbel.rs, inverse_gamma.rs, levy.rs, logistic.rs, rayleigh.rs: sample"]}
{"id": "C199", "title": "Discrete uniform sampling", "statement": "sample() of a constructed discrete uniform distribution never panics and is uniform on the support.", "quantifier": "all parameters, all random sources whose elementary draws have the laws documented by rand and rand_distr, both build profiles", "why_tests_cant": "It ranges over every RNG stream / every length of history, which no finite test run enumerates.", "anchors": ["src/univariate/uniform.rs: sample"]}
{"id": "C200", "title": "Fréchet sampling", "statement": "sample() has the Fréchet law.", "quantifier": "all parameters, all random sources whose elementary draws have the laws documented by rand and rand_distr", "why_tests_cant": "It ranges over every RNG stream / every length of history, which no finite test run enumerates.", "anchors": ["src/univariate/frechet.rs: sample"]}
{"id": "C201", "title": "Geometric sampling", "statement": "sample() takes each value with the probability that pmf() returns.", "quantifier": "all parameters, all random sources whose elementary draws have the laws documented by rand and rand_distr", "why_tests_cant": "It ranges over every RNG stream / every length of history, which no finite test run enumerates.", "anchors": ["src/univariate/geometric.rs: sample"]}
{"id": "C202", "title": "Floating-point distribution functions on the whole line", "statement": "In rounded IEEE arithmetic, Logistic, Gumbel and Weibull cdf(x) is never NaN, lies in [0,1], is non-decreasing in x over all f64, is exactly 0 at the left end of the support and exactly 1 at +inf.", "quantifier": "all finite parameters accepted by the constructor; all f64 arguments of the interval, signed zeros and infinities included; IEEE rounded arithmetic (any correctly rounding + - * / sqrt with monotone library functions, binary64 in particular)", "why_tests_cant": "It is an identity between functions of a real argument and real parameters; finitely many sampled points never establish it.", "anchors": ["src/univariate/logistic.rs, gumbel.rs, weibull.rs: cdf"]}
{"id": "C203", "title": "Floating-point distribution functions with one-sided or bounded support", "statement": "In rounded IEEE arithmetic, Exponential, Pareto, Kumaraswamy and Frechet cdf(x) is a non-decreasing map into [0,1] for every f64 x.", "quantifier": "all finite parameters accepted by the constructor; all f64 arguments of the interval, signed zeros and infinities included; IEEE rounded arithmetic (any correctly rounding + - * / sqrt with monotone library functions, binary64 in particular)", "why_tests_cant": "It is an identity between functions of a real argument and real parameters; finitely many sampled points never establish it.", "anchors": ["src/univariate/exponential.rs, pareto.rs, kumaraswamy.rs, frechet.rs: cdf"]}
{"id": "C204", "title": "Floating-point distribution functions over special functions", "statement": "In rounded IEEE arithmetic with monotone special functions, Normal, LogNormal, FoldedNormal, Beta, Chi and Levy cdf(x) is non-decreasing on the support, lies in [0,1], and is exactly 0 and 1 at its ends.", "quantifier": "all finite parameters accepted by the constructor; all f64 arguments of the interval, signed zeros and infinities included; IEEE rounded arithmetic (any correctly rounding + - * / sqrt with monotone library functions, binary64 in particular)", "why_tests_cant": "It is an identity between functions of a real argument and real parameters; finitely many sampled points never establish it.", "anchors": ["src/univariate/normal.rs, lognormal.rs, folded_normal.rs, beta.rs, chi.rs, levy.rs: cdf"]}
{"id": "C205", "title": "Floating-point Cauchy and Arcsine distribution functions", "statement": "In rounded IEEE arithmetic, Cauchy and Arcsine cdf(x) is non-decreasing, never NaN and lies in [0,1] (is accepted as a Probability) for every f64 x.", "quantifier": "all finite parameters accepted by the constructor; all f64 arguments of the interval, signed zeros and infinities included; IEEE rounded arithmetic (any correctly rounding + - * / sqrt with monotone library functions, binary64 in particular)", "why_tests_cant": "It is an identity between functions of a real argument and real parameters; finitely many sampled points never establish it.", "anchors": ["src/univariate/cauchy.rs, arcsine.rs: cdf"]}
{"id": "C206", "title": "Floating-point uniform distribution function", "statement": "In rounded IEEE arithmetic, Uniform<f64> cdf(x) is non-decreasing and in [0,1], 0 at the lower and 1 at the upper end, for every pair of ends the constructor accepts.", "quantifier": "all finite parameters accepted by the constructor; all f64 arguments of the interval, signed zeros and infinities included; IEEE rounded arithmetic (any correctly rounding + - * / sqrt with monotone library functions, binary64 in particular)", "why_tests_cant": "It is an identity between functions of a real argument and real parameters; finitely many sampled points never establish it.", "anchors": ["src/univariate/uniform.rs: cdf"]}
{"id": "C207", "title": "Floating-point Rayleigh, triangular and cosine distribution functions", "statement": "In rounded IEEE arithmetic, Rayleigh, Triangular and Cosine cdf(x) is non-decreasing and in [0,1] for every f64 x, with 0 and 1 at the ends of the support.", "quantifier": "all finite parameters accepted by the constructor; all f64 arguments of the interval, signed zeros and infinities included; IEEE rounded arithmetic (any correctly rounding + - * / sqrt with monotone library functions, binary64 in particular)", "why_tests_cant": "It is an identity between functions of a real argument and real parameters; finitely many sampled points never establish it.", "anchors": ["src/univariate/rayleigh.rs, triangular.rs, cosine.rs: cdf"]}
{"id": "C208", "title": "Floating-point beta prime and F distribution functions", "statement": "In rounded IEEE arithmetic with a monotone incomplete beta function, BetaPrime and FDist cdf(x) is non-decreasing and in [0,1] on [0, +inf], and 1 at +inf.", "quantifier": "all finite parameters accepted by the constructor; all f64 arguments of the interval, signed zeros and infinities included; IEEE rounded arithmetic (any correctly rounding + - * / sqrt with monotone library functions, binary64 in particular)", "why_tests_cant": "It is an identity between functions of a real argument and real parameters; finitely many sampled points never establish it.", "anchors": ["src/univariate/beta_prime.rs, f_dist.rs: cdf"]}
{"id": "C209", "title": "Floating-point generalised Pareto and extreme value distribution functions", "statement": "In rounded IEEE arithmetic, GeneralisedPareto and GeneralisedExtremeValue cdf(x) is non-decreasing and in [0,1] for every f64 x.", "quantifier": "all finite parameters accepted by the constructor; all f64 arguments of the interval, signed zeros and infinities included; IEEE rounded arithmetic (any correctly rounding + - * / sqrt with monotone library functions, binary64 in particular)", "why_tests_cant": "It is an identity between functions of a real argument and real parameters; finitely many sampled points never establish it.", "anchors": ["src/univariate/gpd.rs, gev.rs: cdf"]}
{"id": "C210", "title": "Floating-point densities are never NaN", "statement": "In rounded IEEE arithmetic, pdf(x) of Exponential, Uniform, Laplace, Normal, LogNormal, FoldedNormal and GeneralisedPareto is a non-negative f64, never NaN, at every f64 x of the support, the infinities and the ends included.", "quantifier": "all finite parameters accepted by the constructor; all f64 arguments of the interval, signed zeros and infinities included; IEEE rounded arithmetic (any correctly rounding + - * / sqrt with monotone library functions, binary64 in particular)", "why_tests_cant": "It is an identity between functions of a real argument and real parameters; finitely many sampled points never establish it.", "anchors": ["src/univariate/exponential.rs, uniform.rs, laplace.rs, lognormal.rs, folded_normal.rs, gpd.rs: pdf; src/normal/univariate.rs: pdf"]}
{"id": "C211", "title": "Floating-point densities at the ends of the support", "statement": "In rounded IEEE arithmetic, pdf(x) of Cauchy, Logistic, Gumbel, Rayleigh, Frechet, Weibull, Gamma, ChiSq, Chi, Levy, InvGamma, FDist and InvNormal is a non-negative f64, never NaN, at every f64 x of the closed support, the infinities included.", "quantifier": "all finite parameters accepted by the constructor; all f64 arguments of the interval, signed zeros and infinities included; IEEE rounded arithmetic (any correctly rounding + - * / sqrt with monotone library functions, binary64 in particular)", "why_tests_cant": "It is an identity between functions of a real argument and real parameters; finitely many sampled points never establish it.", "anchors": ["src/univariate/cauchy.rs, logistic.rs, gumbel.rs, rayleigh.rs, frechet.rs, weibull.rs, gamma.rs, chi_sq.rs, chi.rs, levy.rs, inverse_gamma.rs, f_dist.rs, inverse_normal.rs: pdf"]}
{"id": "C212", "title": "Successive samples are independent", "statement": "sample_n(n) (n successive calls of sample) returns n values that are independent and all have the law the distribution describes: Exponential, Cauchy, Weibull, Triangular, Uniform<f64>, Beta, ChiSq, FDist, Kumaraswamy, Laplace, Binomial, Bernoulli, Poisson, Degenerate.", "quantifier": "all parameters, every n, all random sources whose elementary draws have the documented laws and leave a state independent of the value drawn", "why_tests_cant": "It ranges over every RNG stream / every length of history, which no finite test run enumerates.", "anchors": ["src/lib.rs: sample, sample_n; src/univariate/exponential.rs, cauchy.rs, weibull.rs, triangular.rs, uniform.rs, beta.rs, chi_sq.rs, f_dist.rs, kumaraswamy.rs, laplace.rs, binomial.rs, bernoulli.rs, poisson.rs, degenerate.rs: sample"]}
{"id": "C213", "title": "Successive samples are independent: Pareto, Gamma, Fréchet, Student, geometric, discrete uniform", "statement": "sample_n(n) returns n independent values of the law the distribution describes.", "quantifier": "all parameters, every n, all random sources whose elementary draws have the documented laws and leave a state independent of the value drawn", "why_tests_cant": "It ranges over every RNG stream / every length of history, which no finite test run enumerates.", "anchors": ["src/lib.rs: sample, sample_n; src/univariate/pareto.rs, gamma.rs, frechet.rs, student_t.rs, geometric.rs, uniform.rs: sample"]}
{"id": "C214", "title": "Successive normal, folded normal and inverse normal samples", "statement": "sample_n(n) returns n independent values of the normal, folded normal or inverse Gaussian law with the given parameters.", "quantifier": "all parameters, every n, all sources of standard normal (uniform, Gamma) variates whose draws have that law and leave a state independent of the value drawn", "why_tests_cant": "It ranges over every RNG stream / every length of history, which no finite test run enumerates.", "anchors": ["src/lib.rs: sample_n; src/normal/univariate.rs: sample; src/univariate/folded_normal.rs, inverse_normal.rs: sample"]}
{"id": "C215", "title": "Successive multivariate normal and log-normal samples", "statement": "sample_n(n) returns n independent vectors of the Gaussian (log-Gaussian) law with the given mean and covariance: general, bivariate, paired, diagonal and isotropic.", "quantifier": "all parameters, every n, all sources of standard normal (uniform, Gamma) variates whose draws have that law and leave a state independent of the value drawn; all dimensions", "why_tests_cant": "It ranges over every RNG stream / every length of history, which no finite test run enumerates.", "anchors": ["src/lib.rs: sample_n; src/normal/multivariate.rs, src/normal/bivariate.rs, src/normal/paired.rs, src/multivariate/lognormal.rs: sample"]}
{"id": "C216", "title": "Successive categorical and mixture samples", "statement": "For weights that add up to 1, sample_n(n) of a Categorical returns n independent indices, each with its weight, and sample_n(n) of a Mixture n independent values of the mixture law sum of w_i nu_i.", "quantifier": "all weights adding up to 1, all component samplers whose successive samples are independent, every n, all sources of uniform variates as above, both build profiles", "why_tests_cant": "It ranges over every RNG stream / every length of history, which no finite test run enumerates.", "anchors": ["src/lib.rs: sample_n; src/probability.rs: sample_index; src/mixture.rs: sample; src/univariate/categorical.rs: sample"]}
{"id": "C217", "title": "Successive log-normal and Dirichlet samples", "statement": "sample_n(n) returns n independent values of the log-normal (Dirichlet) law with the given parameters.", "quantifier": "all parameters, every n, all sources of standard normal (uniform, Gamma) variates whose draws have that law and leave a state independent of the value drawn", "why_tests_cant": "It ranges over every RNG stream / every length of history, which no finite test run enumerates.", "anchors": ["src/lib.rs: sample_n; src/univariate/lognormal.rs: sample; src/multivariate/dirichlet.rs: sample"]}
{"id": "C218", "title": "Checked constructors only check", "statement": "For every distribution, new(args) succeeds exactly when the arguments meet the documented conditions, and then returns what new_unchecked(args) returns; every other argument list is refused with an error.", "quantifier": "all distributions and all argument lists, NaN and infinities included", "why_tests_cant": "It is an identity between functions of a real argument and real parameters; finitely many sampled points never establish it.", "anchors": ["src/lib.rs: new_dist!; src/params/mod.rs: new, new_unchecked; src/univariate/*.rs: new, new_unchecked"]}
{"id": "C219", "title": "Standard distributions", "statement": "Every Default value, and every standard() constructor, is the distribution the checked constructor returns for the standard parameters.", "quantifier": "all distributions with a Default or standard()", "why_tests_cant": "It is an identity between functions of a real argument and real parameters; finitely many sampled points never establish it.", "anchors": ["src/univariate/*.rs: Default; src/normal/*.rs: standard"]}
{"id": "C220", "title": "Reported support", "statement": "support() is the support of the law: the law has no mass outside the returned set, and positive mass on every non-empty open part of it (for discrete laws: exactly its elements have positive mass).", "quantifier": "all distributions and accepted parameters", "why_tests_cant": "It is an identity between functions of a real argument and real parameters; finitely many sampled points never establish it.", "anchors": ["src/univariate/*.rs: support; src/normal/*.rs: support; src/multivariate/*.rs: support"]}
{"id": "C221", "title": "Reported counts", "statement": "size_hint() of the sampling iterator is a valid bound, n_categories() is the number of indices on which pmf answers, n_components() the number of weights and components of a mixture.", "quantifier": "all samplers, categorical distributions and mixtures", "why_tests_cant": "It is an identity between functions of a real argument and real parameters; finitely many sampled points never establish it.", "anchors": ["src/lib.rs: Sampler::size_hint; src/univariate/categorical.rs: n_categories; src/mixture.rs: n_components"]}
{"id": "C222", "title": "cdf at NaN", "statement": "For every distribution, cdf(x) is a valid probability for every f64 argument, NaN included, and pdf does not panic.", "quantifier": "all univariate continuous distributions, all accepted parameters, any floating-point arithmetic (the laws computed with special functions: any that propagate NaN)", "why_tests_cant": "The claim ranges over every accepted parameter and the special values NaN and infinity of f64, under any rounding; tests sample ordinary values.", "anchors": ["src/univariate/*.rs: cdf, pdf; src/normal/univariate.rs: cdf; src/probability.rs: new_unchecked, is_valid"]}
{"id": "C223", "title": "Constructors refuse NaN", "statement": "No checked constructor accepts a NaN parameter; in particular every cdf value of a constructed distribution at a number is a valid probability.", "quantifier": "all univariate distributions, all other parameters, every argument, any floating-point arithmetic", "why_tests_cant": "The claim ranges over every accepted parameter and the special values NaN and infinity of f64, under any rounding; tests sample ordinary values.", "anchors": ["src/params/mod.rs: locscale_params!, shape_params!; src/params/constraints.rs: check; src/univariate/*.rs: new, cdf"]}
{"id": "C224", "title": "Constructors refuse infinite parameters", "statement": "No checked constructor accepts an infinite parameter, or the cdf of the constructed distribution is still a valid probability at every number.", "quantifier": "univariate distributions with a scale, rate or location, all other parameters, any floating-point arithmetic", "why_tests_cant": "The claim ranges over every accepted parameter and the special values NaN and infinity of f64, under any rounding; tests sample ordinary values.", "anchors": ["src/params/mod.rs: locscale_params!, shape_params!; src/univariate/*.rs: new, cdf; src/normal/univariate.rs: new, cdf"]}
{"id": "C225", "title": "Serialised parameters survive", "statement": "With the serde feature, deserialising what was serialised gives back the same parameters, and converting them gives back the distribution they were taken from; struct fields are found by name in any order, unknown entries are ignored, missing or repeated fields are refused, integers are kept in range.", "quantifier": "all parameter types and all their values; any self-describing format that transports f64 and 64-bit integers unchanged", "why_tests_cant": "The claim ranges over every value of every serialisable type, every order and selection of map entries, and every datum a format can deliver; tests cover a few.", "anchors": ["src/params/mod.rs: param!, params!; src/probability.rs: Probability, SimplexVector; src/params/corr.rs, src/params/concentrations.rs, src/normal/mod.rs: Params, Covariance; src/utils.rs: serde_arrays; src/mixture.rs, src/multivariate/multinomial.rs: Params; src/univariate/*.rs: Params"]}
{"id": "C226", "title": "Deserialised values satisfy the checks of the constructors", "statement": "With the serde feature, a probability, simplex vector or parameter set obtained by deserialisation is one its checked constructor accepts, and converting it to a distribution neither panics nor is undefined.", "quantifier": "all parameter types, all data", "why_tests_cant": "The claim ranges over every value of every serialisable type, every order and selection of map entries, and every datum a format can deliver; tests cover a few.", "anchors": ["src/params/mod.rs: param!, params!; src/probability.rs: Probability, SimplexVector; src/params/corr.rs, src/params/concentrations.rs, src/normal/mod.rs: Params, Covariance; src/utils.rs: serde_arrays; src/mixture.rs, src/multivariate/multinomial.rs: Params; src/univariate/*.rs: Params; src/lib.rs: new_dist!; src/mixture.rs: From<Params>"]}
{"id": "C227", "title": "Quantile methods answer", "statement": "For every distribution that implements Quantiles, quantile(p), cquantile(p), the quartiles, iqr and the fences return a number.", "quantifier": "all thirty implementations, all distributions, all p", "why_tests_cant": "The claim ranges over every distribution of every type, every argument and every accepted parameter; a test observes one panic at one parameter.", "anchors": ["src/statistics.rs: Quantiles; src/univariate/*.rs: quantile; src/normal/univariate.rs: quantile"]}
{"id": "C228", "title": "Distribution functions answer", "statement": "For every distribution, cdf(x), ccdf(x), log_cdf(x) and log_ccdf(x) return a value, the last three being the complement and the logarithms of cdf(x).", "quantifier": "all distributions, all arguments", "why_tests_cant": "The claim ranges over every distribution of every type, every argument and every accepted parameter; a test observes one panic at one parameter.", "anchors": ["src/lib.rs: cdf, ccdf, log_cdf, log_ccdf; src/univariate/poisson.rs: cdf; src/multivariate/*.rs: cdf; src/normal/*.rs: cdf"]}
{"id": "C229", "title": "Higher moments answer", "statement": "skewness, kurtosis and excess_kurtosis return whenever these moments exist and refuse (documented) when they do not.", "quantifier": "mixtures, folded normal, Kumaraswamy and point-mass distributions, all parameters", "why_tests_cant": "The claim ranges over every distribution of every type, every argument and every accepted parameter; a test observes one panic at one parameter.", "anchors": ["src/mixture.rs: skewness, kurtosis; src/univariate/folded_normal.rs, kumaraswamy.rs, degenerate.rs: skewness, kurtosis, excess_kurtosis"]}
{"id": "C230", "title": "Parameters describe themselves", "statement": "For every parameter type, constraints() lists tests that a value passes exactly when the checked constructor accepts it, and value() and into_value() give back the value that was passed.", "quantifier": "all parameter types, all values", "why_tests_cant": "It is an identity between functions of a real argument and real parameters; finitely many sampled points never establish it.", "anchors": ["src/params/mod.rs: Param, impl_param!; src/params/corr.rs, src/params/concentrations.rs, src/probability.rs, src/normal/mod.rs: Param"]}
{"id": "C231", "title": "Multivariate log-normal constructors", "statement": "The checked constructors of the multivariate log-normal (dense, diagonal, isotropic, homogeneous, standard) accept exactly what those of the underlying normal accept, agree with the unchecked ones, and params() gives the arguments back, from which the same distribution is rebuilt.", "quantifier": "all dimensions, all arguments, any floating-point arithmetic", "why_tests_cant": "It is an identity between functions of a real argument and real parameters; finitely many sampled points never establish it.", "anchors": ["src/multivariate/lognormal.rs: new, diagonal, isotropic, homogeneous, standard, params, From"]}
{"id": "C232", "title": "Printed distributions are unambiguous", "statement": "Two distributions that print the same text are of the same family and have the same parameters (for the families that print their parameters).", "quantifier": "all pairs of distributions of thirty scalar families, of the categorical, Dirichlet, multinomial, isotropic log-normal, degenerate and paired normal families, all parameters and dimensions, any number printer that prints distinct f64 differently without punctuation", "why_tests_cant": "The claim ranges over every pair of values of every type (and constraints nested to any depth); tests compare a few strings.", "anchors": ["src/univariate/*.rs: Display; src/multivariate/*.rs, src/normal/univariate.rs, src/normal/paired.rs: Display; src/params/mod.rs: param! Display"]}
{"id": "C233", "title": "Printed derived quantities identify the parameters", "statement": "Where a distribution prints quantities computed from its parameters (uniform, arcsine, triangular, log-normal, folded normal, bivariate normal), the text still identifies the parameters.", "quantifier": "all pairs of distributions of one family, binary64 arithmetic", "why_tests_cant": "The claim ranges over every pair of values of every type (and constraints nested to any depth); tests compare a few strings.", "anchors": ["src/univariate/uniform.rs, arcsine.rs, triangular.rs, lognormal.rs, folded_normal.rs: Display; src/normal/bivariate.rs: Display"]}
{"id": "C234", "title": "Error messages are unambiguous", "statement": "The printed text of a constraint, however nested, determines which values it accepts; the message of an unsatisfied-constraint error determines the offending value, the parameter name and the accepted values; the messages of the probability errors determine the rejected value or vector.", "quantifier": "all constraints, values, parameter names; same assumptions on number printers", "why_tests_cant": "The claim ranges over every pair of values of every type (and constraints nested to any depth); tests compare a few strings.", "anchors": ["src/params/constraints.rs: Display of the constraints, UnsatisfiedConstraintError; src/probability.rs: InvalidProbabilityError, InvalidSimplexError"]}
{"id": "C235", "title": "Variances in floating point", "statement": "In IEEE double arithmetic, with overflow and underflow, variance() of any distribution built from finite accepted parameters is a non-negative number or +inf, never NaN or negative.", "quantifier": "all families with a variance, all finite parameters accepted by the constructor, subnormal and huge ones included", "why_tests_cant": "The claim ranges over every accepted parameter including the overflow and underflow ranges; tests sample ordinary values.", "anchors": ["src/univariate/*.rs: variance; src/normal/univariate.rs: variance"]}
{"id": "C236", "title": "Means, medians and modes in floating point", "statement": "In IEEE double arithmetic, mean(), median() and modes() of any distribution built from finite accepted parameters lie in the closed range of the support (+inf allowed on overflow when the support is unbounded), and are never NaN.", "quantifier": "all families with such a statistic, all finite parameters accepted by the constructor, subnormal and huge ones included", "why_tests_cant": "The claim ranges over every accepted parameter including the overflow and underflow ranges; tests sample ordinary values.", "anchors": ["src/univariate/*.rs: mean, median, modes"]}
{"id": "C237", "title": "Exponential laws agree across classes", "statement": "Exponential(λ), Gamma(1, λ), Erlang(1, λ), Weibull(1/λ, 1) and, for λ = 1/2, ChiSq(2) are one law: the methods they share (cdf, pdf, mean, variance, skewness, kurtosis, entropy, modes) return the same numbers on (0, ∞).", "quantifier": "all rates, all arguments > 0", "why_tests_cant": "The claim equates two independently coded classes on a continuum of parameters and arguments; a test compares them at a few points within a tolerance.", "anchors": ["src/univariate/exponential.rs, gamma.rs, erlang.rs, weibull.rs, chi_sq.rs: cdf, pdf, mean, variance, skewness, excess_kurtosis, shannon_entropy, modes"]}
{"id": "C238", "title": "Rayleigh laws agree across classes", "statement": "Rayleigh(σ) and Weibull(σ√2, 2), and Rayleigh(1) and Chi(2), are one law: the methods they share return the same numbers.", "quantifier": "all σ, all arguments > 0", "why_tests_cant": "The claim equates two independently coded classes on a continuum of parameters and arguments; a test compares them at a few points within a tolerance.", "anchors": ["src/univariate/rayleigh.rs, weibull.rs, chi.rs: cdf, pdf, mean, variance, skewness, median, shannon_entropy"]}
{"id": "C239", "title": "Laws on the unit interval agree across classes", "statement": "Beta(α, β) and Kumaraswamy(α, β) when a shape is 1, Beta(1, 1) and Uniform(0, 1), Beta(1/2, 1/2) and Arcsine(0, 1) are one law: the methods they share return the same numbers.", "quantifier": "all shapes concerned, all arguments of the unit interval", "why_tests_cant": "The claim equates two independently coded classes on a continuum of parameters and arguments; a test compares them at a few points within a tolerance.", "anchors": ["src/univariate/beta.rs, kumaraswamy.rs, uniform.rs, arcsine.rs: cdf, pdf, mean, variance, skewness, median, modes, shannon_entropy"]}
{"id": "C240", "title": "Heavy-tailed laws agree across classes", "statement": "Pareto(m, α) and GPD(m, m/α, 1/α), Frechet(α) and GEV(1, 1/α, 1/α), StudentT(1) and Cauchy(0, 1) are one law: the methods they share return the same numbers.", "quantifier": "all m, α > 0 concerned, all arguments of the support", "why_tests_cant": "The claim equates two independently coded classes on a continuum of parameters and arguments; a test compares them at a few points within a tolerance.", "anchors": ["src/univariate/pareto.rs, generalised_pareto.rs, frechet.rs, gev.rs, students_t.rs, cauchy.rs: cdf, pdf, mean, variance, median, modes, shannon_entropy"]}
{"id": "C241", "title": "Transformed variables", "statement": "Distribution functions of classes related by a change of variable satisfy the relation: exp of a normal is log-normal, X/(1-X) of a Beta is Beta prime, F from Beta, 1/X of a Weibull is Fréchet, exp of a Gumbel is Fréchet, -ln of a Weibull is Gumbel, exp of an exponential is Pareto, |X| of a normal is folded normal, 1/X of a Gamma is inverse-Gamma, Levy(0, c) is InvGamma(1/2, c/2).", "quantifier": "all parameters accepted by both classes, all arguments of the supports", "why_tests_cant": "The claim equates two independently coded classes on a continuum of parameters and arguments; a test compares them at a few points within a tolerance.", "anchors": ["src/univariate/lognormal.rs, beta_prime.rs, f.rs, frechet.rs, weibull.rs, gumbel.rs, pareto.rs, exponential.rs, folded_normal.rs, levy.rs, inverse_gamma.rs, gamma.rs: cdf, pdf, shannon_entropy; src/normal/univariate.rs: cdf"]}
{"id": "C242", "title": "Discrete laws agree across classes", "statement": "Binomial(1, p) and Bernoulli(p), BetaBinomial(n, 1, 1) and the discrete Uniform(0, n), Categorical[1-p, p] and Bernoulli(p) are one law, and a count of Multinomial(n, ps) is Binomial(n, ps[i]): the methods they share return the same numbers.", "quantifier": "all n, all probabilities, all arguments", "why_tests_cant": "The claim equates two independently coded classes on a continuum of parameters and arguments; a test compares them at a few points within a tolerance.", "anchors": ["src/univariate/binomial.rs, bernoulli.rs, beta_binomial.rs, uniform.rs, categorical.rs: pmf, cdf, mean, variance, skewness, excess_kurtosis; src/multivariate/multinomial.rs: mean, variance"]}
{"id": "C243", "title": "Normal laws agree across classes", "statement": "The isotropic, diagonal, paired, bivariate, dense multivariate and univariate normal classes agree wherever their parameters describe the same law: density, distribution function, mean, modes, variance, covariance, entropy, and the sample for the same draws.", "quantifier": "all dimensions, means, covariance matrices concerned, all points and draws", "why_tests_cant": "The claim equates two independently coded classes on a continuum of parameters and arguments; a test compares them at a few points within a tolerance.", "anchors": ["src/normal/univariate.rs, src/normal/bivariate.rs, src/normal/paired.rs, src/normal/multivariate.rs: pdf, mean, variance, covariance, shannon_entropy, sample"]}
{"id": "C244", "title": "Mixtures depend only on the weighted components", "statement": "Reordering the weighted components of a mixture, splitting a component into copies of total weight 1, or adding a component of weight 0 changes neither its cdf, pdf, mean nor variance.", "quantifier": "all component families, weights and components, any number of components, all arguments", "why_tests_cant": "It ranges over sequences of every length and content.", "anchors": ["src/mixture.rs: new, cdf, pdf, mean, variance"]}
{"id": "C245", "title": "Assigned mixture fields take effect", "statement": "After any sequence of assignments to the public fields weights and components of a mixture, every query answers as for a mixture built afresh from the present fields.", "quantifier": "all component families, all built mixtures, all histories of assignments of any length, all arguments, generators and arithmetics", "why_tests_cant": "It ranges over every RNG stream / every length of history, which no finite test run enumerates.", "anchors": ["src/mixture.rs: Mixture (pub weights, pub components, support), new_unchecked, cdf, pdf, mean, variance, sample, params, support"]}
{"id": "C246", "title": "Assigned Dirichlet concentrations take effect", "statement": "After any assignment to the public field alphas of a Dirichlet law, every query answers as for a law built afresh from the present concentrations.", "quantifier": "all dimensions, all positive concentrations before and after, all points, all generators", "why_tests_cant": "It ranges over every RNG stream / every length of history, which no finite test run enumerates.", "anchors": ["src/multivariate/dirichlet.rs: Dirichlet (pub alphas, alpha0, ln_beta_alphas, alphas_normed), mean, variance, pdf, sample, params"]}
{"id": "C247", "title": "Comparing probabilities", "statement": "Valid probabilities are totally ordered by the numbers they hold, equality (also with an f64) is equality of those numbers, zero and one are the extremes; checked and unchecked arithmetic respects the order after rounding; a NaN inside is comparable with nothing.", "quantifier": "all probabilities, all f64 values, every correctly rounded arithmetic", "why_tests_cant": "The claim ranges over every accepted parameter including the overflow and underflow ranges; tests sample ordinary values.", "anchors": ["src/probability.rs: derive(PartialEq, PartialOrd, Default), PartialEq<f64>, Add, Sub, Mul, Div, zero, one"]}
{"id": "C248", "title": "Mixtures in floating point", "statement": "In rounded IEEE arithmetic, for every mixture accepted by Mixture::new: cdf is non-negative and non-decreasing where the component cdfs are valid and non-decreasing, pdf is non-negative and never NaN where the component densities are non-negative, mean is never NaN and lies between the component means, variance is non-negative and never NaN.", "quantifier": "all component families, weights and components, any number of components, all f64 arguments, every correctly rounded arithmetic (binary64 in particular)", "why_tests_cant": "The claim ranges over every accepted parameter including the overflow and underflow ranges; tests sample ordinary values.", "anchors": ["src/mixture.rs: new, cdf, pdf, mean, variance; src/statistics.rs: standard_deviation"]}
{"id": "C249", "title": "Masses are probabilities in floating point", "statement": "In rounded IEEE arithmetic the mass every discrete law returns for an outcome of its support is a number between 0 and 1 (never NaN, infinite or negative).", "quantifier": "all parameters accepted by the constructors, all outcomes, every correctly rounded arithmetic (binary64 for the violations and the Poisson law)", "why_tests_cant": "The claim ranges over every accepted parameter including the overflow and underflow ranges; tests sample ordinary values.", "anchors": ["src/univariate/bernoulli.rs, binomial.rs, categorical.rs, geometric.rs, uniform.rs, poisson.rs: pmf; src/utils.rs: choose, log_factorial_stirling; src/probability.rs: powi"]}
{"id": "C250", "title": "Accuracy of floating-point masses", "statement": "In rounded IEEE arithmetic the masses and distribution functions of the discrete laws are those of the law up to an explicit rounding error.", "quantifier": "all parameters accepted by the constructors, all outcomes, every correctly rounded arithmetic (binary64 for the Poisson law and monotonicity)", "why_tests_cant": "The claim ranges over every accepted parameter including the overflow and underflow ranges; tests sample ordinary values.", "anchors": ["src/univariate/binomial.rs, geometric.rs, uniform.rs, poisson.rs: pmf, cdf; src/utils.rs: choose, log_factorial_stirling; src/probability.rs: powi"]}
{"id": "C251", "title": "Accuracy of floating-point distribution functions", "statement": "In rounded IEEE arithmetic with accurate elementary functions, the value returned by a continuous law's cdf differs from the real distribution function by at most 2^-47 (for Pareto, Weibull and the log-normal by an explicit multiple of 2^-51 that grows with the shape, respectively with 1/sigma).", "quantifier": "all parameters accepted by the constructors, all finite f64 arguments of the support, every correctly rounded arithmetic satisfying the accuracy contract (binary64 for the violations)", "why_tests_cant": "The claim ranges over every accepted parameter including the overflow and underflow ranges; tests sample ordinary values.", "anchors": ["src/univariate/exponential.rs, logistic.rs, gumbel.rs, cauchy.rs, frechet.rs, pareto.rs, weibull.rs, lognormal.rs: cdf; src/normal/univariate.rs: cdf, z"]}
{"id": "C252", "title": "Samples stay in the support in floating point", "statement": "When the random source answers inside the interval it was asked for, every sample computed by the library itself is, in rounded IEEE arithmetic, a number in the support of the distribution.", "quantifier": "all parameters accepted by the constructors (magnitude up to 2^1000 for the normal families), all answers of the source, every correctly rounded arithmetic (binary64 for two of the violations)", "why_tests_cant": "The claim ranges over every accepted parameter including the overflow and underflow ranges; tests sample ordinary values.", "anchors": ["src/univariate/kumaraswamy.rs, frechet.rs, laplace.rs, uniform.rs, folded_normal.rs, lognormal.rs, inverse_normal.rs: sample, support; src/normal/univariate.rs: sample"]}
{"id": "C253", "title": "Accuracy of floating-point densities", "statement": "In rounded IEEE arithmetic with accurate elementary functions, the value returned by a continuous law's pdf differs from the real density by at most a fixed multiple (2^-50 to 2^-43) of the reciprocal scale, i.e. of the size of the density's peak.", "quantifier": "all parameters accepted by the constructors whose scale lies between 2^-500 and 2^500, all finite f64 arguments, every correctly rounded arithmetic satisfying the accuracy contract (binary64 for the violations)", "why_tests_cant": "The claim ranges over every accepted parameter including the overflow and underflow ranges; tests sample ordinary values.", "anchors": ["src/univariate/exponential.rs, cauchy.rs, gumbel.rs, logistic.rs, uniform.rs, folded_normal.rs: pdf; src/normal/univariate.rs: pdf, z"]}
{"id": "C254", "title": "Accuracy of floating-point moments", "statement": "In rounded IEEE arithmetic the mean, variance, skewness and (excess) kurtosis returned by a distribution have relative error at most 2^-46 (64 units in the last place).", "quantifier": "all parameters accepted by the constructors between 2^-60 and 2^60 (and as far from the thresholds below which the moment does not exist; all integer parameters), every correctly rounded arithmetic (binary64 for the violations)", "why_tests_cant": "The claim ranges over every accepted parameter including the overflow and underflow ranges; tests sample ordinary values.", "anchors": ["src/univariate/exponential.rs, gamma.rs, erlang.rs, chi_sq.rs, inverse_gamma.rs, pareto.rs, logistic.rs, gumbel.rs, laplace.rs, uniform.rs, arcsine.rs, cosine.rs, rayleigh.rs, inverse_normal.rs, beta.rs, beta_prime.rs, f_dist.rs, student_t.rs, geometric.rs, binomial.rs, bernoulli.rs, beta_binomial.rs, triangular.rs: mean, variance, skewness, kurtosis, excess_kurtosis"]}
{"id": "C255", "title": "Accuracy of floating-point medians and modes", "statement": "In rounded IEEE arithmetic with accurate elementary functions, the median, mode and quantile returned by a distribution are within relative error 2^-40 (on the scale |location| + spread for the families with a location; 2^-34 for Kumaraswamy) of the point where the real distribution function takes the value 1/2, respectively of the maximum of the real density.", "quantifier": "all parameters accepted by the constructors of ordinary size (2^-60 to 2^60, shape exponents between 1/16 and 16), every correctly rounded arithmetic satisfying the accuracy contract (binary64 for the violations)", "why_tests_cant": "The claim ranges over every accepted parameter including the overflow and underflow ranges; tests sample ordinary values.", "anchors": ["src/univariate/exponential.rs, rayleigh.rs, pareto.rs, weibull.rs, frechet.rs, gumbel.rs, uniform.rs, lognormal.rs, generalised_pareto.rs, gev.rs, kumaraswamy.rs: median; gamma.rs, inverse_gamma.rs, beta.rs, beta_prime.rs, chi.rs, chi_sq.rs, erlang.rs, f_dist.rs, inverse_normal.rs: modes; src/statistics.rs: standard_deviation"]}
{"id": "C256", "title": "Accuracy of floating-point entropies", "statement": "In rounded IEEE arithmetic with accurate elementary functions, the Shannon entropy returned by a continuous law is a finite number within 2^-40 (2^-38 for the generalised extreme value law) of the differential entropy of the law.", "quantifier": "all parameters accepted by the constructors of ordinary size (2^-60 to 2^60; shapes bounded as stated), every correctly rounded arithmetic satisfying the accuracy contract (binary64 for the violation)", "why_tests_cant": "The claim ranges over every accepted parameter including the overflow and underflow ranges; tests sample ordinary values.", "anchors": ["src/univariate/exponential.rs, logistic.rs, laplace.rs, cauchy.rs, uniform.rs, gpd.rs, gev.rs, pareto.rs, gumbel.rs, rayleigh.rs, levy.rs, weibull.rs, frechet.rs: shannon_entropy; src/normal/univariate.rs: shannon_entropy"]}
{"id": "C257", "title": "Quantile functions in floating point", "statement": "In rounded IEEE arithmetic a larger probability never gives a smaller quantile, no quantile is NaN, every quantile lies in the support of the law, the quantile of one half is the median, and the quartiles, median and fences derived from it are in order.", "quantifier": "every pair of valid probabilities (for the normal law strictly between 0 and 1), every parameter accepted by the constructors of the uniform, discrete uniform, exponential, Cauchy and normal laws; every lawful rounding, tan and norm_inv monotone", "why_tests_cant": "The claim ranges over every accepted parameter including the overflow and underflow ranges; tests sample ordinary values.", "anchors": ["src/univariate/uniform.rs: quantile, median; src/univariate/cauchy.rs: quantile; src/univariate/exponential.rs: quantile; src/normal/univariate.rs: quantile; src/statistics.rs: Quantiles"]}
{"id": "C258", "title": "Maximum-likelihood fits in floating point", "statement": "In rounded IEEE arithmetic the maximum-likelihood fit of a sample succeeds exactly when the sample determines a law, and its parameters are the fraction of successes (Bernoulli), the sample mean (Poisson), and the empirical mean and variance (normal), up to the rounding of the sums.", "quantifier": "all samples of up to 2^50 (2^53 for the discrete laws) observations of any size, every correctly rounded arithmetic (binary64 for the violations)", "why_tests_cant": "The claim ranges over every accepted parameter including the overflow and underflow ranges; tests sample ordinary values.", "anchors": ["src/univariate/bernoulli.rs: fit_mle; src/univariate/poisson.rs: fit_mle; src/normal/univariate.rs: fit_mle"]}
{"id": "C259", "title": "Floating-point densities are never negative", "statement": "In rounded IEEE arithmetic pdf(x) is never a negative number (nor minus infinity) at any f64 x of the support, signed zeros and infinities included: it may be NaN or overflow to +inf, but not negative.", "quantifier": "all parameters accepted by the constructors of Cauchy, Logistic, Gumbel, Cosine, Rayleigh, Chi, ChiSq, Levy, FDist, InvNormal, Frechet, Gamma, Weibull, Beta, Kumaraswamy, BetaPrime, InvGamma, Pareto, StudentT, Erlang, GeneralisedExtremeValue, Triangular and Arcsine; all f64 arguments; every lawful rounding with special functions that are non-negative on non-negative arguments", "why_tests_cant": "The claim ranges over every accepted parameter including the overflow and underflow ranges; tests sample ordinary values.", "anchors": ["src/univariate/cauchy.rs, logistic.rs, gumbel.rs, cosine.rs, rayleigh.rs, chi.rs, chi_sq.rs, levy.rs, f_dist.rs, inverse_normal.rs, frechet.rs, gamma.rs, weibull.rs, beta.rs, kumaraswamy.rs, beta_prime.rs, inverse_gamma.rs, pareto.rs, student_t.rs, erlang.rs, gev.rs, triangular.rs, arcsine.rs: pdf"]}
{"id": "C260", "title": "Accuracy of multivariate moments in floating point", "statement": "In rounded IEEE arithmetic mean, variance, covariance and correlation of the Dirichlet, multinomial and bivariate normal laws are within a small relative error of the moments of the law (for the Dirichlet law the error grows linearly with the dimension).", "quantifier": "all concentrations, weights and variances between 2^-60 and 2^60, all trial counts below 2^64, every dimension up to 100000, every pair of components", "why_tests_cant": "all finite parameters accepted by the constructor; all f64 arguments of the interval, signed zeros and infinities included; IEEE rounded arithmetic (any correctly rounding + - * / sqrt with monotone library functions, binary64 in particular)", "anchors": ["src/multivariate/dirichlet.rs: mean, variance, covariance; src/multivariate/multinomial.rs: mean, variance, covariance, correlation; src/normal/bivariate.rs: covariance, correlation"]}
{"id": "C261", "title": "Accuracy of the Fisher information in floating point", "statement": "In rounded IEEE arithmetic fisher_information is within relative error 2^-46 of the Fisher information of the family, with exact zeros off the diagonal where the parameters are orthogonal.", "quantifier": "all parameters between 2^-60 and 2^60 (and 1 - p likewise) of the normal, Bernoulli, binomial, Pareto, exponential and Poisson laws", "why_tests_cant": "all finite parameters accepted by the constructor; all f64 arguments of the interval, signed zeros and infinities included; IEEE rounded arithmetic (any correctly rounding + - * / sqrt with monotone library functions, binary64 in particular)", "anchors": ["src/univariate/bernoulli.rs, binomial.rs, pareto.rs, exponential.rs, poisson.rs; src/normal/univariate.rs: fisher_information"]}
{"id": "C262", "title": "Discrete distribution functions in floating point", "statement": "In rounded IEEE arithmetic the distribution functions of the categorical, geometric and binomial laws return probabilities, the categorical one is non-decreasing and ends at 1 up to the tolerance of the check, and those of the geometric and binomial laws respond monotonically to the success probability.", "quantifier": "all accepted weight vectors (up to 2^53 entries) and success probabilities, all arguments of the support, every correctly rounded arithmetic", "why_tests_cant": "all finite parameters accepted by the constructor; all f64 arguments of the interval, signed zeros and infinities included; IEEE rounded arithmetic (any correctly rounding + - * / sqrt with monotone library functions, binary64 in particular)", "anchors": ["src/univariate/categorical.rs, geometric.rs, binomial.rs: cdf"]}
{"id": "C263", "title": "Convolutions in floating point", "statement": "In rounded IEEE arithmetic the convolution of any number of laws, formed one at a time or by convolve_many, has the summed parameters up to n units in the last place whatever the order and grouping, and is a law its constructor accepts.", "quantifier": "all accepted normal, Cauchy, Poisson and Gamma laws, lists of any length up to 2^50, every correctly rounded arithmetic", "why_tests_cant": "all finite parameters accepted by the constructor; all f64 arguments of the interval, signed zeros and infinities included; IEEE rounded arithmetic (any correctly rounding + - * / sqrt with monotone library functions, binary64 in particular)", "anchors": ["src/lib.rs: Convolution::convolve, convolve_many; src/normal/univariate.rs, src/univariate/cauchy.rs, poisson.rs, gamma.rs: convolve"]}
{"id": "C264", "title": "Functions of a probability", "statement": "ln, log2, powf and powi of a valid probability are the logarithms and powers of its value (minus infinity for the logarithm of 0); in rounded arithmetic the logarithm is never NaN or positive, non-negative powers are probabilities, all three grow with the probability, and a list of probabilities sums to the sum of the values.", "quantifier": "all valid probabilities, all exponents, all lists of probabilities, exact arithmetic and every correctly rounded arithmetic", "why_tests_cant": "all finite parameters accepted by the constructor; all f64 arguments of the interval, signed zeros and infinities included; IEEE rounded arithmetic (any correctly rounding + - * / sqrt with monotone library functions, binary64 in particular)", "anchors": ["src/probability.rs: Probability::ln, log2, powf, powi, Sum<Probability>"]}
{"id": "C265", "title": "Log-likelihoods in floating point", "statement": "In rounded IEEE arithmetic the Bernoulli log-likelihood of any data is never NaN or positive and, like the Poisson one, lies within a small multiple of the number of observations of the true log-likelihood.", "quantifier": "all accepted success probabilities and rates, data of any length up to 2^50 (Poisson 2^20)", "why_tests_cant": "all finite parameters accepted by the constructor; all f64 arguments of the interval, signed zeros and infinities included; IEEE rounded arithmetic (any correctly rounding + - * / sqrt with monotone library functions, binary64 in particular)", "anchors": ["src/univariate/bernoulli.rs, poisson.rs: log_likelihood; src/fitting.rs: Likelihood::likelihood"]}
{"id": "C266", "title": "Accuracy of floating-point distribution functions, continued", "statement": "In rounded IEEE arithmetic with accurate elementary functions, the value returned by the cdf of the Kumaraswamy, uniform, generalised Pareto and generalised extreme value laws differs from the real distribution function by at most an explicit bound: (b + 1) 2^-49, 2^-49 + |l|/w 2^-52, (1 + 1/zeta) 2^-47 and (1 + 1/(zeta delta)) 2^-46 respectively.", "quantifier": "all parameters accepted by the constructors in the stated ranges (second Kumaraswamy shape at least 1, with a weaker bound below; shapes from 2^-40 to 2^60), every f64 argument of the stated set, every correctly rounded arithmetic and accurate library functions", "why_tests_cant": "all finite parameters accepted by the constructor; all f64 arguments of the interval, signed zeros and infinities included; IEEE rounded arithmetic (any correctly rounding + - * / sqrt with monotone library functions, binary64 in particular)", "anchors": ["src/univariate/kumaraswamy.rs, uniform.rs, gpd.rs, gev.rs: cdf; src/params"]}
{"id": "C267", "title": "Accuracy of the triangular distribution function in floating point", "statement": "In rounded IEEE arithmetic the value returned by the triangular cdf differs from the real distribution function of the law with lower corner m and legs u, v by at most 2^-48 + |m|/(u + v) 2^-50.", "quantifier": "all accepted parameters with legs from 2^-150 to 2^150 not absorbed by the corners (|m| + u at most 2^50 v, |m| at most 2^50 u), every f64 argument, every correctly rounded arithmetic", "why_tests_cant": "all finite parameters accepted by the constructor; all f64 arguments of the interval, signed zeros and infinities included; IEEE rounded arithmetic (any correctly rounding + - * / sqrt with monotone library functions, binary64 in particular)", "anchors": ["src/univariate/triangular.rs: cdf, Params::b, Params::c"]}
{"id": "C268", "title": "The logarithms of the Erlang law", "statement": "log_pdf and log_cdf are the logarithms of the density and the distribution function of the Erlang law; pdf and cdf are their exponentials, at every f64 and panicking exactly when they do.", "quantifier": "all accepted shapes and rates, all f64 arguments, both build profiles", "why_tests_cant": "It is an identity between functions of a real argument and real parameters; finitely many sampled points never establish it.", "anchors": ["src/univariate/erlang.rs: log_pdf, log_cdf; src/lib.rs: Distribution::cdf, ContinuousDistribution::pdf"]}
{"id": "C269", "title": "Relative accuracy of floating-point densities", "statement": "In rounded IEEE arithmetic with accurate elementary functions, the value returned by the pdf of the Pareto, Rayleigh, Weibull, Frechet, Kumaraswamy, Levy, inverse normal and generalised Pareto laws is within a relative 2^-35 or better (2^-43 for the Pareto law) of the real density, however small the density is, as long as the powers and exponentials it multiplies stay within the stated range.", "quantifier": "all accepted parameters and all arguments of ordinary size (2^-60 to 2^60) for which the logarithm of each factor of the density is at most 64 (Pareto 128), with the shapes bounded as stated in each theorem; every correctly rounded arithmetic and accurate library functions", "why_tests_cant": "all finite parameters accepted by the constructor; all f64 arguments of the interval, signed zeros and infinities included; IEEE rounded arithmetic (any correctly rounding + - * / sqrt with monotone library functions, binary64 in particular)", "anchors": ["src/univariate/pareto.rs, rayleigh.rs, weibull.rs, frechet.rs, kumaraswamy.rs, levy.rs, inverse_normal.rs, gpd.rs: pdf"]}
{"id": "C270", "title": "Accuracy of the raised cosine and arcsine distribution functions in floating point", "statement": "In rounded IEEE arithmetic with accurate trigonometric functions the value returned by the raised cosine cdf is within 2^-48, and the one returned by the arcsine cdf within 2^-47, of the real distribution function.", "quantifier": "all accepted parameters and all f64 arguments, in every correctly rounded arithmetic with accurate sin and asin (instances: exact arithmetic and binary64)", "why_tests_cant": "all finite parameters accepted by the constructor; all f64 arguments of the interval, signed zeros and infinities included; IEEE rounded arithmetic (any correctly rounding + - * / sqrt with monotone library functions, binary64 in particular)", "anchors": ["src/univariate/cosine.rs: cdf, z; src/univariate/arcsine.rs: cdf"]}
{"id": "C271", "title": "Accuracy of mixtures in floating point", "statement": "In rounded IEEE arithmetic the cdf, pdf and mean of a mixture are the weighted sums of the real values of its components up to 11/10 of the error of the worst component plus (n + 1) 2^-50 of the largest value, and its variance is within a small relative error of the variance of the mixture.", "quantifier": "all accepted mixtures of at most 2^30 components of any kind, all weights, all arguments, every correctly rounded arithmetic", "why_tests_cant": "all finite parameters accepted by the constructor; all f64 arguments of the interval, signed zeros and infinities included; IEEE rounded arithmetic (any correctly rounding + - * / sqrt with monotone library functions, binary64 in particular)", "anchors": ["src/mixture.rs: Mixture::new, cdf, pdf, mean, variance"]}
{"id": "C272", "title": "The provided methods in floating point", "statement": "In rounded IEEE arithmetic an implementor who computes one method of a pair accurately gets the other one accurate from the trait: the standard deviation is the root of the variance (and the variance its square), the excess kurtosis is three less than the kurtosis, the ccdf is the complement of the cdf, the logarithms turn relative into absolute errors and the exponentials absolute into relative ones, the distance is the root of the squared distance, and the fences follow the quartiles, each up to a few units in the last place.", "quantifier": "all implementations of the traits, all errors of the implemented method below the stated thresholds, all values in the stated ranges, every correctly rounded arithmetic with accurate elementary functions", "why_tests_cant": "all finite parameters accepted by the constructor; all f64 arguments of the interval, signed zeros and infinities included; IEEE rounded arithmetic (any correctly rounding + - * / sqrt with monotone library functions, binary64 in particular)", "anchors": ["src/statistics.rs: variance, standard_deviation, kurtosis, excess_kurtosis, iqr, lower_fence, upper_fence; src/lib.rs: cdf, ccdf, log_cdf, pmf, log_pmf, pdf, log_pdf; src/fitting.rs: likelihood, log_likelihood; src/distance.rs: d_mahalanobis"]}
{"id": "C273", "title": "Tail probabilities keep their relative accuracy", "statement": "In rounded IEEE arithmetic ccdf(x) is within a small relative error of the probability of exceeding x, and log_ccdf(x) within a small absolute error of its logarithm, as long as that probability is an ordinary number.", "quantifier": "all distributions with an accurate cdf (no distribution of the crate overrides ccdf), all arguments; every correctly rounded arithmetic (binary64 for the violations)", "why_tests_cant": "all finite parameters accepted by the constructor; all f64 arguments of the interval, signed zeros and infinities included; IEEE rounded arithmetic (any correctly rounding + - * / sqrt with monotone library functions, binary64 in particular)", "anchors": ["src/lib.rs: Distribution::ccdf, log_ccdf; src/univariate/exponential.rs, logistic.rs: cdf"]}
{"id": "C274", "title": "Small probabilities keep their relative accuracy", "statement": "In rounded IEEE arithmetic cdf(x) is within a small relative error of the probability of not exceeding x even where that probability is small: it never collapses to zero while the probability is an ordinary number.", "quantifier": "all accepted parameters of ordinary size and all arguments in the stated ranges (logistic, Gumbel, Frechet and uniform laws: proved; exponential, Weibull, generalised Pareto and Kumaraswamy laws: refuted; any accurate cdf down to probabilities of 2^-k); every correctly rounded arithmetic (binary64 for the violations)", "why_tests_cant": "all finite parameters accepted by the constructor; all f64 arguments of the interval, signed zeros and infinities included; IEEE rounded arithmetic (any correctly rounding + - * / sqrt with monotone library functions, binary64 in particular)", "anchors": ["src/univariate/logistic.rs, gumbel.rs, frechet.rs, uniform.rs, exponential.rs, weibull.rs, gpd.rs, kumaraswamy.rs: cdf"]}
{"id": "C275", "title": "Log-densities in floating point", "statement": "In rounded IEEE arithmetic log_pdf(x) is within a small absolute error of the logarithm of the density, also far out where the density itself is tiny.", "quantifier": "all laws with an accurate density where the density is between 2^-k and 2^k; the normal law for all parameters of ordinary size; refuted in binary64 for every exponential and every normal law of ordinary size beyond the point where the density underflows", "why_tests_cant": "all finite parameters accepted by the constructor; all f64 arguments of the interval, signed zeros and infinities included; IEEE rounded arithmetic (any correctly rounding + - * / sqrt with monotone library functions, binary64 in particular)", "anchors": ["src/lib.rs: ContinuousDistribution::log_pdf; src/univariate/exponential.rs: pdf; src/normal/univariate.rs: pdf"]}
{"id": "C276", "title": "Accuracy of multivariate log-normal moments in floating point", "statement": "In rounded IEEE arithmetic the mean and the variance of each coordinate of a multivariate log-normal law with diagonal covariance are within a small relative error of the moments of the law.", "quantifier": "all dimensions, all locations of the logarithm up to 16 in size and all its variances up to 32 (for the variance at least 1/16: refuted in binary64 for every variance up to 2^-56); every correctly rounded arithmetic with accurate elementary functions", "why_tests_cant": "all finite parameters accepted by the constructor; all f64 arguments of the interval, signed zeros and infinities included; IEEE rounded arithmetic (any correctly rounding + - * / sqrt with monotone library functions, binary64 in particular)", "anchors": ["src/multivariate/lognormal.rs: mean, variance, LogNormal::diagonal"]}
{"id": "C277", "title": "Accuracy of bivariate normal densities in floating point", "statement": "In rounded IEEE arithmetic the density of a paired (independent) or bivariate normal law is within a small relative error of the two-dimensional Gaussian density with the covariance matrix the value describes.", "quantifier": "all ordinary variances, all correlations (proved up to 255/256 in size, losing accuracy in proportion to 1/(1-|rho|); refuted in binary64 at 1 - 2^-53), all arguments at ordinary distances from the means with exponent up to 64; every correctly rounded arithmetic with accurate elementary functions", "why_tests_cant": "all finite parameters accepted by the constructor; all f64 arguments of the interval, signed zeros and infinities included; IEEE rounded arithmetic (any correctly rounding + - * / sqrt with monotone library functions, binary64 in particular)", "anchors": ["src/normal/bivariate.rs: z, pdf; src/normal/paired.rs: z, pdf"]}
