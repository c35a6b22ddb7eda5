#!/usr/bin/env python3
"""Single source for properties.jsonl (run: python3 tools/properties.py)."""
import json, os
P = []
def p(id, title, statement, quantifier, why, *anchors):
    P.append(dict(id=id, title=title, statement=statement, quantifier=quantifier,
                  why_tests_cant=why, anchors=list(anchors)))
UNC = "The claim ranges over an uncountable/2^64-size set of f64 inputs; a test samples finitely many and rounding corner cases sit between samples."
ALLX = "It is an identity between functions of a real argument and real parameters; finitely many sampled points never establish it."
HIST = "It ranges over every RNG stream / every length of history, which no finite test run enumerates."
LIST = "It ranges over sequences of every length and content."

# ---- probability.rs
p("C01","Probability::new accepts exactly [0,1]","Probability::new(p) and TryFrom<f64> succeed exactly when p is an f64 with 0 <= p <= 1 (so NaN, both infinities and every out-of-range value are refused, -0.0 is accepted), the accepted Probability holds the very same f64, the refusal carries the offending value, and is_valid agrees with the acceptance test.","all 2^64 f64 values including NaN, infinities, signed zeros",UNC,"src/probability.rs: Probability::new, try_from, is_valid, unwrap")
p("C02","Checked Probability arithmetic is closed","Adding, subtracting, dividing or taking the remainder of any two Probability values either fails or yields a Probability that is_valid; it succeeds exactly when the rounded IEEE result lies in [0,1].","all pairs of Probability values (even ones built with new_unchecked)",UNC,"src/probability.rs: impl_op! Add/Sub/Div/Rem")
p("C03","Unchecked product and complement stay in [0,1]","For valid probabilities p, q the product p*q and the complement !p are valid probabilities, although neither operator checks, under every correctly-rounded arithmetic (binary64 in particular).","all valid pairs p,q; every lawful rounding",UNC,"src/probability.rs: impl_op! Mul, Not")
p("C04","Complement is an order-reversing near-involution","!p reverses order; !!p is p exactly in exact arithmetic, and in any correctly rounded arithmetic differs from p by at most 2^-50 (it is not the identity in binary64: a positive p below 2^-54 is mapped to 0).","all valid p,q",UNC,"src/probability.rs: Not")
p("C05","SimplexVector::new acceptance","SimplexVector::new(ps) succeeds exactly when every entry lies in [0,1] and the left-to-right floating sum z satisfies |z-1| < 1e-5, and then stores the same array; otherwise it reports the first out-of-range entry, or the array itself when only the sum is wrong.","arrays of every length K and content",LIST,"src/probability.rs: SimplexVector::new, try_from")
p("C06","Accepted simplex weights really sum to nearly one","If SimplexVector::new accepts an array of K <= 2^30 entries then the exact (real-number) sum of the entries is within 1.1e-5 of 1, despite rounding in the check.","all accepted arrays, every K <= 2^30, every lawful rounding",LIST,"src/probability.rs: SimplexVector::try_from")
p("C07","sample_index is total, in range, one draw","For every K >= 1, every weight array and every RNG, sample_index returns an index < K and consumes exactly one draw; for K = 0 it panics in a debug build.","all arrays, all RNG states",HIST,"src/probability.rs: SimplexVector::sample_index")
p("C08","sample_index inverts the prefix sums","sample_index returns i exactly when the draw u is below prefix sum i and not below any earlier prefix sum (last index if no prefix exceeds u); in exact arithmetic, for weights summing to 1, the set of draws in [0,1) returning i has Lebesgue measure exactly p_i.","all weight arrays, all draws, all indices",HIST,"src/probability.rs: SimplexVector::sample_index")
p("C09","sample_index never returns a zero-weight index","An index whose weight is zero is never sampled.","all accepted simplex vectors and all draws",HIST,"src/probability.rs: SimplexVector::sample_index")
p("C10","SimplexVector::sample returns a point of the simplex","SimplexVector::sample returns a vector whose entries are non-negative and sum to one.","all K >= 1 and all RNG streams",HIST,"src/probability.rs: SimplexVector::sample")
p("C11","SimplexVector::centre","centre() is the vector with all K entries equal to 1/K, it passes the SimplexVector::new check, and sums to 1 exactly in exact arithmetic (rounded: entries for K up to 2^53, the check for K up to 2^30).","all K >= 1",LIST,"src/probability.rs: SimplexVector::centre")
# ---- constraints / params
p("C12","Atomic constraints decide their relation and check returns the value untouched","Equal, LessThan(OrEqual), GreaterThan(OrEqual), Negative, NonPositive, Positive, NonNegative, Natural, Interval accept exactly the values in the named relation (never NaN); check returns Ok with the same value iff is_satisfied_by, otherwise Err carrying the same value.","all f64/i64/usize values and bounds",UNC,"src/params/constraints.rs")
p("C13","Constraint combinators are a faithful Boolean algebra","And/Or/Not/All accept exactly the conjunction / disjunction / negation / all-elements closure of their operands, for check as well as is_satisfied_by, at any nesting depth, and check and is_satisfied_by always agree.","all constraint expression trees, all values, all array lengths","Ranges over expression trees of unbounded depth and arrays of unbounded length.","src/params/constraints.rs: All, Not, Or, And")
p("C14","Empty means empty","Empty accepts a container exactly when it has no elements, for Vec and for fixed-size arrays.","all containers",LIST,"src/params/constraints.rs: Empty")
p("C15","Scalar parameter constructors","Scale/Rate/Shape/DOF::new succeed exactly for strictly positive values (so never NaN, -0.0 or 0), Count::new exactly for values >= 0, Corr::new exactly on [-1,1], Loc::new always; the stored value is the argument.","all f64 (and integer) arguments",UNC,"src/params/mod.rs: param!","src/params/corr.rs: Corr::new")
p("C16","Concentrations::new accepts exactly non-empty positive vectors","Concentrations::new(v) succeeds exactly when v is non-empty and all entries are strictly positive; hence Dirichlet::new succeeds on such vectors.","all arrays of every length",LIST,"src/params/concentrations.rs: Concentrations::new","src/multivariate/dirichlet.rs: Dirichlet::new")
p("C17","Composite Params::new validate every field, in order","A generated Params::new succeeds exactly when every field's own constructor accepts its argument, stores the arguments unchanged and otherwise returns the error of the first rejected field.","all parameter records of any number of fields",UNC,"src/params/mod.rs: params!")
p("C18","Constructor/params round trip","For every univariate distribution: if Dist::new(args) is Ok(d) then d.params() holds exactly args, every constrained field satisfies its constraint, and From<Params> of d.params() is d.","all constructor arguments of all parametric univariate distributions",UNC,"src/lib.rs: new_dist!, Distribution::params","src/univariate/*.rs: new")
p("C19","Covariance constructors accept exactly valid covariances","Covariance::matrix accepts exactly symmetric positive semi-definite matrices; diagonal/paired/isotropic accept exactly positive variances; bivariate accepts exactly positive scales with |rho| < 1.","all matrices / vectors / scalars",UNC,"src/normal/mod.rs: Covariance")
# ---- trait defaults
p("C20","cdf/log_cdf/ccdf/log_ccdf defaults agree","For a distribution defining only one of cdf, log_cdf, the other is its exp/ln, ccdf(x) = 1 - cdf(x) and log_ccdf = ln ccdf; cdf(x)+ccdf(x)=1 in exact arithmetic; an implementation overriding neither never returns.","all distributions (records of overrides), all points",ALLX,"src/lib.rs: Distribution::cdf, log_cdf, ccdf, log_ccdf")
p("C21","pmf/log_pmf and pdf/log_pdf defaults agree","For any implementation overriding one of pmf/log_pmf (pdf/log_pdf), in exact arithmetic pmf = exp(log_pmf) wherever pmf is positive and both are defined (each default being the rounded exp/ln of the other in every arithmetic); overriding neither diverges.","all implementations, all points",ALLX,"src/lib.rs: DiscreteDistribution, ContinuousDistribution")
p("C22","Moment defaults agree","In exact arithmetic, with default methods, standard_deviation^2 = variance (for non-negative variance) and kurtosis = excess_kurtosis + 3, whichever of each pair the implementation overrides.","all implementations",ALLX,"src/statistics.rs: UvMoments")
p("C23","Quantile-derived statistics","cquantile(p) = quantile(1-p), median = Q(1/2), iqr = Q(3/4)-Q(1/4), fences at 1.5 iqr; for any monotone quantile function lower_fence <= lower_quartile <= median <= upper_quartile <= upper_fence, under every lawful rounding.","all implementations with a monotone quantile",ALLX,"src/statistics.rs: Quantiles")
p("C24","sample_n / sample_iter are sequential sampling","sample_n(n) returns n values, equals the first n values of sample_iter, equals n successive sample calls threading the same RNG, and sample_n(n+m) = sample_n(n) ++ sample_n(m) from the resulting RNG state; sample_iter never ends.","all samplers, all RNG states, all n,m",HIST,"src/lib.rs: sample_n, sample_iter, Sampler::next")
p("C25","convolve_many is the iterated convolution","convolve_many(rvs) convolves self with every element of rvs exactly once and returns the first error if any; it must work for every non-empty list.","all lists of distributions",LIST,"src/lib.rs: Convolution::convolve_many")
p("C26","Default multivariate variance and correlation","Default variance is the diagonal of covariance; default correlation(i,j) = cov(i,j)/sqrt(cov(i,i) cov(j,j)), hence unit diagonal.","all implementations, all dimensions",ALLX,"src/statistics.rs: MvMoments")
p("C27","likelihood/log_likelihood and Mahalanobis defaults agree","In exact arithmetic likelihood = exp(log_likelihood) (where positive) and d_mahalanobis^2 = d_mahalanobis_squared by default, whichever is overridden.","all implementations, all samples",ALLX,"src/fitting.rs: Likelihood","src/distance.rs: Mahalanobis")
# ---- utils
p("C28","choose is the binomial coefficient","choose(n,k) returns C(n,k) for all k <= n whenever every intermediate product fits in u64 (in particular for all n <= 62), is symmetric in k and n-k, and panics in debug for k > n.","all n,k in u64",UNC,"src/utils.rs: choose")
p("C29","factorial","factorial(n) = n! for every n <= 20 (table and product branch) and overflow (debug panic) for n >= 21.","all n in u64",UNC,"src/utils.rs: factorial, factorial_exact","src/consts.rs: FACTORIALS_16")
p("C30","log_factorial_stirling approximates ln n!","In exact arithmetic the n > 254 branch lies within 1e-6 of ln(n!), and the table branch lies within 1e-12 of ln(n!).","all n < u64::MAX (at u64::MAX n+1 overflows)",UNC,"src/utils.rs: log_factorial_stirling","src/consts.rs: LOG_FACTORIALS_255")
p("C31","Array (de)serialisation round trip","Serialising an array of N elements then deserialising yields the same array; deserialising a sequence shorter than N is an error, never a partially initialised array.","all arrays of every length, all element types",LIST,"src/utils.rs: serde_arrays")
# ---- mixture
p("C32","Mixture::new","Mixture::new(weights, components) succeeds exactly when weights form an accepted simplex vector (N >= 1), keeps weights and components, and its support contains the support of every component and nothing outside their interval hull.","all weights, all component arrays",LIST,"src/mixture.rs: Mixture::new, compute_support")
p("C33","Mixture cdf/pdf are the weighted sums","cdf = sum_i w_i F_i, pdf = sum_i w_i f_i; hence in exact arithmetic for weights summing to 1 the mixture cdf is a valid monotone CDF and pdf is its derivative when the components' are.","all mixtures of every size",LIST,"src/mixture.rs: cdf, pdf")
p("C34","Mixture cdf always returns a valid probability","Every accepted mixture of valid components has cdf(x) in [0,1].","all accepted mixtures, all points",LIST,"src/mixture.rs: cdf")
p("C35","Mixture mean and variance","mean = sum w_i m_i and variance = sum w_i (v_i + (m_i - mean)^2) >= 0 (law of total variance) for weights summing to one and v_i >= 0.","all mixtures of every size",LIST,"src/mixture.rs: mean, variance")
p("C36","Mixture sampling","sample draws component i (by weight) then samples that component with the remaining RNG; only listed components are sampled.","all mixtures, all RNG states",HIST,"src/mixture.rs: sample")
p("C37","Mixture params round trip","From<Params>(m.params()) = m for every mixture; a params value with too many component_params panics.","all mixtures",LIST,"src/mixture.rs: params, From")
# ---- normal
p("C38","Univariate normal is the Gaussian measure","For sigma^2 > 0: pdf is the Gaussian density, cdf the Gaussian distribution function (0/1 at the infinities), mean/variance its moments, quantile its inverse; z/precision are (x-mu)/sigma and 1/sigma^2.","all mu, sigma^2 > 0, x",ALLX,"src/normal/univariate.rs")
p("C39","Normal kurtosis","kurtosis is the fourth standardised moment (3) and excess_kurtosis = kurtosis - 3 (0).","all normals",ALLX,"src/normal/univariate.rs: kurtosis, excess_kurtosis")
p("C40","Normal convolution is the law of the sum","convolve returns the distribution of the sum of independent normals: means and variances add; it is commutative and associative in exact arithmetic, commutative in floating point.","all pairs/triples of normals",ALLX,"src/normal/univariate.rs: convolve")
p("C41","Normal log-likelihood","log_likelihood(xs) = sum_i ln pdf(x_i), so it is additive over concatenation of samples.","all samples of every length",LIST,"src/normal/univariate.rs: log_likelihood")
p("C42","Normal score is the gradient of the log-likelihood","score.mu is the derivative in mu and score.Sigma the derivative in the scale of sum ln pdf.","all samples of every length",LIST,"src/normal/univariate.rs: score")
p("C43","Normal MLE","fit_mle returns mean and biased variance, which maximise sum ln pdf over all (mu, sigma^2); it refuses empty data and constant data.","all samples of every length",LIST,"src/normal/univariate.rs: fit_mle")
p("C44","Normal Shannon entropy, Fisher information, mode, median","entropy is 1/2 ln(2 pi e sigma^2); the mode maximises pdf; cdf(median)=1/2; Fisher information is diag(1/s2, 1/(2 s2^2)), minus the expected Hessian of ln pdf.","all normals",ALLX,"src/normal/univariate.rs")
p("C45","Gradient scaling","Multiplying a Grad by s scales every component by s (univariate, bivariate, paired, multivariate).","all gradients, all scalars",UNC,"src/normal/*.rs: impl Mul<f64> for *Grad")
p("C46","Bivariate normal density","z, pdf, covariance, correlation are those of the bivariate Gaussian with scales and rho: pdf(x) = exp(-Q/2)/(2 pi s0 s1 sqrt(1-rho^2)) with Q the Mahalanobis form of the covariance matrix.","all parameters with |rho|<1",ALLX,"src/normal/bivariate.rs")
p("C47","Bivariate/paired normal entropy","shannon_entropy = 1 + ln(2 pi) + 1/2 ln det Sigma.","all parameters",ALLX,"src/normal/bivariate.rs","src/normal/paired.rs")
p("C48","Bivariate sampling","The sample is mu + A z with A A^T = covariance(), for two independent standard normal draws.","all parameters, all draws",HIST,"src/normal/bivariate.rs: sample")
p("C49","Paired normal is a product of independent normals","pdf factors into the two univariate pdfs; moments are the marginal moments; log_likelihood is additive over samples.","all parameters, all samples",ALLX,"src/normal/paired.rs")
p("C50","Mahalanobis distance of multivariate normals","d_mahalanobis_squared(x) = (x-mu)^T Sigma^{-1} (x-mu) for general, diagonal and isotropic covariances.","all dimensions, all parameters, all x",ALLX,"src/normal/multivariate.rs: d_mahalanobis_squared","src/normal/linalg.rs")
p("C51","Multivariate sampling has the requested covariance","Samples are mu + A z with A A^T = Sigma for general, diagonal and isotropic covariances.","all dimensions, all parameters, all draws",HIST,"src/normal/multivariate.rs: sample")
p("C52","Multivariate normal entropy and moments","entropy = 1/2 (k(1+ln 2 pi) + ln det Sigma); mean/covariance/variance are the parameters.","all dimensions, all parameters",ALLX,"src/normal/multivariate.rs")
# ---- generated below: distributions
exec(open(os.path.join(os.path.dirname(__file__),"properties_dist.py")).read())
out=os.path.join(os.path.dirname(__file__),"..","properties.jsonl")
ids=[x["id"] for x in P]; assert len(set(ids))==len(ids)
with open(out,"w") as f:
    for x in P: f.write(json.dumps(x,ensure_ascii=False)+"\n")
print(len(P))
