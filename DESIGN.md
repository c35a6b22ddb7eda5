# Formal model of tspooner/rstat in Lean 4

## 1. What is modelled

| Lean module | code |
|---|---|
| `Verif/Float/*` | the f64 type the whole crate computes with |
| `Verif/Model/Probability.lean` | `src/probability.rs` |
| `Verif/Model/Constraints.lean`, `Params.lean` | `src/params/*` |
| `Verif/Model/Traits.lean` | `src/lib.rs`, `src/statistics.rs`, `src/fitting.rs`, `src/distance.rs` (default methods) |
| `Verif/Model/Utils.lean`, `Consts.lean` | `src/utils.rs`, `src/consts.rs` |
| `Verif/Model/Mixture.lean` | `src/mixture.rs` |
| `Verif/Model/Normal.lean`, `MvNormal.lean` | `src/normal/*` |
| `Verif/Model/Dist/*.lean` | `src/univariate/*` (several small files per Lean file for the Gamma, Beta and normal families) |
| `Verif/Model/Dist/Params.lean` | the `params()` / `From<Params>` / `TryFrom` plumbing of the univariate distributions |
| `Verif/Model/Multi.lean` | `src/multivariate/*` |
| `Verif/Model/Samplers.lean` | the `sample` methods that delegate to `rand` / `rand_distr` (and the unimplemented ones) |
| `Verif/Float/Libm.lean`, `Lemmas/FloatMono.lean`, `Lemmas/Binary64.lean`, `Lemmas/B64Eval.lean` | monotonicity contracts of libm and the special functions under rounding, monotonicity of rounded arithmetic, their instance over binary64, and exact evaluation of binary64 expressions |
| `Verif/Spec/FloatCDF.lean` | what a distribution function computed in floating point must satisfy on an interval of f64 |
| `Verif/Spec/*.lean` | independent specifications: `Prob` (what a cdf, density, moment, entropy, mode, quantile is), `Families`, `Discrete`, `GammaFamilies`, `BetaFamilies`, `NormalFamilies`, `Multi` (textbook densities and mass functions), `Special` (erf, incomplete gamma/beta, digamma, hypergeometric), `RandDistr` (documented laws of `rand_distr`) |
| `Verif/Lemmas/*.lean` | mathematics used by the proofs: laws and moments of each family, transfer of densities, linear algebra |
| `Verif/Props/*.lean` | the property theorems `Cxx_*`, with non-vacuity examples |

`RESULTS.md` (generated) lists every property with its theorems and what each says.

### Numbers
`F64` is an inductive type: NaN, +inf, -inf, -0.0 and `fin r` for a real `r` (`fin 0` is +0.0).
All arithmetic follows the IEEE-754 rules for NaN, infinities, signed zeros and
comparisons; finite results go through a rounding function that is a *parameter* (class `FP`).
The same definitions are then read in two ways:

* `[FP.Lawful]`: any rounding that is monotone, odd, exact on small dyadics, within half an ulp,
  with an overflow threshold. `Float/Binary64.lean` gives the concrete round-to-nearest-even
  binary64 arithmetic and proves it is Lawful. Theorems with this hypothesis hold of real
  floating-point execution (validity of results, acceptance tests, orderings, error bounds).
* `[FP.Exact]`: rounding is the identity and libm/special functions are the mathematical functions.
  Theorems with this hypothesis are about the *formulas* in the code ("up to rounding"); this is
  the standard reading of "the pdf is the derivative of the cdf". An instance is exhibited.

libm (`exp`, `ln`, `powf`, ...) and `special_fun` functions are fields of `FP`: external calls become
parameters. Their special-value behaviour (NaN, infinities, zero, domain errors) is modelled,
`powi` is modelled as compiler-rt's repeated squaring.

### Panics, integers, randomness
Rust `Result` is `Except`; panics (`panic!`, `undefined!`, `todo!`, `unimplemented!`, index out of bounds,
overflow in debug) are explicit error values. Machine integers are `Nat`/`Int` with explicit
range checks. An RNG is an abstract state with a draw function; `rand_distr` samplers are parameters.
Default trait methods that call each other are modelled with an explicit table of
overrides; when neither side is overridden the model answers `diverges`.

## 2. Trusted base
* Lean 4.33.0's kernel; axioms propext, Classical.choice, Quot.sound (checked by `#print axioms`). No axioms are added.
* My reading of the code (every definition cites file:lines).
* What the code calls and the repository does not contain, taken at its documentation:
  - std/libm: IEEE-754 arithmetic, comparisons, saturating `as` casts, debug/release integer overflow.
  - `special_fun`: `gamma`, `loggamma`, `digamma`, `riemann_zeta`, `beta`, `logbeta`, `erf`, `erfc`, `norm`, `norm_inv` are the functions of those
    names; `gammainc` is the regularised lower incomplete gamma function `P(a, x)`, `betainc` the regularised incomplete beta function
    (the code treats them so in some places and as unregularised in others; theorems on affected cdfs are stated for this reading);
    `hyp2f1` is Gauss's function (Euler's integral). Only for finite arguments in the mathematical domain; elsewhere unspecified.
    The receiver is read the way the calls are written: `a.gammainc(x)` is P(a, x), `x.betainc(a, b)` is I_x(a, b), `a.hyp2f1(b, c, x)` is ₂F₁(a, b; c; x).
  - For C202-C211: `FP.Libm` (rounded `exp`, `ln`, `powf`, `sqrt`, `atan` are monotone with the exact values at 0, 1, infinities) and
    `FP.SpecialFns` (`norm`, `erfc`, `gammainc`, `betainc` are monotone with range [0,1]). These are contracts, not facts about a
    particular libm; `Lemmas/Binary64.lean` exhibits the binary64 arithmetic with correctly rounded functions that satisfies them
    (with a `betainc` that propagates NaN), and the counterexamples of C203-C211 are evaluated in that arithmetic or follow from the IEEE rules alone.
  - For C251, C253, C254: `FP.Accurate` (relative error 2^-52 of `exp`, `ln`, `atan`, `powf`, absolute error 2^-48 of `norm`, gradual underflow), with
    exact arithmetic and binary64 as instances (`Float/Accuracy.lean`).
  - LAPACK through `ndarray-linalg`: `cholesky` returns the lower factor of a positive definite matrix and an error otherwise;
    `inv`, `det` are inverse and determinant. These enter as the class `Lapack` with `Lapack.Exact`; an instance is exhibited.
  - `spaces`: intervals, product spaces and ordinals are the sets their names say.
  - `rand` 0.8 and `rand_distr` 0.4: the argument checks of the samplers' constructors (`RealSampler.Accepts`) and, for the laws in
    C191-C201, that a draw has the documented law (`Spec.Documented`). `Lemmas/Samplers2.lean` constructs a source with all these laws,
    so the assumption is consistent. C212-C217 assume in addition that a draw leaves a state independent of the value drawn and distributed
    as before (`Spec.Regenerates` etc.); `stream_regenerates`, `stream_normal`, `stream_uniform` exhibit such sources. Elsewhere sampling is stated for every stream of draws, with no law assumed.
  - core's number printers (C232-C234): `{}` and `{:?}` of `f64` print distinct 64-bit values differently and use no punctuation
    (`NumFmt.Lawful`); `{:?}` of a string is self-delimiting (`SelfDelimiting`). Both are shown satisfiable in `Props/Display.lean`. Integers are
    printed by a modelled decimal printer.

## 3. Not modelled
Formatter flags (width, precision, `#`), derived `Debug` of distributions and errors, `Display for MvNormal` (unusable: arrays do not implement it); concrete serde formats (JSON, CBOR, ...) and their error kinds: only the tree they transport is modelled
(`Model/Serde.lean`, whose header lists the assumptions on the format); the `spaces`
crate beyond intervals; LAPACK/BLAS internals; rand's generators (abstract stream); numerical accuracy of libm/special_fun;
memory safety in general (the `MaybeUninit` block of `mixture.rs` with fewer component parameters than N is modelled as an explicit outcome,
`FromResult.undefinedBehaviour` in `Model/Mixture.lean`; what a program does after it is not); performance; the zero-dimensional dense `MvNormal` (LAPACK's
`lda = 0` error path). Trait methods that are `unimplemented!()`/`todo!()` are listed in the header of their model
file and modelled only where a property speaks of them.

## 4. Per-property plan
Shape of proof per property; ids as in properties.jsonl. "✗" marks properties that the code violates: the
negation is proved, for all parameters where possible and with a witness otherwise (`Cxx_..._violated`), and the part that does hold is
proved as `Cxx_..._partial`.

* C01-C04 decision logic over all F64 values; C03/C04 by monotonicity of rounding and the half-ulp bound. C04 ✗ in binary64 (the
  double complement is not exact).
* C05 decision logic by induction over the array; C06 error analysis by induction over the array.
* C07-C09 induction over prefix sums; measure statement by interval decomposition. C09 ✗.
* C10 ✗ (entries may be negative; the sum-to-one half holds). C11 algebra.
* C12-C17 decision logic, induction on constraint trees/arrays. C12 (NaN), C14, C16 ✗. C18 per constructor. C19 ✗: `Covariance::matrix`
  demands non-negative entries, so it refuses negative correlations and accepts matrices that are not positive semidefinite.
* C20-C23, C26-C27 records of overrides; algebra; C26 ✗ (correlation multiplies). C24-C25 induction; C25 ✗ (singleton refused).
* C28 (both build profiles), with the release-build (wrapping) behaviour of the callers under C07, C88 and C121
  (`Props/Release.lean`): the debug and release arithmetic of `choose` are compared step by step.
* C28-C31 induction on the loop; numeric certification of the table; Stirling bound from Mathlib.
* C32-C37 induction over components. C34 ✗ (weights may sum to 1+1e-5).
* C38-C52 real analysis / linear algebra on the exact reading. ✗ in part: C39, C41, C45 (bivariate), C47, C49 (log-likelihood), C50,
  C51 (diagonal and isotropic).
* C53-C104 real analysis on the exact reading: derivative, limits, monotonicity, inverse functions, sums, and where
  Mathlib has the measure, equality with its cdf/density/moments. ✗: C54 (overflow), C55, C58, C62-C65, C69, C71, C74-C78, C80,
  C84 (score), C86, C88-C90, C92, C93 (variance overflow), C94, C95, C97, C99, C101, C103, C104.
  Dirichlet properties are stated for the unchecked constructor since `Dirichlet::new` fails for every N ≥ 1 (C16).
* C105 Gaussian integral in N dimensions by the Cholesky change of variables. ✗ (constant).
* C106-C117 behaviour off the support, entropies, Fisher information: evaluation of the formula at every point off the support;
  integrals by substitution. ✗ all.
* C118-C127 discrete laws: sums by generating identities; medians and entropies by evaluation and inequalities. C123 holds; the others ✗.
* C128-C141 Gamma family: moments from the Gamma integral, entropy by differentiating under the integral (digamma), convolution by
  characteristic functions. C131, C134, C137, C140 hold; the cdfs, medians, scores ✗.
* C142-C162 Beta family: Beta integral, transfer of densities along the odds map and square roots; Beta-binomial sums by
  integrating binomial sums. C148, C151, C156, C159 hold; the others ✗.
* C163-C182 Lévy, log-normal, folded and inverse normal: transfer from the Gaussian law; inverse normal sampling (Michael, Schucany,
  Haas) by the two-to-one transfer. C163, C173, C177, C181 hold; the others ✗.
* C183-C190 Multinomial, Dirichlet, multivariate log-normal: induction over the dimension, Dirichlet integral by iterated Beta
  integrals, Gaussian characteristic functions for moments. C188 holds; the others ✗ in part.
* C191-C201 `sample` as a measure: each elementary draw has its documented law (see trusted base), the law of the result is computed by
  inverse transform, mixture of densities (Student, F) or mass functions. ✗: C192, C195 (constructor accepts parameters for which
  `sample` panics), C193 (rate used as scale), C198, C199 (upper end does not fit), C200.
  C201 ✗ for p = 0.
* C202-C209 cdfs in rounded arithmetic: each formula is a composition of monotone rounded operations (`Lemmas/FloatMono`); range
  and end values by idempotence of rounding at 0 and 1. Violations by exact evaluation of binary64 expressions or by propagation of
  overflow (`inf/inf`, `0*inf`). C202 holds; ✗ in part: C203, C204 (Lévy at -0.0), C205 (Arcsine), C206, C207, C208, C209.
* C210-C211 densities in rounded arithmetic: case analysis over the classes of f64 of each intermediate value. C210 holds; C211 ✗.
* C212-C213 independence of successive samples: `Spec/Repeat.lean` says what it means that a computation leaves an independent state of the same law
  (`Renews`) and that n successive calls are i.i.d. (`IID`: the joint law is the product law). `Lemmas/Repeat.lean` proves, by induction on n, that a
  renewing computation gives i.i.d. values, and that post-processing and sequencing renewing computations renews.
* C214-C217 the same for samplers over normal, uniform and Gamma draws (`NormalSource`, `UniformSource`, `GammaSource`): vectors of draws by the
  sequencing lemma and the affine law of C51; categorical and mixture by the law of a computation chosen by an independent index
  (`Renews.choose`). Diagonal/isotropic (C51 ✗), log-normal (C171 ✗) and Dirichlet (C101 ✗) are proved i.i.d. with the law they actually have.
  `Props/Repeat3.lean`: an i.i.d. sequence has one law only (`IID.unique`), so C213 (Gamma with rate other than 1, Fréchet, Pareto and Student with
  parameters `new` does not check, overflowing discrete uniform), C215 (diagonal, isotropic) and C217 are ✗ for every source.
* C218 `new` against `new_unchecked` (`Spec.OnlyChecks`): by unfolding the constraint checks of C18, for every `FP`. ✗ Dirichlet: `new` refuses every
  non-empty vector (C100 ✗). C219 the `Default`/`standard()` values against the checked constructors, in any lawful arithmetic.
* C220 `support()`: the space types of the external crate `spaces` are given their documented meaning (`RealSpace.points`, trusted; `Naturals` of
  Poisson is not modelled because the crate's source does not say here whether it contains 0). `Spec.SupportedOn`: no mass outside, positive mass on open
  parts. By positivity of the density on the interior; Gaussian vectors by an invertible affine image of a product measure. ✗ generalised Pareto, generalised
  extreme value, degenerate, Dirichlet, bivariate normal with |ρ| = 1, Bernoulli and geometric at the end points of p.
* C221 counts: by induction on the number of items taken; by case analysis on the index.
* C222-C224 NaN and infinities: by the IEEE rules of `F64` alone (no law of rounding is used), for every parameter. The special functions are assumed to
  propagate NaN (`FP.NaNFns`, met by the binary64 instance). ✗ all three: most `cdf`s hand an invalid `Probability` (NaN) out through
  `new_unchecked`, locations are not checked at all, scales and rates may be infinite. What holds: scales, shapes, rates and probabilities are never NaN.
* C225-C226 serde: `Model/Serde.lean` models the derived `Serialize`/`Deserialize` over a universe of type shapes (numbers, newtypes, tuples, arrays through
  `utils::serde_arrays`, vectors, structs with named fields read entry by entry as the derived `visit_map` does). C225 by mutual induction over the shapes
  (round trip, order and unknown entries by reduction to "the entry of that name, if unique", which is permutation invariant), then at each of the
  parameter types of the crate (`Model/Dist/Serde.lean`). C226 ✗ for every type with a constraint: the derived code checks nothing, so every refused
  argument is read and `From<Params>` makes a distribution of it; for a mixture with too few component parameters that is undefined behaviour.
* C227-C229 methods that are declared but panic: the stubs are in `Model/Dist/Stubs.lean` with the provided methods over an implementation that may panic.
  C227 ✗ for 25 of the 30 implementations of `Quantiles`; C228 ✗ for Poisson and all multivariate laws; C229 ✗ mixtures, folded normal, Kumaraswamy.
* C230 `Param`: `constraints()` as the list of its tests, against the checked constructors; by the algebra of C12/C13. ✗ dense covariances (the list says
  positive, the constructor non-negative), simplex vectors and bivariate covariances (`todo!()`).
* C231 constructors and `params()` of the multivariate log-normal (`Model/MvLogNormal.lean`), by reduction to those of the normal laws.
* C235, C236 (`Props/FloatStats*.lean`, `Props/FloatMean.lean`): `variance()`, `mean()`, `median()`, `modes()` in rounded arithmetic, for all
  finite parameters. Sign and range lemmas for rounded `+ - * /` (`Lemmas/FloatSign.lean`), then family by family; violated for
  Beta, Triangular, Weibull, Chi, LogNormal, generalised Pareto (variance NaN or negative) and for Arcsine, Chi, Geometric, Beta, Pareto
  (location outside the support, by overflow or by one rounding).
* C237-C243 one law, several classes (`Spec/Links.lean`: `SameVal`, `SameOn`, `SameList`): each class is already related to its mathematical
  law by C38-C200; here two classes whose laws coincide are compared method by method. Proved by evaluating both sides over the reals, by uniqueness of
  moments and entropy where the formulas differ, by uniqueness of the Cholesky factor for the dense normal. Violated: the Rayleigh cdf (unless σ = 1),
  the modes of Beta(α, 1), the mean of the generalised Pareto law, the Student cdf, the inverse-Gamma/Gamma cdf pair, Bernoulli's cdf, and the pdf, sampler and
  constructor of the dense, diagonal and bivariate normal classes.
* C244 mixtures as multisets: by permutation invariance of the weighted sums. ✗ for a zero-weight component of infinite mean (0·∞ = NaN).
* C245, C246 assignments to public fields (`Model/Fields.lean`: an assignment writes one field of the struct): induction over the history. ✗ the
  support of a mixture and the moments, modes and density of a Dirichlet law are computed from values cached at construction and go stale; the
  reported variance can become negative.
* C247 comparisons of probabilities (`Model/ProbOrd.lean`): IEEE comparison on [0, 1] is the order of the reals; monotone rounding for the operations.
* C248 mixtures in rounded arithmetic: monotone rounding carried through the fold of the weighted sum (induction on the components); the
  violations are universal where possible: with exact arithmetic the variance of an accepted mixture of identical normals is `s v + s (1 - s) μ²`
  (`s` the accepted sum, which may exceed 1 by 1e-5), so it turns negative for a large mean; a zero weight times an infinite density is NaN; the
  textbook formula cancels (`Normal(2^27, 1)` alone: variance 0) and overflows (`|μ| ≥ 2^512`: NaN).
* `Verif/Conformance.lean` restates most of the crate's own `#[test]`s about the model as `example`s. They are tests of the transcription on
  literals, not claims; no entry of MANIFEST.json rests on them.
* C249, C250 discrete laws in rounded arithmetic (`Props/FloatPmf*.lean`): forward error analysis. `Near` (Lemmas/FloatAcc) tracks relative error
  and underflow through the repeated squaring of `powi` (strong induction on the exponent), `Within` (Lemmas/FloatErr) tracks absolute error
  through the logarithm of the Poisson mass. Violations are universal over ranges of outcomes: infinite masses of the geometric and binomial
  laws beyond 2^31 (the `as i32` cast turns the exponent negative), negative masses of the widest discrete uniform law in release builds, infinite
  and unit masses of the Poisson law near 2^60 (`log k!` and `k ln λ - λ` cancel to a multiple of 2^13). Not covered: BetaBinomial and
  Multinomial (no accuracy contract is assumed for the `special-fun` functions).
* C251 accuracy of the continuous distribution functions (`Props/FloatAccuracy*.lean`): `FP.Accurate` adds to the laws of the arithmetic that the
  library's `exp`, `ln`, `atan`, `powf` have relative error 2^-52 before the final rounding, `norm` absolute error 2^-48, and that differences and
  square roots of representable numbers have no underflow error (proved for binary64). `zscore` shows the standardised argument has relative error
  2^-51 or is an infinity of the right sign; `mvt_rel` turns a relative argument error into an absolute error of a saturating function.
  Exponential, Fréchet and normal hold for all f64 arguments; the others fail where `x - mu` overflows, `xm / x` or `x / lambda` underflows, or
  (log-normal) sigma is far below the rounding of `ln x`: `_violated` theorems. Not treated: laws whose cdf is already wrong in exact arithmetic
  (Rayleigh, Laplace, Levy, Gamma, StudentT) and those resting on the incomplete gamma and beta functions.
* C252 samples in floating point (`Spec/FloatSample.lean`, `Props/FloatSample*.lean`): the source of random numbers is arbitrary, only constrained to answer
  inside the requested interval (`InRange`; for normal variates `NormalInRange`, magnitude at most 64). Kumaraswamy, uniform, normal and folded normal samples are
  points of the support (proved by following sign and range through the rounded operations). Violated: Fréchet returns `+inf` for the draw 0 and 0 for the draw 1
  (the uniform variate is drawn from the closed interval), for every shape; Laplace returns `-inf` for the draw -1/2, for all parameters; the log-normal sampler
  overflows and underflows for ordinary parameters (binary64, `sigma = 16`, variates ±1); the inverse normal sampler returns 0 or `+inf` after cancellation
  (binary64, `mu = 2^60`). Partial: Fréchet and log-normal samples are at least 0, Laplace samples never NaN.
* C253 densities in floating point (`Spec/FloatPDF.lean`, `Lemmas/FloatRel3.lean`, `FloatRel4.lean`, `Props/FloatDensity*.lean`): same accuracy contract as
  C251. The error is measured against the peak of the density: `2^-48 λ` (exponential), `2^-46/γ` (Cauchy, every f64), `2^-45/σ` (normal, every f64),
  `2^-43/σ` (folded normal). Violated parts: the logistic density is NaN (inf/inf) far below the location (already at -1000 for the standard law), the
  Gumbel density is NaN (exp(inf-inf)) when `(x-mu)/beta` overflows downwards, the uniform density is `1/width` at a rounded upper end above `lb + width`.
* C254 moments in floating point (`Spec/FloatMoments.lean`, `Lemmas/FloatRel5.lean`, `Props/FloatMoments*.lean`): a relative error calculus (`Rel`) for products,
  quotients, square roots, sums of positives and differences with bounded cancellation; the reference values are the integrals `HasMeanVar`, `HasSkew`, `HasKurt`
  of the spec (for Pareto and inverse gamma in closed form, extracted from the exact-arithmetic theorems). Violated where the formula cancels or overflows although the
  moment itself is an ordinary number: beta (equal shapes 2^342..2^510: variance 0), Pareto (variance infinite), narrow triangular (variance 0), beta-binomial with a
  small second shape (variance 0).
* C255 medians and modes in floating point (`Lemmas/FloatRel6.lean`, `Props/FloatMedian.lean`, `Props/FloatModes.lean`): the calculus of C254 extended with
  `powf`, `exp`, `ln`; reference values are points `m` with `cdf m = 1/2` and `IsMode` of the spec density. Violated where `2^z - 1` or `1 - 2^(-1/b)` or
  `sqrt(1+t^2) - t` or `alpha+beta-2` cancels: generalised Pareto with tiny shape (median = location, a point of probability 0), Kumaraswamy with large second shape
  (median 0), inverse normal with large mean/shape (mode 0), beta near (1,1) (mode 1/4 instead of 1/3).
* C256 entropies in floating point (`Lemmas/FloatRel7.lean`, `Props/FloatEntropy.lean`): absolute error of logarithms of `Rel`-accurate arguments; the reference
  value is the integral `HasEntropy`. The laws using the Euler-Mascheroni constant additionally assume `FP.AccurateEuler` (digamma(1) within 2^-50 of -gamma;
  instances: exact arithmetic, binary64 with a correctly rounded digamma). Violated: the Pareto entropy is `+inf` for every shape up to 1/1024
  (exp(1 + 1/alpha) overflows).
* C257 quantile functions in floating point (`Float/Quantile.lean`, `Spec/FloatQuantile.lean`, `Props/FloatQuantile.lean`): monotonicity and range from the
  monotone primitives; contract class `FP.QuantileFns` (tan monotone between its poles, norm_inv monotone on (0,1), both exact at the centre), met by binary64.
  Violated: the exponential quantile is never positive, the discrete uniform `quantile(1)` is one above the support.
* C258 maximum-likelihood fits in floating point (`Props/FloatFit.lean`): the rounding error of a running sum by induction on the sample (`fsum_err`); the
  Bernoulli count and Poisson total are exact below 2^53, so those fits are one rounding away from the exact ones for every sample; the normal fit within
  `(n+2)A/2^52` and `12(n+3)A²/2^52` (partial). Violated (binary64): equal samples accepted with a spurious variance, all samples within 2^-600 of zero refused,
  and samples of 2^1023 and above accepted with infinite mean and variance.
* C259 densities are never negative in floating point (`Float/Positive.lean`, `Props/FloatPdf3.lean`): a calculus of sign bits (`sign_mul`, `sign_div`, `sign_powf`,
  ...) that follows the computed formula, signed zeros, overflow and NaN included. Violated: the arcsine law starting at 0, inverse Gamma laws with even shape and
  Weibull/Kumaraswamy laws with a shape below half an ulp of 1 return minus infinity at `-0`; Pareto laws with scale -1 and even shape are accepted and return
  negative densities.
* C260 multivariate moments in floating point (`Lemmas/FloatScale.lean`, `Props/FloatMulti.lean`): the running sum of positive concentrations is relatively accurate
  (induction over the list, any length up to 100000), then the relative error calculus; where `Σα - αᵢ` cancels, an error calculus against a scale (`OnScale`).
  Violated: the Dirichlet variance of a dominating component (`α = 2^k` beside 1) is computed as zero. C261 Fisher information in floating point (same file), by
  the relative error calculus against the integral defining the information; violated for Pareto, exponential and Poisson laws whatever the rounding.
* C262 discrete distribution functions in floating point (`Props/FloatDiscrete.lean`): running sums of accepted weights are representable and non-decreasing;
  repeated squaring is monotone in the base; the incomplete beta function through `FP.SpecialFns`. The tolerance of the weight check lets the categorical cdf exceed 1.
* C263 convolutions in floating point (`Props/FloatConv.lean`): forward error of a left-to-right sum relative to the sum of absolute values, for any list, in the
  order `convolve_many` uses; overflow to an infinite rate, dependence on the grouping and absorption of a summand are proved as violations in binary64.
* C264 functions of a probability (`Props/ProbFns.lean`): values in exact arithmetic; sign, range and monotonicity in rounded arithmetic from
  the contracts of `ln`, `powf` and repeated squaring; sums by induction over the list. The same file sharpens C10 (a sampled vector is on the
  simplex exactly when the product of the draws is at least the exponential of minus their sum).
* C265 log-likelihoods in floating point (`Props/FloatLik.lean`): Bernoulli for every accepted parameter and data; Poisson in binary64 for
  moderate rates and counts (`_partial`); `C265_poisson_violated`: a likelihood of plus infinity at a rate of 2^60.
* C266 accuracy of cdfs, continued (`Props/FloatAccuracy4.lean`-`FloatAccuracy6.lean`): Kumaraswamy for b >= 1 with error proportional to b, for b < 1 with the
  Hölder bound 2^(-49 b); uniform with an error relative to |l|/w; generalised Pareto and extreme value with errors proportional to 1/zeta. The counterexamples
  (all in binary64) show where accuracy is lost: tiny Kumaraswamy shapes (`1 - x^a` cancels), a width below the spacing of the lower bound, tiny shapes
  (`1 + zeta z` rounds to 1), and the threshold 10^-7 of the extreme value law, below which the code computes the Gumbel law (`C266_gev_small_partial`: off by at most 5 zeta).
* C267 accuracy of the triangular cdf (`Props/FloatAccuracy7.lean`, perturbation of the corners in `Lemmas/TriangularPert.lean`): `_partial` with the
  magnitude of the lower corner in the bound; `C267_triangular_violated`: at 2^53 the rounded upper corner cuts off 2/15 of the mass.
* C268 Erlang `log_pdf` and `log_cdf` (`Props/ErlangLogs.lean`): the defaults `pdf`, `cdf` are their exponentials at every f64 and in both profiles; the
  values violate the English for every k >= 2 (by `(k-1)(x - ln x)` and `-ln k!`), and hold for k = 1 (`_partial`).
* C269 relative accuracy of densities (`Props/FloatDensity3.lean`, spec `Spec/FloatRelPDF.lean`): eight laws without a natural scale, by the relative
  error calculus of `Lemmas/FloatRel5`-`FloatRel7`; the ranges of the parameters are in the theorems.
* C270 raised cosine and arcsine cdf accuracy (`Props/FloatAccuracy8.lean`, contract `Float/AccurateTrig.lean` for `sin`, `cos`, `asin`): cosine
  within 2^-48 on the support, and proved more than 1/4 off beyond it (not clamped); arcsine only within 2^-25, by `sin(x-y) sin(x+y) = sin² x - sin² y` and
  Jordan's inequality — and proved more than 2^-30 off at the largest f64 below 1 in binary64, so the loss of half the digits is real.
* C271 mixture accuracy (`Props/MixtureAccuracy.lean`): weighted floating-point sums of inexact terms (`weighted_within`, on top of `fsum_abs` and the
  simplex check, which bounds the sum of the weights); cdf, pdf and mean inherit the components' accuracy (normal mixtures as an instance), the variance
  only absolutely, `(n + 2) L² 2^-47`: `Normal(2^j, 1)` alone has mixture variance 0 for every 27 ≤ j ≤ 500.
* C272 provided methods in floating point (`Props/FloatDerived.lean`): the trait-pair evaluation of `Model/Traits.lean` combined with the relative-error
  calculus (`Rel.sqrt`, `Rel.mul`, `Rel.ln_abs`, `exp_at`, `Within.add/sub/mul`), for arbitrary implementations.
* C273 tail probabilities (same file): `C273_tail_partial` keeps the relative accuracy down to tails of about 2^-19. No distribution overrides `ccdf`,
  so the default `!cdf` cancels: `C273_exponential_violated` and `C273_logistic_violated` show that from forty scale units on `ccdf` is
  exactly 0 and `log_ccdf` is `-inf`, where the true logarithm is about -40.
* C274 small probabilities (`Props/FloatTail.lean`): the relative-error calculus (`Rel`) on the distribution functions that are products and exponentials
  (logistic, Gumbel, Frechet, uniform). `1 - exp(-t)` cancels: `C274_exponential_violated`, `…_weibull_…`, `…_gpd_…`, `…_kumaraswamy_…` show `cdf` returning exactly
  0 at every argument with `t <= 2^-55`. `C274_partial` bounds the loss for any accurate cdf.
* C275 log-densities (`Props/FloatLogs.lean`): relative accuracy of the normal density (`C275_normal_partial`), of any density turned into absolute accuracy
  of the default `log_pdf` (`C275_partial`). The default is `ln(pdf)`: `C275_exponential_violated` (from `λx = 750` on) and `C275_normal_violated`
  (from 39 standard deviations on) return `-inf`.
* C276 multivariate log-normal moments (`Props/FloatLogNormal.lean`): `Rel.exp`, `Rel.sub_amp` and `exp_close_rel` against the moments of the pushed-forward
  Gaussian (`expGauss_moments`); `C276_variance_violated`: `exp(v) - 1` cancels, so a small variance is reported as exactly 0.
* C277 paired and bivariate normal densities (`Props/FloatBv.lean`): the relative-error calculus, with `Rel.sub_add_amp` for the quadratic form (its partial
  difference may cancel completely, its total is bounded below when `|rho| <= 1 - 2^-j`); `C277_bivariate_violated` evaluates the density in binary64 at correlation
  `1 - 2^-53` and finds `z = 16` where the real value is below 10. Missing from the partial theorems: correlations beyond 255/256, exponents beyond 64.
* C232-C234 `Display` (`Model/Display.lean`): texts are lists of characters; C232 and C234 by unique readability: a printed number contains no
  punctuation, so the text of an argument list, array or nested constraint can be cut in one way only (`Lemmas/Display.lean`), by induction over lists and
  constraint trees. C233 ✗: uniform, arcsine, triangular, log-normal and folded normal laws print rounded derived quantities, from which the
  parameters cannot be recovered.
